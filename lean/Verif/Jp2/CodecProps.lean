import Verif.Jp2.CodecFirst
import Verif.Jp2.CodecExample
/-!
# C72: an image encoded without loss is decoded exactly
-/
namespace Jp2.Codec
open Jp2.Hdr (R Fail User Enc Tccp SameHeader SameTccp Writable SharedStyle)
open Jp2.Tcd (Rect CompP tileRectOf compRect cdiv)
open Jp2.Cut (CompI ShowsAll Shows tileSamples area)
open Jp2.Area (render render_get Covers Holds HasSample InTile)

/-- **C72.** An image is encoded reversibly with parameters that suit it, and the encoder comes to its end without an error. Then the
decoder, whatever it finds in memory and whether strict or not, takes the codestream and hands over an image whose components are those that
were encoded, sample for sample; whatever the encoder found in memory, wherever its rate allocation put the passes (as long as all of them are
sent), and however the tiles are divided into parts. What has to be known of the codings is that they fit the number formats (see C70 and
`C72_roomy_lossless`). -/
theorem C72_image_lossless (m : Mode) (sz : Nat × Nat) (c : Tp.Cfg) (e : Enc) (P : Nat) (u : User) (hw : Writable e) (hsh : SharedStyle e)
    (hs : Suits m sz c.flag e P) (hu : u.reduce = 0) (hus : Hdr.Suits u e) (h4 : c.tlm = true → e.rsiz ≠ 4) (hsize : c.size < 2 ^ 32)
    (plan : Plans) (hplan : ∀ n c rn k bi j, Pipe.PlanOk e.numlayers (plan n c rn k bi j)) :
    ∃ F, ∀ fuel, F ≤ fuel → ∀ (cs : List CompI) (X : EncEnv) (junk old f : List UInt8), Image e cs → CanCut sz e cs →
      (∀ n K, codeTile m fuel sz plan X c.flag (encPar e) cs n = .ok K → K.Fits) →
      encode m fuel sz plan X c e junk old cs = .ok f →
      ∀ (D : DecEnv) (strict : Bool), ∃ out, decode m fuel sz D u strict f = .ok out ∧ List.Forall₂ Same cs out := by
  obtain ⟨F1, hF1⟩ := bounded _ fun n hn => tile_back hw hsh hs plan hplan (n := n) hn
  obtain ⟨F2, hF2⟩ := bounded _ fun n hn => first_full (hs.sends n hn) (hs.starts n hn) m
  refine ⟨max F1 F2, fun fuel hfu cs X junk old f hi hc hcode hf D strict => ?_⟩
  have hF := hF1 fuel (by omega)
  have hF2 := hF2 fuel (by omega)
  -- the file
  unfold encode at hf
  obtain ⟨ts, ht, hf⟩ := Hdr.bind_ok hf
  obtain ⟨tl, tg⟩ := tiles_inv ht
  obtain ⟨xs, hxs⟩ := choose_list (l := ts) (Q := fun t (x : List Hdr.Change × List Nat) => Tp.WTileOk c e t x.1 x.2 ∧ x.1 = [] ∧ ∃ k, x.2 = [k]) fun t hmem => by
    obtain ⟨n, hn⟩ := List.getElem?_of_mem hmem
    obtain ⟨i, h1, rfl⟩ := tg n t hn
    have hlt : n < (encPar e).tw * (encPar e).th := by rw [← tl]; exact (List.getElem?_eq_some_iff.1 hn).1
    obtain ⟨k, k1, k2, k3⟩ := hs.parts n hlt i h1
    exact ⟨([], [k]), ⟨rfl, by simp, by simp, k1, ⟨k, rfl, k2⟩, by simpa using k3⟩, rfl, k, rfl⟩
  have hxs1 : List.Forall₂ (fun t x => Tp.WTileOk c e t x.1 x.2) ts xs := hxs.imp fun _ _ h => h.1
  have hempty : ∀ x ∈ xs, x.1 = [] := fun x hx => by
    obtain ⟨i, hi⟩ := List.getElem?_of_mem hx
    have hl : i < ts.length := by rw [hxs.length_eq]; exact (List.getElem?_eq_some_iff.1 hi).1
    exact (forall2_at hxs (List.getElem?_eq_getElem hl) hi).2.1
  have back := fun whole hwhole => Tp.C67_read_back u (by omega) c e _ ts xs junk old f hw hsh (fun t ht => by rw [(hs.rev t ht).2.1]; omega) hus h4 tl hxs1
    (fun x hx => by rw [hempty x hx]; simp) hsize
    (fun tile room o ho => by
      obtain ⟨K, k1, k2⟩ := coder_first ho
      intro h0
      obtain ⟨hn, hK⟩ := code_inv hw hs hi hc k1
      refine hF2 tile hn _ _ _ _ K hK ?_
      rw [List.head?_eq_getElem?, k2, h0]) hf strict whole hwhole
  -- the header
  obtain ⟨d, rest, -, hd, hsame, -⟩ := back false (by simp)
  have hok := (Hdr.C53_header_in_range u (by omega) f rest d hd).geom
  have htw : d.tw = Hdr.cdiv (e.x1 - e.tx0) e.tdx := by
    rw [hok.count_x, hsame.image.2.2.1, hsame.tiles.2.2.1, hsame.tiles.1]
  have hth : d.th = (encPar e).th := by
    rw [hok.count_y, hsame.image.2.2.2, hsame.tiles.2.2.2, hsame.tiles.2.1]
    rfl
  obtain ⟨hpar, -⟩ := setup_same (sz := sz) hsame hs.rev htw (tcp := d.tcp) rfl rfl rfl rfl rfl
  obtain ⟨q, hq⟩ : ∃ q, q = params sz (encPar e) := ⟨_, rfl⟩
  obtain ⟨hg, hfit, hlen, -⟩ := fit_of hw hs.room
  have hfits := image_fits hw hs.room hi
  have hk : Area.Known ⟨params sz (encPar e), d.th, 0⟩ := by
    rw [hth]
    exact ⟨hg, hs.small, hfit, fun p hp => ((hfit 0 (by
      have := hw.image_x; have := hw.image_y; have := hw.tile_x; have := hw.tile_y
      have one : ∀ a b, 0 < a → 0 < b → 0 < Hdr.cdiv a b := fun a b ha hb => by
        unfold Hdr.cdiv
        exact Nat.div_pos (by omega) hb
      exact Nat.mul_pos (one _ _ (by omega) (by omega)) (one _ _ (by omega) (by omega)))).comps p hp).res.1⟩
  have hfresh : Area.Fresh ⟨params sz (encPar e), d.th, 0⟩ (d.comps.map fun c => { dx := c.dx, dy := c.dy }) := by
    have hl := congrArg List.length hsame.comps
    simp only [List.length_map] at hl
    refine ⟨by rw [List.length_map, hl]; exact hlen.symm, fun i p c0 hp hc0 => ?_, fun c0 hc0 => ?_⟩
    · obtain ⟨k, t, k1, k2, rfl, -⟩ := param_comp hp
      rw [List.getElem?_map, Option.map_eq_some_iff] at hc0
      obtain ⟨a, ha, rfl⟩ := hc0
      have := congrArg (fun l => l[i]?) hsame.comps
      simp only [List.getElem?_map, k1, ha, Option.map_some, Option.some.injEq, Prod.mk.injEq] at this
      exact ⟨this.2.2.1, this.2.2.2⟩
    · rw [List.mem_map] at hc0
      obtain ⟨a, -, rfl⟩ := hc0
      rfl
  have i0 : Area.I32 0 := by unfold Area.I32; omega
  obtain ⟨w, b, cs', hset, -⟩ : ∃ w b cs', Area.setArea ⟨params sz (encPar e), d.th, 0⟩ (d.comps.map fun c => { dx := c.dx, dy := c.dy }) 0 0 0 0 = .ok (w, b, cs') ∧ True := by
    rcases Area.C69_area_set _ hk _ hfresh 0 0 0 0 i0 i0 i0 i0 with ⟨w, b, cs', h, -⟩ | ⟨-, h, -⟩
    · exact ⟨w, b, cs', h, trivial⟩
    · exact absurd ⟨rfl, rfl, rfl, rfl⟩ h
  obtain ⟨-, -, hwb⟩ := Area.setArea_inv hk i0 i0 i0 i0 hset
  rw [if_pos ⟨rfl, rfl, rfl, rfl⟩] at hwb
  obtain ⟨hb, hwin⟩ := hwb
  -- the tiles
  obtain ⟨d', rest', js, hd', -, hjs, hnd, hmem, hjob⟩ := back (Area.single ⟨params sz (encPar e), d.th, 0⟩ b) (fun h => by
    obtain ⟨-, a1, a2⟩ := Area.single_inv hk h (by rw [hb]; exact ⟨le_refl _, le_refl _⟩) (by rw [hb]; exact ⟨le_refl _, le_refl _⟩)
    rw [tl]
    change (params sz (encPar e)).tw * (encPar e).th = 1
    rw [← hth]
    change (params sz (encPar e)).tw = 1 at a1
    change d.th = 1 at a2
    rw [a1, a2])
  rw [hd] at hd'
  cases hd'
  have hjs' : Tp.decodeFile u strict (Area.single ⟨params sz (encPar e), d.th, 0⟩ b) (some w) f = .ok js := by
    rw [← hjs]
    unfold Tp.decodeFile
    rw [hd, hwin]
    change Tp.decodeTiles u _ (Tp.withWindow (Tp.start d strict) (some ⟨0, (params sz (encPar e)).tw, 0, d.th⟩)) _ = Tp.decodeTiles u _ (Tp.start d strict) _
    rw [← hpar]
    rfl
  obtain ⟨G, hG⟩ : ∃ G : Nat → List (Rect × List Int), G = fun n => ((params sz (encPar e)).comps.map fun p => compRect (tileRectOf (params sz (encPar e)) n) p).zip
    (tileSamples (tileRectOf (params sz (encPar e)) n) (params sz (encPar e)).comps (planesOf (params sz (encPar e)) cs)) := ⟨_, rfl⟩
  have hdec : ∀ j ∈ js, decodeJob m fuel sz D strict d j = .ok (j.tile, G j.tile) := by
    intro j hj
    have hlt : j.tile < ts.length := (hmem j.tile).1 (List.mem_map_of_mem hj)
    have hlt' : j.tile < (encPar e).tw * (encPar e).th := by rw [← tl]; exact hlt
    have hlx : j.tile < xs.length := by rw [← hxs.length_eq]; exact hlt
    obtain ⟨ga, -, gt⟩ := hjob j hj _ (List.getElem?_eq_getElem hlx)
    obtain ⟨hwt, -, k, hk2⟩ := forall2_at hxs (List.getElem?_eq_getElem hlt) (List.getElem?_eq_getElem hlx)
    obtain ⟨info, hinfo, htt⟩ := tg j.tile _ (List.getElem?_eq_getElem hlt)
    have hcounts := hwt.counts
    rw [hk2, htt] at hcounts
    obtain ⟨k0, hk0, hk1⟩ := hwt.first
    rw [hk2] at hk0
    simp only [List.head?_cons, Option.some.injEq] at hk0
    subst hk0
    rw [hk2] at ga
    -- the coding
    have hsch : (Tp.schedule [k]).length = k := by unfold Tp.schedule; simp
    obtain ⟨K, hK⟩ : ∃ K, codeTile m fuel sz plan X c.flag (encPar e) cs j.tile = .ok K := by
      cases hsc : Tp.schedule [k] with
      | nil => rw [hsc] at hsch; simp at hsch; omega
      | cons y ys =>
        rw [hsc] at ga
        generalize j.data = jd at ga
        cases ga with
        | cons h1 h2 =>
          obtain ⟨K, h, -⟩ := coder_first h1
          exact ⟨K, h⟩
    obtain ⟨-, henc⟩ := code_inv hw hs hi hc hK
    obtain ⟨parts, hp1, hp2⟩ := coding_parts henc
    have hpl := encodeParts_length (t := (setup sz (encPar e) j.tile).pi) rfl hinfo hcounts hp1
    have hdata : j.data = K.bytes := by
      have := gave_bytes hK ga (by rw [hp2, hpl, hsch]; omega)
      rw [this]
      rfl
    -- decoding it
    obtain ⟨q1, q2⟩ := setup_same (sz := sz) hsame hs.rev htw (tcp := j.tcp) (by rw [gt]) (by rw [gt]) (by rw [gt]) (by rw [gt]) (by rw [gt])
    obtain ⟨TD, hTD⟩ := init_ok hw hs hlt' false
    have hback := hF j.tile hlt' X cs K hi hc hK (hcode _ K hK) strict (D.ex j.tile) (D.junk1 j.tile) (D.junk2 j.tile)
    unfold decodeJob
    rw [q1, hTD]
    simp only
    rw [q2, hdata, hback]
    simp only
    rw [rects_of (hfit _ hlt') hTD, hG]
  have hys := mapM_ok hdec
  obtain ⟨Q, hQ⟩ : ∃ Q, Q = samplesOf (js.map fun j => (j.tile, G j.tile)) := ⟨_, rfl⟩
  obtain ⟨Pl, hPl⟩ : ∃ Pl : Nat → Int → Int → Int, Pl = fun i => ((planesOf (params sz (encPar e)) cs)[i]?).getD fun _ _ => 0 := ⟨_, rfl⟩
  have hplanes : ∀ (i : Nat) (p : CompP), (params sz (encPar e)).comps[i]? = some p → ∃ c, cs[i]? = some c ∧ (planesOf (params sz (encPar e)) cs)[i]? = some (Pl i) ∧
      Pl i = planeOf (compRect (area (params sz (encPar e))) p) c.data := by
    intro i p hp
    have hil : i < (planesOf (params sz (encPar e)) cs).length := by rw [← planesOf_len hfits]; exact (List.getElem?_eq_some_iff.1 hp).1
    obtain ⟨p', c', a1, a2, a3⟩ := planesOf_get (List.getElem?_eq_getElem hil)
    rw [hp] at a1
    cases a1
    refine ⟨c', a2, ?_, ?_⟩
    · rw [hPl]
      simp only
      rw [List.getElem?_eq_getElem hil]; rfl
    · rw [hPl]
      simp only
      rw [List.getElem?_eq_getElem hil, a3]
      rfl
  have hdpos : ∀ p ∈ (params sz (encPar e)).comps, 0 < p.dx ∧ 0 < p.dy := by
    intro p hp
    obtain ⟨i, hi⟩ := List.getElem?_of_mem hp
    obtain ⟨k, t, k1, -, rfl, -⟩ := param_comp hi
    obtain ⟨-, -, d1, d2⟩ := hw.comps k (List.mem_of_getElem? k1)
    exact ⟨d1.1, d2.1⟩
  obtain ⟨out, ho1, ho2, ho3⟩ := Area.C69_exact_tiles ⟨params sz (encPar e), d.th, 0⟩ hk _ hfresh 0 0 0 0 i0 i0 i0 i0 w b cs' hset [] rfl Pl Q D.kept (js.map (·.tile))
    (fun n => by
      rw [hmem n, tl, hwin]
      change n < (params sz (encPar e)).tw * (encPar e).th ↔ n < (params sz (encPar e)).tw * d.th ∧ _
      rw [hth]
      constructor
      · intro h
        refine ⟨h, ?_⟩
        have htw0 : 0 < (params sz (encPar e)).tw := by
          rcases Nat.eq_zero_or_pos (params sz (encPar e)).tw with h0 | h0
          · rw [h0, Nat.zero_mul] at h; omega
          · exact h0
        unfold Tp.wanted
        simp only [Bool.and_eq_true, decide_eq_true_eq]
        exact ⟨⟨⟨Nat.zero_le _, Nat.mod_lt _ htw0⟩, Nat.zero_le _⟩, Nat.div_lt_of_lt_mul h⟩
      · exact fun h => h.1)
    (fun n hn i p hp u v hin => by
      obtain ⟨c', a1, a2, a3⟩ := hplanes i p hp
      have hlook : (js.map fun j => (j.tile, G j.tile)).lookup n = some (G n) := by
        rw [show (js.map fun j => (j.tile, G j.tile)) = (js.map (·.tile)).map fun x => (x, G x) by rw [List.map_map]; rfl]
        exact lookup_map G _ n hn
      have hGi : (G n)[i]? = some (compRect (tileRectOf (params sz (encPar e)) n) p, render (Pl i) (compRect (tileRectOf (params sz (encPar e)) n) p)) := by
        have hil : i < (tileSamples (tileRectOf (params sz (encPar e)) n) (params sz (encPar e)).comps (planesOf (params sz (encPar e)) cs)).length := by
          rw [tileSamples_len (planesOf_len hfits)]; exact (List.getElem?_eq_some_iff.1 hp).1
        obtain ⟨p', P', b1, b2, b3⟩ := tileSamples_get (List.getElem?_eq_getElem hil)
        rw [hp] at b1
        cases b1
        rw [a2] at b2
        cases b2
        rw [hG, List.getElem?_zip_eq_some]
        refine ⟨by rw [List.getElem?_map, hp]; rfl, ?_⟩
        rw [List.getElem?_eq_getElem hil, b3]
      rw [hQ]
      unfold samplesOf
      rw [hlook, Option.bind_some, hGi]
      simp only
      refine planeOf_render (has_of (hdpos p (List.mem_of_getElem? hp)) ?_)
      rw [Area.tileRect_has]
      simpa using hin)
    (fun i p hp _ => by
      obtain ⟨c', a1, -, -⟩ := hplanes i p hp
      have hcf := forall2_at hfits hp a1
      have hpos : 0 < c'.data.length := List.length_pos_iff.2 (hi.ne c' (List.mem_of_getElem? a1))
      rw [hcf.size] at hpos
      have hp1 := Nat.pos_of_mul_pos_right hpos
      have hp2 := Nat.pos_of_mul_pos_left hpos
      obtain ⟨d1, d2⟩ := hdpos p (List.mem_of_getElem? hp)
      have some_u : ∀ x0 x1 s : Nat, 0 < s → 0 < (cdiv x1 s - cdiv x0 s).toNat → ∃ u : Nat, x0 ≤ u * (s * 2 ^ 0) ∧ u * (s * 2 ^ 0) < x1 := by
        intro x0 x1 s hs0 hlt
        have hs' : (0 : Int) < s := by exact_mod_cast hs0
        have e1 := hdr_cdiv x0 s hs0
        refine ⟨Hdr.cdiv x0 s, ?_⟩
        have c1 := (Tcd.cdiv_le hs' (a := x0) (u := (Hdr.cdiv x0 s : Nat))).1 (by omega)
        have c2 := (Tcd.lt_cdiv hs' (a := x1) (u := (Hdr.cdiv x0 s : Nat))).1 (by omega)
        rw [Nat.pow_zero, Nat.mul_one]
        exact ⟨by exact_mod_cast c1, by exact_mod_cast c2⟩
      rw [hb]
      first
        | exact ⟨some_u _ _ _ d1 hp1, some_u _ _ _ d2 hp2⟩
        | exact ⟨some_u _ _ _ d1 hp2, some_u _ _ _ d2 hp1⟩)
  refine ⟨out, ?_, ?_⟩
  · unfold decode
    rw [hd]
    change (Area.setArea ⟨params sz (decPar d d.tcp), d.th, u.reduce⟩ _ 0 0 0 0 >>= _) = _
    rw [hpar, hu, hset]
    change (Tp.decodeFile u strict (Area.single ⟨params sz (encPar e), d.th, 0⟩ b) (some w) f >>= _) = _
    rw [hjs']
    change (js.mapM (decodeJob m fuel sz D strict d) >>= _) = _
    rw [hys]
    change Area.decodeBy ⟨params sz (encPar e), d.th, 0⟩ b [] (samplesOf (js.map fun j => (j.tile, G j.tile))) D.kept (js.map (·.tile)) cs' = _
    rw [← hQ]
    exact ho1
  · rw [if_pos rfl] at ho2
    refine forall2_idx (by rw [ho2]; exact hfits.length_eq.symm) fun i c' o hc' hout => ?_
    obtain ⟨i', p, g1, g2, g3, g4, g5⟩ := ho3 i o hout
    unfold Area.asked at g1
    rw [if_pos rfl] at g1
    cases g1
    obtain ⟨c'', a1, -, a3⟩ := hplanes i p g2
    rw [hc'] at a1
    cases a1
    rw [a3, hb] at g5
    exact same_of (hdpos p (List.mem_of_getElem? g2)) (forall2_at hfits g2 hc') (hi.ne _ (List.mem_of_getElem? hc')) g3 g4 g5

/-- **C72.** The same for all images with the parameters, if every band announces `b` bit planes or more, where `b` is enough for the
coefficients of any image of the precision, after all transforms, and at most 25. (The encoder's default announces fewer, see
`C70_default_planes_too_few`.) -/
theorem C72_roomy_lossless (m : Mode) (sz : Nat × Nat) (c : Tp.Cfg) (e : Enc) (P : Nat) (u : User) (hw : Writable e) (hsh : SharedStyle e)
    (hs : Suits m sz c.flag e P) (hu : u.reduce = 0) (hus : Hdr.Suits u e) (h4 : c.tlm = true → e.rsiz ≠ 4) (hsize : c.size < 2 ^ 32)
    (plan : Plans) (hplan : ∀ n c rn k bi j, Pipe.PlanOk e.numlayers (plan n c rn k bi j)) (b : Nat) (hb : b ≤ 25)
    (hbig : ∀ t ∈ e.tccps, (2 : Int) ^ e.mct * 2 ^ (P - 1) * 4 ^ (t.numres - 1) < 2 ^ b)
    (hbps : ∀ t ∈ e.tccps, ∀ (i : Nat) (s : Nat × Nat), i < 3 * (t.numres - 1) + 1 → t.steps[i]? = some s → b + 1 ≤ s.1 + t.numgbits) :
    ∃ F, ∀ fuel, F ≤ fuel → ∀ (cs : List CompI) (X : EncEnv) (junk old f : List UInt8), Image e cs → CanCut sz e cs →
      encode m fuel sz plan X c e junk old cs = .ok f →
      ∀ (D : DecEnv) (strict : Bool), ∃ out, decode m fuel sz D u strict f = .ok out ∧ List.Forall₂ Same cs out := by
  obtain ⟨F, hF⟩ := C72_image_lossless m sz c e P u hw hsh hs hu hus h4 hsize plan hplan
  refine ⟨F, fun fuel hfu cs X junk old f hi hc hf => hF fuel hfu cs X junk old f hi hc (fun n K hK => ?_) hf⟩
  obtain ⟨hn, h⟩ := code_inv hw hs hi hc hK
  obtain ⟨TE, hE⟩ := init_ok hw hs hn true
  obtain ⟨TD, hD⟩ := init_ok hw hs hn false
  refine Pipe.fits_of_roomy (S := setup sz (encPar e) n) hE hD (hs.tile n hn TE hE) (samples_ok hw hsh hs hi ((fit_of hw hs.room).2.1 n hn) hE) (hplan n) hb ?_ ?_ h
  · intro p hp
    obtain ⟨i, hi⟩ := List.getElem?_of_mem hp
    obtain ⟨k, t, -, k2, rfl, -⟩ := param_comp hi
    have hm := List.mem_of_getElem? k2
    have := hbig t hm
    simp only [List.length_take, hw.prcs_len t hm]
    rw [Nat.min_eq_left (hw.style t hm).numres.2]
    exact this
  · intro i rn bi
    change (b : Int) ≤ planes e.tccps i rn bi
    unfold planes
    split
    · omega
    · rename_i t ht
      have hm := List.mem_of_getElem? ht
      by_cases hlt : rn < t.numres ∧ bi < (if rn = 0 then 1 else 3)
      · rw [if_pos hlt]
        cases hst : t.steps[bandNo rn bi]? with
        | none => simp only; omega
        | some s =>
          have := hbps t hm (bandNo rn bi) s (by
            unfold bandNo
            have := hlt.2
            split
            · omega
            · rename_i h0
              rw [if_neg h0] at this
              omega) hst
          simp only
          omega
      · rw [if_neg hlt]; omega

/-- **C72.** The same, band by band: after all levels the lowest band has less than `b` bits, and every band announces `b` bit planes and its
gain (one more for `HL` and `LH`, two more for `HH`). -/
theorem C72_planes_by_band (m : Mode) (sz : Nat × Nat) (c : Tp.Cfg) (e : Enc) (P : Nat) (u : User) (hw : Writable e) (hsh : SharedStyle e)
    (hs : Suits m sz c.flag e P) (hu : u.reduce = 0) (hus : Hdr.Suits u e) (h4 : c.tlm = true → e.rsiz ≠ 4) (hsize : c.size < 2 ^ 32)
    (plan : Plans) (hplan : ∀ n c rn k bi j, Pipe.PlanOk e.numlayers (plan n c rn k bi j)) (b : Nat) (hb : b + 2 ≤ 25)
    (hbig : ∀ t ∈ e.tccps, (9 : Int) ^ (t.numres - 1) * (2 * (2 ^ e.mct * 2 ^ (P - 1)) + 3) < 4 ^ (t.numres - 1) * (2 ^ (b + 1) + 3))
    (hbps : ∀ t ∈ e.tccps, ∀ (i : Nat) (s : Nat × Nat), i < 3 * (t.numres - 1) + 1 → t.steps[i]? = some s →
      b + (if i = 0 then 0 else [1, 1, 2].getD ((i - 1) % 3) 0) + 1 ≤ s.1 + t.numgbits) :
    ∃ F, ∀ fuel, F ≤ fuel → ∀ (cs : List CompI) (X : EncEnv) (junk old f : List UInt8), Image e cs → CanCut sz e cs →
      encode m fuel sz plan X c e junk old cs = .ok f →
      ∀ (D : DecEnv) (strict : Bool), ∃ out, decode m fuel sz D u strict f = .ok out ∧ List.Forall₂ Same cs out := by
  obtain ⟨F, hF⟩ := C72_image_lossless m sz c e P u hw hsh hs hu hus h4 hsize plan hplan
  refine ⟨F, fun fuel hfu cs X junk old f hi hc hf => hF fuel hfu cs X junk old f hi hc (fun n K hK => ?_) hf⟩
  obtain ⟨hn, h⟩ := code_inv hw hs hi hc hK
  obtain ⟨TE, hE⟩ := init_ok hw hs hn true
  obtain ⟨TD, hD⟩ := init_ok hw hs hn false
  refine Pipe.fits_of_grown (S := setup sz (encPar e) n) hE hD (hs.tile n hn TE hE) (samples_ok hw hsh hs hi ((fit_of hw hs.room).2.1 n hn) hE) (hplan n) hb ?_ ?_ h
  · intro p hp
    obtain ⟨i, hi⟩ := List.getElem?_of_mem hp
    obtain ⟨k, t, -, k2, rfl, -⟩ := param_comp hi
    have hm := List.mem_of_getElem? k2
    have := hbig t hm
    simp only [List.length_take, hw.prcs_len t hm]
    rw [Nat.min_eq_left (hw.style t hm).numres.2]
    exact this
  · intro i p rn bi _ _ hbi
    change ((b + Pipe.gainOf rn bi : Nat) : Int) ≤ planes e.tccps i rn bi
    have hg : Pipe.gainOf rn bi ≤ 2 := by unfold Pipe.gainOf; split <;> [omega; split <;> omega]
    unfold planes
    split
    · omega
    · rename_i t ht
      have hm := List.mem_of_getElem? ht
      by_cases hlt : rn < t.numres ∧ bi < (if rn = 0 then 1 else 3)
      · rw [if_pos hlt]
        cases hst : t.steps[bandNo rn bi]? with
        | none => simp only; omega
        | some s =>
          have hlt2 := hlt.2
          have hnum : bandNo rn bi < 3 * (t.numres - 1) + 1 := by
            unfold bandNo
            split
            · omega
            · rename_i h0
              rw [if_neg h0] at hlt2
              omega
          have hgain : (if bandNo rn bi = 0 then 0 else [1, 1, 2].getD ((bandNo rn bi - 1) % 3) 0) = Pipe.gainOf rn bi := by
            unfold bandNo Pipe.gainOf
            by_cases h0 : rn = 0
            · rw [if_pos h0, if_pos h0]; rfl
            · rw [if_neg h0] at hlt2
              rw [if_neg h0, if_neg h0, if_neg (by omega), show (3 * (rn - 1) + 1 + bi - 1) % 3 = bi by omega]
              rcases (by omega : bi = 0 ∨ bi = 1 ∨ bi = 2) with rfl | rfl | rfl <;> rfl
          have := hbps t hm (bandNo rn bi) s hnum hst
          rw [hgain] at this
          simp only
          omega
      · rw [if_neg hlt]; omega

-- an image in two tiles, each in two tile-parts, meets the conditions of both theorems; it is written, and read back
example : Writable exE ∧ SharedStyle exE ∧ Hdr.Suits {} exE ∧ Suits .checked (32, 48) exC.flag exE 8 ∧
    (∀ n c rn k bi j, Pipe.PlanOk exE.numlayers (exPlan n c rn k bi j)) ∧ Image exE exCs ∧ CanCut (32, 48) exE exCs :=
  ⟨ex_writable.1, ex_writable.2.1, ex_writable.2.2, ex_suits, ex_plan, ex_image.1, ex_image.2⟩

example := C72_roomy_lossless .checked (32, 48) exC exE 8 {} ex_writable.1 ex_writable.2.1 ex_suits rfl ex_writable.2.2 (by decide) (by decide) exPlan ex_plan 11 (by decide)
  ex_roomy.1 ex_roomy.2

example : exFile.map List.length = .ok 498 := ex_length

example : (exFile.bind fun f => decode .checked 400 (32, 48) exD {} true f).map (fun l => l.map (·.data)) = .ok (exCs.map fun c => some (c.data.map some)) := ex_back

end Jp2.Codec

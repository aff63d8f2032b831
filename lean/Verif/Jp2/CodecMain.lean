import Verif.Jp2.CodecTile
import Verif.Jp2.PipeProps
import Verif.Jp2.CutProps
import Verif.Jp2.AreaProps
import Verif.Jp2.TpWriteProps
/-!
# From the codings of the tiles to the image
-/
namespace Jp2.Codec
open Jp2.Hdr (R Fail User Enc Tccp SameHeader SameTccp Writable SharedStyle)
open Jp2.Tcd (Rect CompP tileRectOf compRect cdiv)
open Jp2.Cut (CompI ShowsAll Shows tileSamples area)
open Jp2.Area (render render_get Covers Holds HasSample InTile)

/-- The rate allocations of the tiles. -/
abbrev Plans := Nat → Nat → Nat → Nat → Nat → Nat → Pipe.Plan

theorem bounded {Q : Nat → Nat → Prop} : ∀ N : Nat, (∀ n < N, ∃ F, ∀ fuel, F ≤ fuel → Q n fuel) → ∃ F, ∀ fuel, F ≤ fuel → ∀ n < N, Q n fuel
  | 0, _ => ⟨0, fun _ _ n hn => absurd hn (by omega)⟩
  | N + 1, h => by
    obtain ⟨F, hF⟩ := bounded N fun n hn => h n (by omega)
    obtain ⟨G, hG⟩ := h N (by omega)
    refine ⟨max F G, fun fuel hf n hn => ?_⟩
    by_cases e : n = N
    · subst e; exact hG fuel (by omega)
    · exact hF fuel (by omega) n (by omega)

theorem init_ok {m : Mode} {sz : Nat × Nat} {flag : Option Pi.Letter} {e : Enc} {P : Nat} (hw : Writable e) (hs : Suits m sz flag e P) {n : Nat}
    (hn : n < (encPar e).tw * (encPar e).th) (enc : Bool) : ∃ T, Tcd.initTile enc (params sz (encPar e)) n = .ok T := by
  obtain ⟨hg, hf, -, hp⟩ := fit_of hw hs.room
  obtain ⟨x, y, h1, h2, h3, h4, h5⟩ := hp n hn
  have tx := hw.tile_x; have ty := hw.tile_y
  have p3 : 0 < (params sz (encPar e)).tdx := by change 0 < e.tdx; omega
  have p4 : 0 < (params sz (encPar e)).tdy := by change 0 < e.tdy; omega
  refine (Tcd.C45_total (enc := enc) (hf n hn)).2 hs.small ⟨x, y, ⟨⟨by omega, by omega⟩, by omega, by omega⟩, ?_, ?_⟩ p3 p4
  · rw [Tcd.cell_of (by omega)]
    constructor
    · have := h3.1; zify at this; push_cast at this ⊢; exact this
    · have := h3.2; zify at this; push_cast at this ⊢; exact this
  · rw [Tcd.cell_of (by omega)]
    constructor
    · have := h4; zify at this; push_cast at this ⊢; exact this
    · have := h5; zify at this; push_cast at this ⊢; exact this

theorem one_tile {q : Tcd.Params} {th : Nat} (hg : Tcd.Grid q th) (h1 : q.tw = 1) (h2 : th = 1) : tileRectOf q 0 = area q := by
  have gx := hg.x; have gy := hg.y
  have a := hg.tw; have b := hg.th
  rw [h1] at a; rw [h2] at b
  have one : ∀ A B : Nat, 0 < B → 1 = (A + B - 1) / B → A ≤ B := fun A B hB h => by
    by_contra hc
    have : 2 ≤ (A + B - 1) / B := by rw [Nat.le_div_iff_mul_le hB]; omega
    omega
  have a' := one _ _ (by omega) a
  have b' := one _ _ (by omega) b
  unfold tileRectOf area
  simp only [Nat.zero_mod, Nat.zero_div, Nat.zero_mul, Nat.zero_add, Nat.one_mul, Nat.cast_zero, zero_mul, zero_add, one_mul, add_zero]
  congr 1 <;> omega

/-- What a tile's coding is made from. -/
theorem code_inv {m : Mode} {fuel : Nat} {sz : Nat × Nat} {plan : Plans} {X : EncEnv} {flag : Option Pi.Letter} {e : Enc} {P : Nat} {cs : List CompI} {n : Nat} {K : Pipe.Coding}
    (hw : Writable e) (hs : Suits m sz flag e P) (hi : Image e cs) (hc : CanCut sz e cs) (h : codeTile m fuel sz plan X flag (encPar e) cs n = .ok K) :
    n < (encPar e).tw * (encPar e).th ∧
    Pipe.encodeTile m fuel (setup sz (encPar e) n) flag (plan n) (X.room n) (X.junk n)
      (tileSamples (tileRectOf (params sz (encPar e)) n) (params sz (encPar e)).comps (planesOf (params sz (encPar e)) cs)) = some K := by
  unfold codeTile at h
  split at h
  · cases h
  · rename_i hn
    have hn : n < (encPar e).tw * (encPar e).th := by omega
    refine ⟨hn, ?_⟩
    obtain ⟨hg, hf, -, -⟩ := fit_of hw hs.room
    split at h
    · cases h
    · rename_i T hT
      have s1 := hs.small.x1
      have s2 := hs.small.y1
      have gx := hg.x
      have gy := hg.y
      have hcut := Cut.C71_tile_cut (params sz (encPar e)) n T (hf n hn) hT ⟨by omega, by omega⟩ ⟨by omega, by omega⟩ cs _ (shows_all (image_fits hw hs.room hi)) (X.old n)
        ((encPar e).tw * (encPar e).th == 1)
        (fun h1 => by
          rw [beq_iff_eq] at h1
          have : n = 0 := by omega
          subst this
          exact one_tile hg (Nat.eq_one_of_mul_eq_one_right h1) (Nat.eq_one_of_mul_eq_one_left h1))
        (fun h1 => by
          rw [beq_eq_false_iff_ne] at h1
          rcases hc with h2 | ⟨h2, h3⟩
          · exact absurd h2 h1
          · refine ⟨h3, h2, fun tc htc => ?_⟩
            have := ((hs.tile n hn T hT).area tc htc).1
            unfold Pipe.width at this
            omega)
      have hcut' : Cut.cutTile ((encPar e).tw * (encPar e).th == 1) ⟨(encPar e).x0, (encPar e).y0, (encPar e).x1, (encPar e).y1⟩ (X.old n)
          ((T.comps.map (·.rect)).zip cs) = .ok (tileSamples (tileRectOf (params sz (encPar e)) n) (params sz (encPar e)).comps (planesOf (params sz (encPar e)) cs)) := hcut
      rw [hcut'] at h
      change (match Pipe.encodeTile m fuel (setup sz (encPar e) n) flag (plan n) (X.room n) (X.junk n)
        (tileSamples (tileRectOf (params sz (encPar e)) n) (params sz (encPar e)).comps (planesOf (params sz (encPar e)) cs)) with | none => _ | some K => _) = _ at h
      split at h
      · cases h
      · rename_i K' hK
        cases h
        exact hK

/-- A tile that is coded comes back. -/
theorem tile_back {m : Mode} {sz : Nat × Nat} {flag : Option Pi.Letter} {e : Enc} {P : Nat} (hw : Writable e) (hsh : SharedStyle e) (hs : Suits m sz flag e P)
    (plan : Plans) (hplan : ∀ n c rn k bi j, Pipe.PlanOk e.numlayers (plan n c rn k bi j)) {n : Nat} (hn : n < (encPar e).tw * (encPar e).th) :
    ∃ F, ∀ fuel, F ≤ fuel → ∀ (X : EncEnv) (cs : List CompI) (K : Pipe.Coding), Image e cs → CanCut sz e cs →
      codeTile m fuel sz plan X flag (encPar e) cs n = .ok K → K.Fits → ∀ (strict : Bool) (ex : Nat → Pipe.Extra) (junk1 junk2 : Nat → Nat → Int),
      Pipe.decodeTile m fuel (setup sz (encPar e) n) strict ex junk1 junk2 K.bytes = some (K.bytes.length,
        tileSamples (tileRectOf (params sz (encPar e)) n) (params sz (encPar e)).comps (planesOf (params sz (encPar e)) cs)) := by
  obtain ⟨TE, hE⟩ := init_ok hw hs hn true
  obtain ⟨TD, hD⟩ := init_ok hw hs hn false
  obtain ⟨F, hF⟩ := Pipe.C70_tile_lossless m (setup sz (encPar e) n) flag P TE TD hE hD (hs.tile n hn TE hE) (hs.sends n hn) (plan n) (hplan n)
  refine ⟨F, fun fuel hf X cs K hi hc hK hfits strict ex junk1 junk2 => ?_⟩
  obtain ⟨-, h⟩ := code_inv hw hs hi hc hK
  have := hF fuel hf _ (samples_ok hw hsh hs hi ((fit_of hw hs.room).2.1 n hn) hE) _ _ K h hfits strict ex junk1 junk2 []
  rwa [List.append_nil] at this

/-- The rectangles of the components of a tile. -/
theorem rects_of {q : Tcd.Params} {n : Nat} {T : Tcd.TileS} (hf : Tcd.Fit q n) (hT : Tcd.initTile false q n = .ok T) :
    T.comps.map (·.rect) = q.comps.map fun p => compRect (tileRectOf q n) p := by
  have e := (Tcd.initTile_out hf).ok hT
  subst e
  show (q.comps.map (Tcd.compOf false (tileRectOf q n))).map _ = _
  rw [List.map_map]; rfl

theorem tiles_inv {m : Mode} {sz : Nat × Nat} {p : Par} {ts : List Tp.WTile} (h : tiles m sz p = .ok ts) :
    ts.length = p.tw * p.th ∧ ∀ (n : Nat) (t : Tp.WTile), ts[n]? = some t → ∃ i, Pi.tileInfo m (setup sz p n).pi n = some i ∧ t = ⟨(setup sz p n).pi, i⟩ := by
  unfold tiles at h
  obtain ⟨h1, h2⟩ := mapM_get h
  rw [List.length_range] at h1
  refine ⟨h1, fun n t ht => ?_⟩
  have hn : n < p.tw * p.th := by rw [← h1]; exact (List.getElem?_eq_some_iff.1 ht).1
  have := h2 n n t (by rw [List.getElem?_range hn]) ht
  split at this
  · cases this
  · rename_i i hi
    cases this
    exact ⟨i, hi, rfl⟩

/-- A range of positions is known by its members. -/
theorem covers_is {a w x0 x1 s : Nat} (hs : 0 < s) (h : Covers a w x0 x1 (s * 2 ^ 0)) (hne : Hdr.cdiv x0 s < Hdr.cdiv x1 s) :
    a = Hdr.cdiv x0 s ∧ w = Hdr.cdiv x1 s - Hdr.cdiv x0 s := by
  rw [Nat.pow_zero, Nat.mul_one] at h
  have hs' : (0 : Int) < s := by exact_mod_cast hs
  have key : ∀ u : Nat, (a ≤ u ∧ u < a + w) ↔ (Hdr.cdiv x0 s ≤ u ∧ u < Hdr.cdiv x1 s) := fun u => by
    rw [h u]
    have e1 := hdr_cdiv x0 s hs
    have e2 := hdr_cdiv x1 s hs
    have c1 := Tcd.cdiv_le hs' (a := x0) (u := u)
    have c2 := Tcd.lt_cdiv hs' (a := x1) (u := u)
    rw [← e1] at c1
    rw [← e2] at c2
    norm_cast at c1 c2
    rw [c1, c2]
  have k1 := key (Hdr.cdiv x0 s)
  have k2 := key a
  have k3 := key (a + w - 1)
  have k4 := key (Hdr.cdiv x1 s - 1)
  omega

theorem has_of {t : Rect} {p : CompP} (hd : 0 < p.dx ∧ 0 < p.dy) {u v : Nat} (h : t.has ((u * p.dx : Nat) : Int) ((v * p.dy : Nat) : Int)) : (compRect t p).has u v := by
  have hdx : (0 : Int) < p.dx := by exact_mod_cast hd.1
  have hdy : (0 : Int) < p.dy := by exact_mod_cast hd.2
  obtain ⟨h1, h2, h3, h4⟩ := h
  push_cast at h1 h2 h3 h4
  exact ⟨(Tcd.cdiv_le hdx).2 h1, (Tcd.lt_cdiv hdx).2 h2, (Tcd.cdiv_le hdy).2 h3, (Tcd.lt_cdiv hdy).2 h4⟩

/-- What is held for all of the image is the component. -/
theorem same_of {q : Tcd.Params} {p : CompP} {c : CompI} {o : Area.Comp} (hd : 0 < p.dx ∧ 0 < p.dy) (hc : CompFits q p c) (hne : c.data ≠ [])
    (hdx : o.dx = p.dx) (hdy : o.dy = p.dy) (h : Holds (planeOf (compRect (area q) p) c.data) ⟨q.x0, q.y0, q.x1, q.y1⟩ p.dx p.dy 0 o) : Same c o := by
  obtain ⟨a, e, buf, h1, h2, h3, h4, h5⟩ := h
  have hl := hc.size
  have e1 := hdr_cdiv q.x0 p.dx hd.1
  have e2 := hdr_cdiv q.x1 p.dx hd.1
  have e3 := hdr_cdiv q.y0 p.dy hd.2
  have e4 := hdr_cdiv q.y1 p.dy hd.2
  have hwid : ((compRect (area q) p).x1 - (compRect (area q) p).x0).toNat = Hdr.cdiv q.x1 p.dx - Hdr.cdiv q.x0 p.dx := by
    change (cdiv q.x1 p.dx - cdiv q.x0 p.dx).toNat = _
    rw [← e1, ← e2]; omega
  have hhei : ((compRect (area q) p).y1 - (compRect (area q) p).y0).toNat = Hdr.cdiv q.y1 p.dy - Hdr.cdiv q.y0 p.dy := by
    change (cdiv q.y1 p.dy - cdiv q.y0 p.dy).toNat = _
    rw [← e3, ← e4]; omega
  have hrend := render_planeOf (r := compRect (area q) p) (x := c.data) hl
  obtain ⟨r1, r2⟩ := render_get (P := planeOf (compRect (area q) p) c.data) (r := compRect (area q) p)
  unfold Pipe.height Pipe.width at hl
  rw [hwid, hhei] at hl r2
  have hpos : 0 < c.data.length := List.length_pos_iff.2 hne
  rw [hl] at hpos
  have hp1 := Nat.pos_of_mul_pos_right hpos
  have hp2 := Nat.pos_of_mul_pos_left hpos
  obtain ⟨a1, a2⟩ := covers_is (x0 := q.x0) (x1 := q.x1) hd.1 h3 (by omega)
  obtain ⟨b1, b2⟩ := covers_is (x0 := q.y0) (x1 := q.y1) hd.2 h4 (by omega)
  rw [hrend] at r2
  have hwh : o.w * o.h = c.data.length := by rw [hl, a2, b2, Nat.mul_comm]
  refine ⟨⟨by rw [hdx, hc.dx], by rw [hdy, hc.dy]⟩, hwh, ?_⟩
  rw [h1, Option.map_some]
  congr 1
  refine List.ext_getElem? fun k => ?_
  rw [List.getElem?_take, List.getElem?_map]
  by_cases hk : k < o.w * o.h
  · rw [if_pos hk]
    have hwp : 0 < o.w := by omega
    have hm := Nat.mod_lt k hwp
    have hdv : k / o.w < o.h := by rw [Nat.div_lt_iff_lt_mul hwp, Nat.mul_comm]; exact hk
    have hk' : k / o.w * o.w + k % o.w = k := by rw [Nat.mul_comm]; exact Nat.div_add_mod k o.w
    have g1 := h5 (k % o.w) (k / o.w) hm hdv
    have g2 := r2 (k / o.w) (k % o.w) (by omega) (by omega)
    rw [← a2] at g2
    rw [hk'] at g1 g2
    rw [g1, g2, Option.map_some]
    congr 2
    change _ = planeOf _ _ (cdiv q.x0 p.dx + _) (cdiv q.y0 p.dy + _)
    rw [← e1, ← e3, ← a1, ← b1]
    push_cast
    rfl
  · rw [if_neg hk, List.getElem?_eq_none (by omega)]
    rfl

end Jp2.Codec

import Verif.Jp2.PipeGrow
/-!
# Properties of a tile coded without loss

From samples to bytes and back: level shift, component transform, 5/3 wavelet transform, block coder, layers, packets in tile-parts,
and the decoder's way back.
-/
namespace Jp2.Pipe
open Tcd (Rect TileC TileS CompP RectOk compOf compRect initTile)
open T2 (EncTile EncBand)
open Pi (ParamsFit IndexFits OrderOk Letter)
open Pi.Spec (tileRect SamePrec)
open Dwt (NoThin)

/-! ## C70 -/

/-- Level shift, component transform and wavelet transform never fail on such a tile, in the debug build or the release build, and
the decoder's stages undo them, whatever the work buffers held. -/
theorem C70_stages_lossless (m : Mode) (S : Setup) (P : Nat) (TE TD : TileS) (hE : initTile true S.q S.n = .ok TE) (hD : initTile false S.q S.n = .ok TD)
    (hs : Suits S P TE) (xs : List (List Int)) (hx : Samples S P TE xs) (junk : Nat → Nat → Int) :
    ∃ ds, forward m S.mct S.cxs TE.comps junk xs = some ds ∧ ∀ junk', inverse m S.mct S.cxs TD.comps junk' ds = some xs := by
  obtain ⟨ds, h1, -, h3⟩ := stages hE hD hs hx m junk
  exact ⟨ds, h1, h3⟩

/-- A tile coded without loss comes back exactly: whatever the encoder writes for a tile, in any number of tile-parts and layers, in
any style but the high-throughput one, the decoder makes the samples out of it that the encoder was given. It takes exactly the bytes
of the tile, whatever follows, whatever was in the buffers, and whatever lies behind the data of a block. -/
theorem C70_tile_lossless (m : Mode) (S : Setup) (flag : Option Letter) (P : Nat) (TE TD : TileS) (hE : initTile true S.q S.n = .ok TE)
    (hD : initTile false S.q S.n = .ok TD) (hs : Suits S P TE) (hsend : Sends S flag) (plan : Nat → Nat → Nat → Nat → Nat → Plan)
    (hplan : ∀ c rn k bi j, PlanOk S.layers (plan c rn k bi j)) :
    ∃ F, ∀ fuel, F ≤ fuel → ∀ (xs : List (List Int)), Samples S P TE xs → ∀ (room : Nat → List UInt8) (junk : Nat → Nat → Int) (K : Coding),
      encodeTile m fuel S flag plan room junk xs = some K → K.Fits →
      ∀ (strict : Bool) (ex : Nat → Extra) (junk1 junk2 : Nat → Nat → Int) (tail : List UInt8),
        decodeTile m fuel S strict ex junk1 junk2 (K.bytes ++ tail) = some (K.bytes.length, xs) := by
  have h40 : ∀ c, S.sty c &&& 0x40 = 0 := by
    intro c
    unfold Setup.sty
    cases hc : S.cxs[c]? with
    | none => rfl
    | some x => exact hs.styles x (List.mem_of_getElem? hc)
  have hto := Tcd.tile_ok hs.fit hE
  have e1 := comps_eq hs.fit hE
  have e2 := comps_eq hs.fit hD
  obtain ⟨t, ht⟩ : ∃ t, t = Tcd.tileRectOf S.q S.n := ⟨_, rfl⟩
  have hboth : ∃ F, ∀ fuel, F ≤ fuel → ∃ parts ps, Pi.encodeParts m fuel S.pi flag S.n = some (some parts) ∧ Pi.decodePackets m fuel S.pi S.n = some (some ps) ∧
      ∀ strict (E : EncTile) (D : T2.Tile), (∀ c r k, List.Forall₂ (T2.Pair m (S.sty c) S.layers) (E c r k) (D c r k)) →
      ∀ (dests : List (List UInt8)) (outs : List (List UInt8 × List Nat)) (pk : Nat) (E' : EncTile) (tail : List UInt8), dests.length = parts.length →
        T2.encodeTileParts S.csty S.layers (parts.zip dests) 0 E = .ok (outs, pk, E') →
        ∃ D', T2.decodePackets S.csty S.sty strict ⟨S.layers, fun _ _ _ => true⟩ ps none D ((outs.map Prod.fst).flatten ++ tail) =
            .ok ((outs.map Prod.fst).flatten.length, none, D') ∧
          ∀ c r k, k < Pi.Spec.numPrec (tileRect S.pi S.n) S.pi.comps c r → T2.Decodes (E c r k) (D' c r k) := by
    obtain ⟨F1, h1⟩ := T2.C50_tile_arrives m S.pi S.n hsend.params hsend.index hsend.layers.1 hsend.layers.2 rfl hsend.order flag hsend.flag S.csty S.sty true h40
    obtain ⟨F2, h2⟩ := T2.C50_tile_arrives m S.pi S.n hsend.params hsend.index hsend.layers.1 hsend.layers.2 rfl hsend.order flag hsend.flag S.csty S.sty false h40
    refine ⟨max F1 F2, fun fuel hf => ?_⟩
    obtain ⟨parts, ps, a1, a2, a3⟩ := h1 fuel (by omega)
    obtain ⟨parts', ps', b1, b2, b3⟩ := h2 fuel (by omega)
    rw [a1] at b1
    rw [a2] at b2
    cases b1
    cases b2
    refine ⟨parts, ps, a1, a2, fun strict E D hp dests outs pk E' tail hd he => ?_⟩
    cases strict with
    | true =>
      obtain ⟨D', k1, k2⟩ := a3 E D hp dests outs pk E' tail hd he
      exact ⟨D', k1, fun c r k hk => (k2 c r k hk).2⟩
    | false =>
      obtain ⟨D', k1, k2⟩ := b3 E D hp dests outs pk E' tail hd he
      exact ⟨D', k1, fun c r k hk => (k2 c r k hk).2⟩
  obtain ⟨F, hF⟩ := hboth
  refine ⟨F, fun fuel hfu xs hx room junk K hK hfit strict ex junk1 junk2 tail => ?_⟩
  obtain ⟨parts, ps, q1, q2, q3⟩ := hF fuel hfu
  obtain ⟨ds, f1, f2, f3⟩ := stages hE hD hs hx m junk
  unfold encodeTile at hK
  rw [hE] at hK
  simp only at hK
  rw [f1, Option.bind_some, Option.bind_eq_some_iff] at hK
  obtain ⟨E, c1, hK⟩ := hK
  rw [q1, Option.bind_some, Option.bind_some] at hK
  cases hen : T2.encodeTileParts S.csty S.layers (parts.zip ((List.range parts.length).map room)) 0 E with
  | error e => rw [hen] at hK; cases hK
  | ok o =>
  obtain ⟨outs, pk, E'⟩ := o
  rw [hen] at hK
  simp only [Option.some.injEq] at hK
  subst hK
  have hcoded : Coded m TE.comps S.cxs ds S.bps plan E := codeAll_coded c1 fun tc htc => by
    rw [e1, List.mem_map] at htc
    obtain ⟨c, hc, rfl⟩ := htc
    rw [ress_length]; exact (hs.fit.comps c hc).res.2
  have lx : S.cxs.length = S.q.comps.length := by
    have a := hx.range.length_eq
    have b := hx.count.length_eq
    rw [e1, List.length_map] at b
    omega
  have ld : ds.length = S.q.comps.length := f2.length_eq.symm
  rw [← ht] at e1 e2 hto f2
  have hcomp : ∀ (i : Nat) (c : CompP) (d : Mem Int), S.q.comps[i]? = some c → ds[i]? = some d → CompOk t c d := by
    intro i c d hc hd
    have hm := List.mem_of_getElem? hc
    have hf := hs.fit.comps c hm
    obtain ⟨d', hd', hb⟩ := forall2_at f2 hc
    rw [hd] at hd'
    cases hd'
    refine ⟨Tcd.compRect_ok hto hf, by intro h; have := hf.res.1; rw [h] at this; simp at this, fun i q h => hf.pd i q h, hs.cblk c hm, ?_, hb.dom, ?_⟩
    · exact (hs.area _ (by rw [e1]; exact List.mem_map_of_mem hm)).2
    · exact hfit.coefs d (List.mem_of_getElem? hd)
  -- the precincts of the encoder and the decoder
  have hprec : ∀ c rn k, k < precCount TE.comps c rn → ∃ (cp : CompP) (cx : CompX) (d : Mem Int) (r : Tcd.Res), S.q.comps[c]? = some cp ∧ S.cxs[c]? = some cx ∧ ds[c]? = some d ∧
      (compOf true t cp).ress[rn]? = some r ∧ k < r.pw * r.ph ∧
      codePrec m (compOf true t cp) (styleOf cx.sty) d (S.bps c rn) (plan c rn k) rn k = some (E c rn k) ∧
      freshPrec m (compOf false t cp) (S.bps c rn) rn k = some (freshTile m TD.comps S.bps c rn k) ∧
      List.Forall₂ (T2.Pair m cx.sty S.layers) (E c rn k) (freshTile m TD.comps S.bps c rn k) := by
    intro c rn k hk
    have hco := hcoded c rn k
    rw [if_pos hk] at hco
    rw [e1] at hk
    obtain ⟨cp, r, g1, g2, g3⟩ := precCount_lt hk
    have hlt := (List.getElem?_eq_some_iff.1 g1).1
    obtain ⟨cx, hcx⟩ : ∃ cx, S.cxs[c]? = some cx := ⟨_, List.getElem?_eq_getElem (by omega)⟩
    obtain ⟨d, hd⟩ : ∃ d, ds[c]? = some d := ⟨_, List.getElem?_eq_getElem (by omega)⟩
    unfold codeAt at hco
    rw [e1, List.getElem?_map, g1, Option.map_some, Option.bind_some, hcx, Option.bind_some, hd, Option.bind_some] at hco
    obtain ⟨D, k1, k2⟩ := pair_ok (hcomp c cp d g1 hd) (sty := cx.sty) (L := S.layers) (fun bi j => hplan c rn k bi j) (fun bi => hs.bps c rn bi) g2 g3 hco (hfit.planes c rn k)
    have e : freshTile m TD.comps S.bps c rn k = D := by
      unfold freshTile
      rw [e2, List.getElem?_map, g1, Option.map_some, Option.bind_some, k1]; rfl
    rw [e]
    exact ⟨cp, cx, d, r, g1, hcx, hd, g2, g3, hco, k1, k2⟩
  have hpair : ∀ c r k, List.Forall₂ (T2.Pair m (S.sty c) S.layers) (E c r k) (freshTile m TD.comps S.bps c r k) := by
    intro c rn k
    by_cases hk : k < precCount TE.comps c rn
    · obtain ⟨cp, cx, d, r, -, hcx, -, -, -, -, -, hp⟩ := hprec c rn k hk
      have : S.sty c = cx.sty := by unfold Setup.sty; rw [hcx]; rfl
      rw [this]; exact hp
    · have hco := hcoded c rn k
      rw [if_neg hk] at hco
      rw [hco, e2, freshTile_out (by rw [← precCount_both, ← e1]; exact hk)]
      exact .nil
  obtain ⟨D', r1, r2⟩ := q3 strict E _ hpair _ outs pk E' tail (by simp) hen
  have hstill := T2.decodePackets_still _ _ _ _ _ _ _ _ _ r1
  unfold decodeTile
  rw [hD]
  simp only
  rw [q2, Option.bind_some, Option.bind_some]
  show (match T2.decodePackets S.csty S.sty strict ⟨S.layers, fun _ _ _ => true⟩ ps none (freshTile m TD.comps S.bps) ((outs.map Prod.fst).flatten ++ tail) with
    | .error _ => none
    | .ok (len, _, D) => (decodeSamples m S.mct S.cxs TD.comps D ex junk1 junk2).map fun xs => (len, xs)) = some ((outs.map Prod.fst).flatten.length, xs)
  rw [r1]
  show Option.map _ (decodeSamples m S.mct S.cxs TD.comps D' ex junk1 junk2) = _
  have hdec : decComps D' ex junk1 0 TD.comps S.cxs = some ds := by
    rw [e2]
    refine decComps_ok lx ld fun i c cx d hc hcx hd => ?_
    rw [Nat.zero_add]
    have hin : ∀ rn r k, (compOf true t c).ress[rn]? = some r → k < r.pw * r.ph → k < precCount TE.comps i rn := by
      intro rn r k hr hk
      rw [e1, precCount_some hc hr]; exact hk
    refine comp_ok (hcomp i c d hc hd) (m := m) (sty := cx.sty) (L := S.layers) (bps := S.bps i) (plan := plan i) (fun rn k bi j => hplan i rn k bi j)
      (E := E i) (D := freshTile m TD.comps S.bps i) ?_ ?_ ?_ (ex i) (junk1 i)
    · intro rn r k hr hk
      obtain ⟨cp', cx', d', r', a1, a2, a3, -, -, a6, -, -⟩ := hprec i rn k (hin rn r k hr hk)
      rw [hc] at a1; rw [hcx] at a2; rw [hd] at a3
      cases a1; cases a2; cases a3
      exact a6
    · intro rn r k hr hk
      obtain ⟨cp', cx', d', r', a1, -, -, -, -, -, a7, -⟩ := hprec i rn k (hin rn r k hr hk)
      rw [hc] at a1
      cases a1
      exact a7
    · intro rn r k hr hk
      refine ⟨r2 i rn k ?_, hstill i rn k⟩
      have : Pi.Spec.numPrec (tileRect S.pi S.n) S.pi.comps i rn = precCount TE.comps i rn := by
        rw [e1, ht]
        exact numPrec_eq (by rw [← ht]; exact hto) (fun c hc => ⟨(hs.fit.comps c hc).dx.1, (hs.fit.comps c hc).dy.1⟩) i rn
      rw [this]
      exact hin rn r k hr hk
  unfold decodeSamples
  rw [hdec, Option.bind_some, f3]
  rfl

/-- Without a condition on what the encoder makes: the largest coefficient the wavelet transform can make of samples of the
precision has `b` bits at most, and every band announces `b` bit planes or more. -/
theorem C70_enough_planes (m : Mode) (S : Setup) (flag : Option Letter) (P : Nat) (TE TD : TileS) (hE : initTile true S.q S.n = .ok TE)
    (hD : initTile false S.q S.n = .ok TD) (hs : Suits S P TE) (hsend : Sends S flag) (plan : Nat → Nat → Nat → Nat → Nat → Plan)
    (hplan : ∀ c rn k bi j, PlanOk S.layers (plan c rn k bi j)) (b : Nat) (hb : b ≤ 25)
    (hbig : ∀ c ∈ S.q.comps, (2 : Int) ^ S.mct * 2 ^ (P - 1) * 4 ^ (c.prc.length - 1) < 2 ^ b) (hbps : ∀ c rn bi, (b : Int) ≤ S.bps c rn bi) :
    ∃ F, ∀ fuel, F ≤ fuel → ∀ (xs : List (List Int)), Samples S P TE xs → ∀ (room : Nat → List UInt8) (junk : Nat → Nat → Int) (K : Coding),
      encodeTile m fuel S flag plan room junk xs = some K →
      ∀ (strict : Bool) (ex : Nat → Extra) (junk1 junk2 : Nat → Nat → Int) (tail : List UInt8),
        decodeTile m fuel S strict ex junk1 junk2 (K.bytes ++ tail) = some (K.bytes.length, xs) := by
  obtain ⟨F, hF⟩ := C70_tile_lossless m S flag P TE TD hE hD hs hsend plan hplan
  exact ⟨F, fun fuel hfu xs hx room junk K hK => hF fuel hfu xs hx room junk K hK (fits_of_roomy hE hD hs hx hplan hb hbig hbps hK)⟩

/-- Band by band: a level makes the low band at most 9/4 times as large. If that is less than `b` bits for the lowest band, it is enough that
every band announces `b` bit planes and the gain of the band (one more where one direction is high, two more where both are). -/
theorem C70_planes_by_band (m : Mode) (S : Setup) (flag : Option Letter) (P : Nat) (TE TD : TileS) (hE : initTile true S.q S.n = .ok TE)
    (hD : initTile false S.q S.n = .ok TD) (hs : Suits S P TE) (hsend : Sends S flag) (plan : Nat → Nat → Nat → Nat → Nat → Plan)
    (hplan : ∀ c rn k bi j, PlanOk S.layers (plan c rn k bi j)) (b : Nat) (hb : b + 2 ≤ 25)
    (hbig : ∀ c ∈ S.q.comps, (9 : Int) ^ (c.prc.length - 1) * (2 * (2 ^ S.mct * 2 ^ (P - 1)) + 3) < 4 ^ (c.prc.length - 1) * (2 ^ (b + 1) + 3))
    (hbps : ∀ c cp rn bi, S.q.comps[c]? = some cp → rn < cp.prc.length → bi < (if rn = 0 then 1 else 3) →
      ((b + (if rn = 0 then 0 else if bi = 2 then 2 else 1) : Nat) : Int) ≤ S.bps c rn bi) :
    ∃ F, ∀ fuel, F ≤ fuel → ∀ (xs : List (List Int)), Samples S P TE xs → ∀ (room : Nat → List UInt8) (junk : Nat → Nat → Int) (K : Coding),
      encodeTile m fuel S flag plan room junk xs = some K →
      ∀ (strict : Bool) (ex : Nat → Extra) (junk1 junk2 : Nat → Nat → Int) (tail : List UInt8),
        decodeTile m fuel S strict ex junk1 junk2 (K.bytes ++ tail) = some (K.bytes.length, xs) := by
  obtain ⟨F, hF⟩ := C70_tile_lossless m S flag P TE TD hE hD hs hsend plan hplan
  exact ⟨F, fun fuel hfu xs hx room junk K hK => hF fuel hfu xs hx room junk K hK (fits_of_grown hE hD hs hx hplan hb hbig hbps hK)⟩

/-! ## The conditions are met -/

/-- A tile of 5 × 5 samples at (2, 0) in three components of eight bits, with the component transform, one decomposition level. -/
def exQ : Tcd.Params := ⟨2, 0, 7, 5, 0, 0, 8, 8, 1, List.replicate 3 ⟨1, 1, [(15, 15), (15, 15)], 6, 6⟩, 32, 48⟩

def exS (layers : Nat) (bps : Nat → Nat → Nat → Int) : Setup where
  q := exQ
  n := 0
  layers := layers
  prg := 0
  mct := 1
  cxs := List.replicate 3 ⟨8, false, 0⟩
  csty := 2
  bps := bps

theorem ex_tile (enc : Bool) (layers : Nat) (bps : Nat → Nat → Nat → Int) :
    initTile enc (exS layers bps).q (exS layers bps).n = .ok (Tcd.tileOf enc (exS layers bps).q (exS layers bps).n) := by
  cases enc
  · show initTile false exQ 0 = .ok (Tcd.tileOf false exQ 0)
    decide +kernel
  · show initTile true exQ 0 = .ok (Tcd.tileOf true exQ 0)
    decide +kernel

theorem ex_comp {c : CompP} {layers : Nat} {bps : Nat → Nat → Nat → Int} (hc : c ∈ (exS layers bps).q.comps) : c = ⟨1, 1, [(15, 15), (15, 15)], 6, 6⟩ := by
  have hc' : c ∈ List.replicate 3 (⟨1, 1, [(15, 15), (15, 15)], 6, 6⟩ : CompP) := hc
  rw [List.mem_replicate] at hc'
  exact hc'.2

theorem ex_fit : Tcd.Fit exQ 0 := by
  refine ⟨by decide, by decide, by decide, by decide, by decide, by decide, by decide, by decide, by decide, by decide, ?_, by decide, by decide⟩
  intro c hc
  rw [ex_comp (layers := 0) (bps := fun _ _ _ => 0) hc]
  refine ⟨by decide, by decide, by decide, fun r q h => ?_⟩
  have : q = (15, 15) := by
    match r, h with
    | 0, h => simpa using h.symm
    | 1, h => simpa using h.symm
  subst this
  simp

theorem ex_suits (layers : Nat) (bps : Nat → Nat → Nat → Int) (hb : ∀ c rn bi, 0 ≤ bps c rn bi ∧ bps c rn bi < 999) :
    Suits (exS layers bps) 8 (Tcd.tileOf true (exS layers bps).q (exS layers bps).n) := by
  have hT : ∀ tc ∈ (Tcd.tileOf true (exS layers bps).q (exS layers bps).n).comps, tc.rect = ⟨2, 0, 7, 5⟩ ∧ tc.ress.length = 2 := by
    intro tc htc
    rw [show (Tcd.tileOf true (exS layers bps).q (exS layers bps).n).comps = (exS layers bps).q.comps.map (compOf true (Tcd.tileRectOf (exS layers bps).q 0)) from rfl,
      List.mem_map] at htc
    obtain ⟨c, hc, rfl⟩ := htc
    rw [ex_comp hc, ress_length]
    exact ⟨by show compRect (Tcd.tileRectOf exQ 0) _ = _; decide +kernel, rfl⟩
  refine ⟨ex_fit, ?_, by omega, ?_, ?_, ?_, hb, ?_⟩
  · intro c hc; rw [ex_comp hc]; decide
  · intro c hc; rw [ex_comp hc]; show (2 : Int) ^ 1 * 2 ^ 7 * 4 ^ 1 ≤ 2 ^ 30 - 2; norm_num
  · intro tc htc; rw [(hT tc htc).1]; decide
  · intro tc htc
    rw [(hT tc htc).1, (hT tc htc).2]
    intro k hk
    have : k = 0 := by omega
    subst this
    decide
  · intro x hx
    have hx' : x ∈ List.replicate 3 (⟨8, false, 0⟩ : CompX) := hx
    rw [List.mem_replicate] at hx'
    rw [hx'.2]; rfl

theorem ex_prec (layers : Nat) (bps : Nat → Nat → Nat → Int) (c r : Nat) :
    Pi.Spec.numPrec (tileRect (exS layers bps).pi 0) (exS layers bps).pi.comps c r = if c < 3 ∧ r < 2 then 1 else 0 := by
  match c, r with
  | 0, 0 | 0, 1 | 1, 0 | 1, 1 | 2, 0 | 2, 1 =>
    show Pi.Spec.numPrec (tileRect (piParams exQ 0 0) 0) (piParams exQ 0 0).comps _ _ = _
    decide +kernel
  | 0, r + 2 | 1, r + 2 | 2, r + 2 => simp [Pi.Spec.numPrec, Pi.Spec.axes, exS, exQ, Setup.pi, piParams]
  | c + 3, r => simp [Pi.Spec.numPrec, Pi.Spec.axes, exS, exQ, Setup.pi, piParams]

theorem ex_sends (layers : Nat) (hl : 0 < layers ∧ layers ≤ 999) (bps : Nat → Nat → Nat → Int) : Sends (exS layers bps) (some .lay) := by
  have hc : ∀ cp ∈ (exS layers bps).pi.comps, cp = ⟨1, 1, [(15, 15), (15, 15)]⟩ := by
    intro cp h
    have h' : cp ∈ List.map (fun c : CompP => (⟨c.dx, c.dy, c.prc⟩ : Pi.CompParams)) (List.replicate 3 ⟨1, 1, [(15, 15), (15, 15)], 6, 6⟩) := h
    simp at h'
    exact h'
  have hi : ParamsFit (piParams exQ 0 0) 0 := by
    refine ⟨by decide, by decide, by decide, by decide, by decide, by decide, by decide, by decide, by decide, ?_, by decide, by decide⟩
    intro cp h
    rw [hc cp h]
    exact ⟨by decide, by decide, by decide, by decide⟩
  refine ⟨⟨hi.tw, hi.gx, hi.gy, hi.dx, hi.dy, hi.x1, hi.y1, hi.x, hi.y, hi.comps, hi.nc, ?_⟩, ⟨⟨0, 0, ?_⟩, 2, ?_, ?_⟩, hl, ⟨by show (0 : Int) ≤ 0; omega, by show (0 : Int) ≤ 4; omega, (fun h => by rcases h with h | h <;> cases h), (fun h => by rcases h with h | h <;> cases h)⟩, Or.inr ⟨.lay, rfl, Or.inl ⟨rfl, rfl⟩, fun _ => ?_⟩⟩
  · show layers ≤ 65535; omega
  · show Pi.Spec.numPrec (tileRect (exS layers bps).pi 0) (exS layers bps).pi.comps 0 0 ≠ 0
    rw [ex_prec]; decide
  · intro cp h; rw [hc cp h]; decide
  · intro c r
    show (layers + 1) * (2 * (3 * Pi.Spec.numPrec (tileRect (exS layers bps).pi 0) (exS layers bps).pi.comps c r)) < 2 ^ 32
    rw [ex_prec]
    split <;> omega
  · refine ⟨1, fun c cp r hcp hr => ?_⟩
    have h1 := (List.getElem?_eq_some_iff.mp hcp).1
    have h2 := hc cp (List.mem_of_getElem? hcp)
    rw [h2] at hr
    show Pi.Spec.numPrec (tileRect (exS layers bps).pi 0) (exS layers bps).pi.comps c r = 1
    rw [ex_prec, if_pos ⟨h1, hr⟩]

def exPlan (choices : List ((Nat → Nat → Bool) × Bool × T2.Layer)) : Nat → Nat → Nat → Nat → Nat → Plan := fun _ _ _ _ _ => ⟨List.replicate 100 0, 1, choices⟩

theorem ex_plan (choices : List ((Nat → Nat → Bool) × Bool × T2.Layer)) (h : ∃ x, choices.getLast? = some x ∧ x.2.1 = true) (c rn k bi j : Nat) :
    PlanOk choices.length (exPlan choices c rn k bi j) := ⟨by show (List.replicate 100 (0 : UInt8)).length < _; rw [List.length_replicate]; omega, rfl, h⟩

theorem ex_samples (layers : Nat) (bps : Nat → Nat → Nat → Int) (a b c : List Int) (ha : a.length = 25 ∧ ∀ v ∈ a, 0 ≤ v ∧ v ≤ 255)
    (hb : b.length = 25 ∧ ∀ v ∈ b, 0 ≤ v ∧ v ≤ 255) (hc : c.length = 25 ∧ ∀ v ∈ c, 0 ≤ v ∧ v ≤ 255) :
    Samples (exS layers bps) 8 (Tcd.tileOf true (exS layers bps).q (exS layers bps).n) [a, b, c] := by
  have hcx : (exS layers bps).cxs = [⟨8, false, 0⟩, ⟨8, false, 0⟩, ⟨8, false, 0⟩] := rfl
  have ok : ∀ x : List Int, (∀ v ∈ x, 0 ≤ v ∧ v ≤ 255) → SamplesOk 8 ⟨8, false, 0⟩ x := fun x hx => ⟨by decide, hx⟩
  have hT : ∃ tc, (Tcd.tileOf true (exS layers bps).q (exS layers bps).n).comps = [tc, tc, tc] ∧ width tc.rect * height tc.rect = 25 :=
    ⟨_, rfl, by show width (compRect (Tcd.tileRectOf exQ 0) ⟨1, 1, [(15, 15), (15, 15)], 6, 6⟩) * height (compRect (Tcd.tileRectOf exQ 0) ⟨1, 1, [(15, 15), (15, 15)], 6, 6⟩) = 25; decide +kernel⟩
  obtain ⟨tc, e, he⟩ := hT
  refine ⟨?_, ?_, Or.inr ⟨rfl, _, _, _, _, _, _, _, _, rfl, e, rfl, rfl, rfl, rfl⟩⟩
  · rw [hcx]
    exact .cons (ok a ha.2) (.cons (ok b hb.2) (.cons (ok c hc.2) .nil))
  · rw [e]
    exact .cons (ha.1.trans he.symm) (.cons (hb.1.trans he.symm) (.cons (hc.1.trans he.symm) .nil))

/-- Two layers: four passes, then the rest. -/
def exTwo : List ((Nat → Nat → Bool) × Bool × T2.Layer) := [(fun _ p => decide (p < 4), false, ⟨0, 0, 0⟩), (fun _ _ => false, true, ⟨0, 0, 0⟩)]

/-- One layer. -/
def exOne : List ((Nat → Nat → Bool) × Bool × T2.Layer) := [(fun _ _ => false, true, ⟨0, 0, 0⟩)]

def exXs : List (List Int) :=
  [[200, 10, 3, 5, 255, 0, 77, 78, 79, 80, 1, 2, 3, 4, 5, 255, 254, 253, 252, 251, 9, 8, 7, 6, 5],
   [0, 1, 2, 3, 4, 250, 251, 252, 253, 254, 100, 101, 102, 103, 104, 7, 7, 7, 7, 7, 255, 0, 255, 0, 255],
   [128, 127, 129, 0, 0, 0, 255, 254, 17, 16, 15, 14, 13, 12, 11, 200, 190, 180, 170, 160, 3, 1, 4, 1, 5]]

-- a tile that meets the conditions of `C70_tile_lossless` and `C70_enough_planes`
example : Suits (exS 2 fun _ _ _ => 11) 8 (Tcd.tileOf true (exS 2 fun _ _ _ => 11).q 0) ∧ Samples (exS 2 fun _ _ _ => 11) 8 (Tcd.tileOf true (exS 2 fun _ _ _ => 11).q 0) exXs ∧
    Sends (exS 2 fun _ _ _ => 11) (some .lay) ∧ (∀ c rn k bi j, PlanOk (exS 2 fun _ _ _ => 11).layers (exPlan exTwo c rn k bi j)) ∧
    (∀ c ∈ (exS 2 fun _ _ _ => 11).q.comps, (2 : Int) ^ (exS 2 fun _ _ _ => 11).mct * 2 ^ (8 - 1) * 4 ^ (c.prc.length - 1) < 2 ^ 11) :=
  ⟨ex_suits _ _ (by intros; decide), ex_samples _ _ _ _ _ (by decide) (by decide) (by decide), ex_sends _ (by decide) _, ex_plan exTwo ⟨_, rfl, rfl⟩,
    fun c hc => by rw [ex_comp hc]; decide⟩

end Jp2.Pipe

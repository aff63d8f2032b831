import Verif.Jp2.TcdPart
import Verif.Jp2.PiSpec
/-!
# C45: the structure of a tile

`initTile` builds the structure every later stage works on. The theorems are about the structure it returns,
for the encoder and for the decoder.
-/
namespace Jp2.Tcd
open Math

theorem comps_get {enc : Bool} {p : Params} {n : Nat} {T : TileS} (h : Fit p n) (ht : initTile enc p n = .ok T) :
    T.rect = tileRectOf p n ∧ T.comps.length = p.comps.length ∧
    ∀ {i : Nat} {c : CompP} {tc : TileC}, p.comps[i]? = some c → T.comps[i]? = some tc → tc = compOf enc (tileRectOf p n) c := by
  have e := (initTile_out h).ok ht
  subst e
  refine ⟨rfl, by simp [tileOf], ?_⟩
  intro i c tc hc htc
  unfold tileOf at htc
  simp only [List.getElem?_map, hc, Option.map_some, Option.some.injEq] at htc
  exact htc.symm

theorem tile_ok {enc : Bool} {p : Params} {n : Nat} {T : TileS} (h : Fit p n) (ht : initTile enc p n = .ok T) : RectOk (tileRectOf p n) := by
  have ax := tileAxis_out (grid := p.cpTx0) (q := n % p.tw) (td := p.tdx) (i0 := p.x0) (i1 := p.x1) h.gx h.tdx h.x0 h.x1
  have ay := tileAxis_out (grid := p.cpTy0) (q := n / p.tw) (td := p.tdy) (i0 := p.y0) (i1 := p.y1) h.gy h.tdy h.y0 h.y1
  have tw := h.tw
  unfold initTile at ht
  rw [if_neg (by omega)] at ht
  change (tileAxis _ _ _ _ _ >>= _) = _ at ht
  rcases ax with ex | ⟨ex, -⟩
  swap
  · rw [ex] at ht
    exact absurd ht (by intro hh; cases hh)
  rw [ex, ok_bind] at ht
  change (tileAxis _ _ _ _ _ >>= _) = _ at ht
  rcases ay with ey | ⟨ey, -⟩
  swap
  · rw [ey] at ht
    exact absurd ht (by intro hh; cases hh)
  have kx := tileAxis_rect h.gx h.x0 h.x1 ex
  have ky := tileAxis_rect h.gy h.y0 h.y1 ey
  exact ⟨kx.1, kx.2.1, kx.2.2, ky.1, ky.2.1, ky.2.2⟩

/-- **C45.** The code blocks of a tile-component partition it: each holds coefficients that belong to a
sample position of the tile-component, and every sample position of the tile-component belongs to exactly one
coefficient of exactly one code block, counting all resolutions, bands and precincts. -/
theorem C45_partition {enc : Bool} {p : Params} {n : Nat} {T : TileS} (h : Fit p n) (ht : initTile enc p n = .ok T) :
    T.comps.length = p.comps.length ∧ ∀ (i : Nat) (c : CompP) (tc : TileC), p.comps[i]? = some c → T.comps[i]? = some tc →
      tc.ress.length = c.prc.length ∧
      (∀ q : Coef, q.inBlock tc → tc.rect.has (q.pos (c.prc.length - 1)).1 (q.pos (c.prc.length - 1)).2) ∧
      ∀ x y, tc.rect.has x y → ∃! q : Coef, q.inBlock tc ∧ q.pos (c.prc.length - 1) = (x, y) := by
  obtain ⟨-, hl, hg⟩ := comps_get h ht
  refine ⟨hl, ?_⟩
  intro i c tc hc htc
  have e := hg hc htc
  subst e
  have hf := h.comps c (List.mem_of_getElem? hc)
  refine ⟨?_, fun q hq => inBlock_pos hq, ?_⟩
  · show (ressOf enc c _ 0 c.prc).length = _
    have : ∀ (l : List (Nat × Nat)) (k : Nat), (ressOf enc c (compRect (tileRectOf p n) c) k l).length = l.length := by
      intro l
      induction l with
      | nil => intro k; rfl
      | cons a l ih => intro k; simp [ressOf, ih]
    exact this _ _
  · intro x y hxy
    obtain ⟨q, h1, h2⟩ := partition_exists (enc := enc) hf.pd (List.length_pos_iff.1 hf.res.1) hxy
    exact ⟨q, ⟨h1, h2⟩, fun q' h' => partition_unique h'.1 h1 (h'.2.trans h2.symm)⟩

theorem cell_of {g x td k : Int} (htd : 0 < td) : (x - g) / td = k ↔ g + k * td ≤ x ∧ x < g + (k + 1) * td := by
  have a := le_fdiv htd (a := x - g) (u := k)
  have b := fdiv_lt htd (a := x - g) (u := k + 1)
  have e : (k + 1) * td = k * td + td := by ring
  constructor
  · intro hk
    have a' := a.1 (by omega)
    have b' := b.1 (by omega)
    omega
  · rintro ⟨h1, h2⟩
    have := a.2 (by omega)
    have := b.2 (by omega)
    omega

/-- **C45.** A tile holds the points of the image area that fall into its cell of the tile grid, and sample
`(x, y)` of a component belongs to the tile that holds the point `(x·dx, y·dy)`. -/
theorem C45_tiles {enc : Bool} {p : Params} {n : Nat} {T : TileS} (h : Fit p n) (hx : 0 < p.tdx) (hy : 0 < p.tdy)
    (ht : initTile enc p n = .ok T) :
    (∀ x y : Int, T.rect.has x y ↔ ((p.x0 ≤ x ∧ x < p.x1) ∧ (p.y0 ≤ y ∧ y < p.y1)) ∧
      (x - p.cpTx0) / p.tdx = (n % p.tw : Nat) ∧ (y - p.cpTy0) / p.tdy = (n / p.tw : Nat)) ∧
    ∀ (i : Nat) (c : CompP) (tc : TileC), p.comps[i]? = some c → T.comps[i]? = some tc →
      ∀ x y : Int, tc.rect.has x y ↔ T.rect.has (x * c.dx) (y * c.dy) := by
  obtain ⟨hr, -, hg⟩ := comps_get h ht
  constructor
  · intro x y
    rw [hr, cell_of (by omega), cell_of (by omega)]
    unfold Rect.has tileRectOf
    simp only
    push_cast
    omega
  · intro i c tc hc htc x y
    rw [hg hc htc, hr]
    have hf := h.comps c (List.mem_of_getElem? hc)
    have d1 := hf.dx.1
    have d2 := hf.dy.1
    unfold compOf compRect Rect.has
    simp only
    rw [cdiv_le (by omega), lt_cdiv (by omega), cdiv_le (by omega), lt_cdiv (by omega)]

/-- **C45.** The code blocks of a precinct: each block of a band that is not empty holds at least one
coefficient, is no larger than the code block size, and does not cross a line of the code block grid; blocks
are numbered along the rows of that grid, and coefficients of the same cell are in the same block. -/
theorem C45_blocks {enc : Bool} {p : Params} {n : Nat} {T : TileS} (h : Fit p n) (ht : initTile enc p n = .ok T)
    {i : Nat} {c : CompP} {tc : TileC} (hc : p.comps[i]? = some c) (htc : T.comps[i]? = some tc) :
    (∀ {rn bn kn jn : Nat} {r : Res} {b : Band} {k : Prec} {cb : Rect}, tc.ress[rn]? = some r → r.bands[bn]? = some b →
      b.precs[kn]? = some k → k.cblks[jn]? = some cb → b.rect.x0 < b.rect.x1 → b.rect.y0 < b.rect.y1 →
      cb.x0 < cb.x1 ∧ cb.y0 < cb.y1 ∧ cb.x1 - cb.x0 ≤ 2 ^ c.cblkw ∧ cb.y1 - cb.y0 ≤ 2 ^ c.cblkh) ∧
    ∀ q q' : Coef, q.inBlock tc → q'.inBlock tc → q.res = q'.res → q.band = q'.band → q.prec = q'.prec →
      ∀ pd, c.prc[q.res]? = some pd →
      ∀ w v : Nat, w = min c.cblkw (if q.res = 0 then pd.1 else pd.1 - 1) → v = min c.cblkh (if q.res = 0 then pd.2 else pd.2 - 1) →
      (q.blk = q'.blk ↔ q.v / 2 ^ v = q'.v / 2 ^ v ∧ q.u / 2 ^ w = q'.u / 2 ^ w) ∧
      (q.blk < q'.blk ↔ q.v / 2 ^ v < q'.v / 2 ^ v ∨ q.v / 2 ^ v = q'.v / 2 ^ v ∧ q.u / 2 ^ w < q'.u / 2 ^ w) := by
  obtain ⟨hr, -, hg⟩ := comps_get h ht
  have hf := h.comps c (List.mem_of_getElem? hc)
  have e := hg hc htc
  subst e
  have hro := compRect_ok (tile_ok h ht) hf
  constructor
  · intro rn bn kn jn r b k cb h1 h2 h3 h4 bx by'
    rw [show (compOf enc (tileRectOf p n) c).ress = ressOf enc c (compRect (tileRectOf p n) c) 0 c.prc from rfl, ressOf_get, Nat.zero_add] at h1
    obtain ⟨pd, hpd, rfl⟩ := h1
    obtain ⟨-, -, hp1⟩ := hf.pd _ _ hpd
    unfold resOf at h2
    simp only at h2
    rw [range_get] at h2
    obtain ⟨hb, rfl⟩ := h2
    obtain ⟨b1, b2⟩ := bno_bits hb
    unfold bandOf at h3 bx by'
    simp only at h3 bx by'
    change (if (enc && bandEmpty (bandRect (compRect (tileRectOf p n) c) rn (c.prc.length - 1 - rn) (bno rn bn))) = true then [] else _)[kn]? = some k at h3
    split at h3
    · simp at h3
    · rw [range_get] at h3
      obtain ⟨hk, rfl⟩ := h3
      unfold precOf at h4
      simp only at h4
      rw [range_get] at h4
      obtain ⟨hj, rfl⟩ := h4
      have hw : 0 < pwOf (resRect (compRect (tileRectOf p n) c) (c.prc.length - 1 - rn)).x0 (resRect (compRect (tileRectOf p n) c) (c.prc.length - 1 - rn)).x1 pd.1 :=
        Nat.pos_of_ne_zero (fun e => by rw [e, Nat.zero_mul] at hk; omega)
      have hcw := Nat.pos_of_ne_zero (fun e => by rw [e, Nat.zero_mul] at hj; omega : cwOf _ _ _ ≠ 0)
      obtain ⟨-, -, -, mx1, mx2⟩ := meets_core (resno := rn) hro.x0 hro.x b1 (fun e => (hp1 e).1) (Nat.mod_lt kn hw)
      obtain ⟨-, -, -, my1, my2⟩ := meets_core (resno := rn) hro.y0 hro.y b2 (fun e => (hp1 e).2) (Nat.div_lt_of_lt_mul hk)
      have ax := blk_axis (cb := min c.cblkw (cbgOf rn pd.1)) (min_le_right _ _) bx mx1 mx2 rfl rfl (Nat.mod_lt jn hcw)
      have ay := blk_axis (cb := min c.cblkh (cbgOf rn pd.2)) (min_le_right _ _) by' my1 my2 rfl rfl (Nat.div_lt_of_lt_mul hj)
      exact ⟨ax.1, ay.1, le_trans ax.2 (p2le _ (min_le_left _ _)), le_trans ay.2 (p2le _ (min_le_left _ _))⟩
  · intro q q' hq hq' e1 e2 e3 pd hpd w v hw hv
    obtain ⟨pd1, cw, ch, h1, h2, h3, h4, ⟨-, -, x3, x4, x5⟩, ⟨-, -, y3, y4, y5⟩⟩ := (inBlock_iff enc _ c q).1 hq
    obtain ⟨pd2, cw', ch', k1, k2, k3, k4, ⟨-, -, x3', x4', x5'⟩, ⟨-, -, y3', y4', y5'⟩⟩ := (inBlock_iff enc _ c q').1 hq'
    rw [← e1, h1] at k1
    rw [hpd] at h1
    obtain rfl := Option.some.inj k1
    obtain rfl := Option.some.inj h1
    rw [← e1, ← e2, ← e3] at x4' x5' y4' y5'
    rw [← x5] at x5'
    rw [← y5] at y5'
    subst x5' y5'
    change w = min c.cblkw (cbgOf q.res pd.1) at hw
    change v = min c.cblkh (cbgOf q.res pd.2) at hv
    rw [← hw] at x4 x4'
    rw [← hv] at y4 y4'
    rw [lex_iff (w := cw'), x4, x4', y4, y4']
    refine ⟨⟨fun h => by rw [h]; exact ⟨rfl, rfl⟩, fun h => unpack (w := cw') (by omega) (by omega)⟩, by omega⟩

theorem cell_pos {u : Int} {L res ob pd : Nat} (hres : res ≤ L) (hob : ob ≤ 1) (hpd : res ≠ 0 → 1 ≤ pd) :
    posAx L res ob u / 2 ^ (L - res) / 2 ^ pd = u / 2 ^ cbgOf res pd := by
  unfold posAx cbgOf
  have hp := ne_of_gt (p2pos (L - res))
  split
  · rename_i h; subst h; rw [Nat.sub_zero] at *; rw [Int.mul_ediv_cancel_left _ hp]
  · rename_i h
    obtain ⟨e, rfl⟩ : ∃ e, pd = e + 1 := ⟨pd - 1, by have := hpd h; omega⟩
    rw [Int.mul_ediv_cancel_left _ hp, Nat.add_sub_cancel, pow_succ, mul_comm ((2 : Int) ^ e) 2, ← Int.ediv_ediv_of_nonneg (by omega : (0 : Int) ≤ 2)]
    congr 1
    omega

theorem ceil_cast (a b : Nat) (hb : 0 < b) : (Pi.Spec.ceil a b : Int) = cdiv a b := by
  unfold Pi.Spec.ceil cdiv
  rw [Int.natCast_ediv]
  congr 1
  omega

theorem cdiv_cdiv {a b c : Int} (hb : 0 < b) (hc : 0 < c) : cdiv (cdiv a b) c = cdiv a (b * c) := by
  have hbc : 0 < b * c := mul_pos hb hc
  refine le_antisymm ?_ ?_
  · rw [cdiv_le hc, cdiv_le hb, mul_assoc, mul_comm c b, ← cdiv_le hbc]
  · rw [cdiv_le hbc, mul_comm b c, ← mul_assoc, ← cdiv_le hb, ← cdiv_le hc]

theorem num_eq {t0 t1 : Int} {d lev pd : Nat} (h0 : 0 ≤ t0) (h1 : t0 ≤ t1) (hd : 0 < d) :
    pwOf (cdiv (cdiv t0 d) (2 ^ lev)) (cdiv (cdiv t1 d) (2 ^ lev)) pd = (⟨t0.toNat, t1.toNat, d, lev, pd⟩ : Pi.Spec.Axis).num := by
  have hdl : 0 < d * 2 ^ lev := by positivity
  have hdi : (0 : Int) < d := by omega
  rw [cdiv_cdiv hdi (p2pos lev), cdiv_cdiv hdi (p2pos lev)]
  have e (t : Int) (ht : 0 ≤ t) : (Pi.Spec.ceil t.toNat (d * 2 ^ lev) : Int) = cdiv t (d * 2 ^ lev) := by
    rw [ceil_cast _ _ hdl, Int.toNat_of_nonneg ht]; push_cast; rfl
  have e0 := e t0 h0
  have e1 := e t1 (by omega)
  have m := cdiv_mono (b := (d : Int) * 2 ^ lev) (mul_pos hdi (p2pos lev)) h1
  unfold pwOf Pi.Spec.Axis.num Pi.Spec.Axis.tr0 Pi.Spec.Axis.tr1
  simp only
  rw [← e0, ← e1] at m ⊢
  have c := ceil_cast (Pi.Spec.ceil t1.toNat (d * 2 ^ lev)) (2 ^ pd) (by positivity)
  have f : ((Pi.Spec.ceil t0.toNat (d * 2 ^ lev) / 2 ^ pd : Nat) : Int) = (Pi.Spec.ceil t0.toNat (d * 2 ^ lev) : Int) / 2 ^ pd := by push_cast; rfl
  rw [show (((2 ^ pd : Nat)) : Int) = 2 ^ pd by push_cast; rfl] at c
  rw [← c, ← f]
  split <;> split <;> omega

/-- **C45.** The precincts of a resolution: their number is that of B.6 (the same that packet iteration
counts), each band has that many (none in the encoder when the band is empty), and a coefficient is in the
precinct whose cell of the precinct grid its position, measured in samples of the resolution, falls into. -/
theorem C45_precincts {enc : Bool} {p : Params} {n : Nat} {T : TileS} (h : Fit p n) (ht : initTile enc p n = .ok T)
    {i : Nat} {c : CompP} {tc : TileC} (hc : p.comps[i]? = some c) (htc : T.comps[i]? = some tc)
    {rn : Nat} {r : Res} (hr : tc.ress[rn]? = some r) {pd : Nat × Nat} (hpd : c.prc[rn]? = some pd) :
    r.pw = (⟨T.rect.x0.toNat, T.rect.x1.toNat, c.dx, c.prc.length - 1 - rn, pd.1⟩ : Pi.Spec.Axis).num ∧
    r.ph = (⟨T.rect.y0.toNat, T.rect.y1.toNat, c.dy, c.prc.length - 1 - rn, pd.2⟩ : Pi.Spec.Axis).num ∧
    (∀ x y : Int, r.rect.has x y ↔ tc.rect.has (2 ^ (c.prc.length - 1 - rn) * x) (2 ^ (c.prc.length - 1 - rn) * y)) ∧
    r.bands.length = (if rn = 0 then 1 else 3) ∧
    (∀ b ∈ r.bands, b.precs.length = r.pw * r.ph ∨ (enc = true ∧ b.precs = [] ∧ (b.rect.x0 = b.rect.x1 ∨ b.rect.y0 = b.rect.y1))) ∧
    ∀ q : Coef, q.inBlock tc → q.res = rn → (q.prec : Int) =
      ((q.pos (c.prc.length - 1)).1 / 2 ^ (c.prc.length - 1 - rn) / 2 ^ pd.1 - r.rect.x0 / 2 ^ pd.1) +
      r.pw * ((q.pos (c.prc.length - 1)).2 / 2 ^ (c.prc.length - 1 - rn) / 2 ^ pd.2 - r.rect.y0 / 2 ^ pd.2) := by
  obtain ⟨hre, -, hg⟩ := comps_get h ht
  have hf := h.comps c (List.mem_of_getElem? hc)
  have e := hg hc htc
  subst e
  have hto := tile_ok h ht
  rw [show (compOf enc (tileRectOf p n) c).ress = ressOf enc c (compRect (tileRectOf p n) c) 0 c.prc from rfl, ressOf_get, Nat.zero_add] at hr
  obtain ⟨pd', hpd', rfl⟩ := hr
  rw [hpd] at hpd'
  obtain rfl := Option.some.inj hpd'
  obtain ⟨-, -, hp1⟩ := hf.pd _ _ hpd
  rw [hre]
  refine ⟨?_, ?_, ?_, ?_, ?_, ?_⟩
  · exact num_eq hto.x0 hto.x hf.dx.1
  · exact num_eq hto.y0 hto.y hf.dy.1
  · intro x y
    unfold resOf resRect Rect.has
    simp only
    rw [cdiv_le (p2pos _), lt_cdiv (p2pos _), cdiv_le (p2pos _), lt_cdiv (p2pos _), mul_comm x, mul_comm y]
    exact Iff.rfl
  · simp [resOf]
  · intro b hb
    unfold resOf at hb
    simp only [List.mem_map] at hb
    obtain ⟨i, -, rfl⟩ := hb
    unfold bandOf
    simp only
    generalize (if rn = 0 then 0 else i + 1) = bn
    split
    · rename_i he
      right
      rw [Bool.and_eq_true] at he
      refine ⟨he.1, rfl, ?_⟩
      have := he.2
      unfold bandEmpty at this
      simp at this
      omega
    · left
      simp [resOf]
  · intro q hq hqr
    obtain ⟨pd1, cw, ch, h1, h2, h3, h4, ⟨-, -, x3, -⟩, ⟨-, -, y3, -⟩⟩ := (inBlock_iff enc _ c q).1 hq
    have hl : q.res ≤ c.prc.length - 1 := by
      by_contra hc
      rw [List.getElem?_eq_none (by omega)] at h1; simp at h1
    obtain ⟨b1, b2⟩ := bno_bits h2
    rw [hqr, hpd] at h1
    obtain rfl := Option.some.inj h1
    rw [pos_eq _ _ h2]
    simp only
    subst hqr
    rw [cell_pos hl b1 (fun e => (hp1 e).1), cell_pos hl b2 (fun e => (hp1 e).2), x3, y3]
    unfold resOf resRect
    simp only
    rw [add_sub_cancel_left, add_sub_cancel_left]
    exact_mod_cast (Nat.mod_add_div q.prec _).symm

/-- **C45.** The encoder and the decoder put every coefficient into the same code block. -/
theorem C45_encoder_decoder_agree {p : Params} {n : Nat} {E D : TileS} (h : Fit p n) (he : initTile true p n = .ok E)
    (hd : initTile false p n = .ok D) : E.rect = D.rect ∧ E.comps.length = D.comps.length ∧
    ∀ (i : Nat) (a b : TileC), E.comps[i]? = some a → D.comps[i]? = some b → a.rect = b.rect ∧ ∀ q : Coef, q.inBlock a ↔ q.inBlock b := by
  obtain ⟨e1, e2, e3⟩ := comps_get h he
  obtain ⟨d1, d2, d3⟩ := comps_get h hd
  refine ⟨e1.trans d1.symm, e2.trans d2.symm, ?_⟩
  intro i a b ha hb
  obtain ⟨c, hc⟩ : ∃ c, p.comps[i]? = some c := by
    have : i < E.comps.length := by
      by_contra hcon
      rw [List.getElem?_eq_none (by omega)] at ha; simp at ha
    exact ⟨p.comps[i]'(by omega), List.getElem?_eq_getElem _⟩
  rw [e3 hc ha, d3 hc hb]
  exact ⟨rfl, fun q => by rw [inBlock_iff, inBlock_iff]⟩

theorem num_le {c0 c1 : Int} {t1 lev pd : Nat} (h0 : 0 ≤ c0) (h01 : c0 ≤ c1) (h1 : c1 ≤ t1) :
    pwOf (cdiv c0 (2 ^ lev)) (cdiv c1 (2 ^ lev)) pd ≤ t1 / 2 ^ pd + 1 := by
  unfold pwOf
  split
  · exact Nat.zero_le _
  · have a : cdiv c1 (2 ^ lev) ≤ c1 := cdiv_le_self (p2pos lev) (by omega)
    have b : (0 : Int) ≤ cdiv c0 (2 ^ lev) / 2 ^ pd := Int.ediv_nonneg (cdiv_nonneg (p2pos lev) h0) (le_of_lt (p2pos pd))
    have d : cdiv (cdiv c1 (2 ^ lev)) (2 ^ pd) ≤ cdiv t1 (2 ^ pd) := cdiv_mono (p2pos pd) (by omega)
    have e : cdiv (t1 : Int) (2 ^ pd) ≤ ((t1 / 2 ^ pd + 1 : Nat) : Int) := by
      rw [cdiv_le (p2pos pd)]
      have := lt_fdiv_mul t1 pd
      push_cast
      rw [add_mul, one_mul]
      omega
    generalize t1 / 2 ^ pd + 1 = z at *
    omega

/-- **C45.** Building the structure of a tile does not panic on any parameters the codestream syntax can
express. It fails only by a refusal, and it does not refuse a tile that meets the image area when the sizes
are small enough for 32 bits. -/
theorem C45_total {enc : Bool} {p : Params} {n : Nat} (h : Fit p n) :
    initTile enc p n ≠ .error .panic ∧
    (Small p → (∃ x y : Int, ((p.x0 ≤ x ∧ x < p.x1) ∧ (p.y0 ≤ y ∧ y < p.y1)) ∧
      (x - p.cpTx0) / p.tdx = (n % p.tw : Nat) ∧ (y - p.cpTy0) / p.tdy = (n / p.tw : Nat)) → 0 < p.tdx → 0 < p.tdy →
      ∃ T, initTile enc p n = .ok T) := by
  have ho := initTile_out (enc := enc) h
  constructor
  · rcases ho with e | ⟨e, -⟩ <;> rw [e] <;> simp
  · rintro hs ⟨x, y, ⟨⟨x1, x2⟩, y1, y2⟩, cx, cy⟩ hx hy
    rcases ho with e | ⟨e, hb⟩
    · exact ⟨_, e⟩
    exfalso
    rw [cell_of (by omega)] at cx cy
    have s1 := hs.x1
    have s2 := hs.y1
    have tx : (tileRectOf p n).x0 ≤ x ∧ x < (tileRectOf p n).x1 := by
      unfold tileRectOf; simp only; generalize n % p.tw = a at cx ⊢; push_cast; omega
    have ty : (tileRectOf p n).y0 ≤ y ∧ y < (tileRectOf p n).y1 := by
      unfold tileRectOf; simp only; generalize n / p.tw = a at cy ⊢; push_cast; omega
    have tx1 : 0 ≤ (tileRectOf p n).x0 ∧ (tileRectOf p n).x1 ≤ p.x1 := by unfold tileRectOf; simp only; omega
    have ty1 : 0 ≤ (tileRectOf p n).y0 ∧ (tileRectOf p n).y1 ≤ p.y1 := by unfold tileRectOf; simp only; omega
    rcases hb with hb | hb | hb | hb | ⟨c, hc, r, q, hq, hb⟩
    · omega
    · omega
    · omega
    · omega
    · have hf := h.comps c hc
      have hro := compRect_ok (t := tileRectOf p n) (c := c) ⟨tx1.1, by omega, by omega, ty1.1, by omega, by omega⟩ hf
      obtain ⟨q1, q2, -⟩ := hf.pd _ _ hq
      have hx1 : (compRect (tileRectOf p n) c).x1 ≤ p.x1 :=
        le_trans (cdiv_le_self (by have := hf.dx.1; omega) (by omega)) tx1.2
      have hy1 : (compRect (tileRectOf p n) c).y1 ≤ p.y1 :=
        le_trans (cdiv_le_self (by have := hf.dy.1; omega) (by omega)) ty1.2
      have o1 := hro.x0; have o2 := hro.x; have o3 := hro.y0; have o4 := hro.y
      obtain ⟨R, hR⟩ : ∃ R, R = compRect (tileRectOf p n) c := ⟨_, rfl⟩
      rw [← hR] at hb hro hx1 hy1 o1 o2 o3 o4
      have lim (a : Int) (lev pd : Nat) (ha : 0 ≤ a) (hpd : pd ≤ 15) (t : Nat) (hat : a ≤ t) (ht : t + 2 ^ 15 ≤ 2 ^ 31) :
          cdiv (cdiv a (2 ^ lev)) (2 ^ pd) * 2 ^ pd < 2 ^ 31 := by
        have k1 := cdiv_mul_lt (cdiv a (2 ^ lev)) pd
        have k2 := cdiv_le_self (p2pos lev) ha
        have k3 := p2le 15 hpd
        omega
      rcases hb with hb | hb | hb | ⟨b, hbm, k, hk, hb⟩
      · exact absurd hb (not_le.2 (lim _ _ _ (by omega) q1 _ hx1 s1))
      · exact absurd hb (not_le.2 (lim _ _ _ (by omega) q2 _ hy1 s2))
      · have n1 := num_le (lev := c.prc.length - 1 - r) (pd := q.1) o1 o2 hx1
        have n2 := num_le (lev := c.prc.length - 1 - r) (pd := q.2) o3 o4 hy1
        have n3 := hs.prec c hc q (List.mem_of_getElem? hq)
        have n4 := Nat.mul_le_mul_right p.szPrec (Nat.mul_le_mul n1 n2)
        exact absurd (lt_of_le_of_lt n4 n3) (not_lt.2 hb)
      · unfold resOf at hbm
        simp only [List.mem_map] at hbm
        obtain ⟨i, -, rfl⟩ := hbm
        unfold bandOf at hk
        simp only [Bool.false_and, Bool.false_eq_true, if_false, List.mem_map] at hk
        obtain ⟨kk, -, rfl⟩ := hk
        unfold precOf precRect at hb
        simp only at hb
        have m1 := cwOf_le (cb := min c.cblkw (cbgOf r q.1)) (cbg := cbgOf r q.1) (min_le_right _ _)
          (le_max_left (((resRect R (c.prc.length - 1 - r)).x0 / 2 ^ q.1 + (kk % pwOf (resRect R (c.prc.length - 1 - r)).x0 (resRect R (c.prc.length - 1 - r)).x1 q.1 : Nat)) * 2 ^ cbgOf r q.1)
            (bandRect R r (c.prc.length - 1 - r) (if r = 0 then 0 else i + 1)).x0)
          (min_le_left _ (bandRect R r (c.prc.length - 1 - r) (if r = 0 then 0 else i + 1)).x1)
        have m2 := cwOf_le (cb := min c.cblkh (cbgOf r q.2)) (cbg := cbgOf r q.2) (min_le_right _ _)
          (le_max_left (((resRect R (c.prc.length - 1 - r)).y0 / 2 ^ q.2 + (kk / pwOf (resRect R (c.prc.length - 1 - r)).x0 (resRect R (c.prc.length - 1 - r)).x1 q.1 : Nat)) * 2 ^ cbgOf r q.2)
            (bandRect R r (c.prc.length - 1 - r) (if r = 0 then 0 else i + 1)).y0)
          (min_le_left _ (bandRect R r (c.prc.length - 1 - r) (if r = 0 then 0 else i + 1)).y1)
        have p1 (pd cblk : Nat) : 2 ^ (cbgOf r pd - min cblk (cbgOf r pd)) ≤ 2 ^ (pd - cblk) := by
          apply Nat.pow_le_pow_right (by omega)
          unfold cbgOf
          split <;> omega
        have n3 := hs.blk c hc q (List.mem_of_getElem? hq)
        have n4 := Nat.mul_le_mul_right p.szBlk (Nat.mul_le_mul (le_trans m1 (p1 _ _)) (le_trans m2 (p1 _ _)))
        exact absurd (lt_of_le_of_lt n4 n3) (not_lt.2 hb)

/-- **C45.** With the tile grid of a codestream, every point of the image area is in exactly one tile. -/
theorem C45_every_point_in_one_tile {enc : Bool} {p : Params} {th : Nat} (g : Grid p th) (hs : Small p)
    (h : ∀ n, n < p.tw * th → Fit p n) (x y : Int) (hx : p.x0 ≤ x ∧ x < p.x1) (hy : p.y0 ≤ y ∧ y < p.y1) :
    ∃! n, n < p.tw * th ∧ ∃ T, initTile enc p n = .ok T ∧ T.rect.has x y := by
  have gx := g.x
  have gy := g.y
  have tdx : 0 < p.tdx := by omega
  have tdy : 0 < p.tdy := by omega
  have bound (v g0 e td t : Nat) (h1 : g0 ≤ v) (h2 : v < e) (htd : 0 < td) (ht : t = (e - g0 + td - 1) / td) : (v - g0) / td < t := by
    rw [ht, Nat.div_lt_iff_lt_mul htd]
    have := Nat.lt_div_mul_add htd (a := e - g0 + td - 1)
    omega
  obtain ⟨X, rfl⟩ : ∃ X : Nat, x = X := ⟨x.toNat, by omega⟩
  obtain ⟨Y, rfl⟩ : ∃ Y : Nat, y = Y := ⟨y.toNat, by omega⟩
  have bx := bound X p.cpTx0 p.x1 p.tdx p.tw (by omega) (by omega) tdx g.tw
  have by' := bound Y p.cpTy0 p.y1 p.tdy th (by omega) (by omega) tdy g.th
  obtain ⟨k1, k2, k3⟩ := pack bx by'
  have ex : ((X : Int) - p.cpTx0) / p.tdx = ((X - p.cpTx0) / p.tdx : Nat) := by
    rw [Int.natCast_ediv, Int.natCast_sub (by omega)]
  have ey : ((Y : Int) - p.cpTy0) / p.tdy = ((Y - p.cpTy0) / p.tdy : Nat) := by
    rw [Int.natCast_ediv, Int.natCast_sub (by omega)]
  refine ⟨_, ⟨k1, ?_⟩, ?_⟩
  · have hcell : (((p.x0 : Int) ≤ X ∧ (X : Int) < p.x1) ∧ ((p.y0 : Int) ≤ Y ∧ (Y : Int) < p.y1)) ∧
        ((X : Int) - p.cpTx0) / p.tdx = ((((Y - p.cpTy0) / p.tdy) * p.tw + (X - p.cpTx0) / p.tdx) % p.tw : Nat) ∧
        ((Y : Int) - p.cpTy0) / p.tdy = ((((Y - p.cpTy0) / p.tdy) * p.tw + (X - p.cpTx0) / p.tdx) / p.tw : Nat) := by
      rw [k2, k3]; exact ⟨⟨hx, hy⟩, ex, ey⟩
    obtain ⟨T, hT⟩ := (C45_total (enc := enc) (h _ k1)).2 hs ⟨X, Y, hcell⟩ tdx tdy
    exact ⟨T, hT, ((C45_tiles (h _ k1) tdx tdy hT).1 X Y).2 hcell⟩
  · rintro n ⟨hn, T, hT, hhas⟩
    obtain ⟨-, c1, c2⟩ := ((C45_tiles (h _ hn) tdx tdy hT).1 X Y).1 hhas
    refine unpack (w := p.tw) ?_ ?_
    · rw [k2]; omega
    · rw [k3]; omega

/-! ## A concrete case: a 17 × 13 image at (3, 2), tiles of 8 × 9 from (1, 1), one component at full size and
one subsampled, two and one decomposition levels, small precincts -/

/-- Parameters used by the examples. -/
def exParams : Params where
  x0 := 3
  y0 := 2
  x1 := 20
  y1 := 15
  cpTx0 := 1
  cpTy0 := 1
  tdx := 8
  tdy := 9
  tw := 3
  comps := [⟨1, 1, [(1, 2), (2, 2), (3, 2)], 2, 2⟩, ⟨2, 1, [(0, 15), (15, 3)], 6, 6⟩]
  szPrec := 96
  szBlk := 120

theorem exFit (n : Nat) (hn : n < 6) : Fit exParams n := by
  have hc : ∀ c ∈ exParams.comps, CompFit c := by
    intro c hc
    simp only [exParams, List.mem_cons, List.not_mem_nil, or_false] at hc
    rcases hc with rfl | rfl
    · refine ⟨by decide, by decide, by decide, ?_⟩
      intro r q hq
      rcases r with _ | _ | _ | r <;> simp at hq <;> subst hq <;> decide
    · refine ⟨by decide, by decide, by decide, ?_⟩
      intro r q hq
      rcases r with _ | _ | r <;> simp at hq <;> subst hq <;> decide
  refine ⟨by decide, ?_, ?_, by decide, by decide, by decide, by decide, by decide, by decide, by decide, hc, by decide, by decide⟩
  · show 1 + n % 3 * 8 < 2 ^ 32; omega
  · show 1 + n / 3 * 9 < 2 ^ 32; omega

theorem exSmall : Small exParams := by
  refine ⟨by decide, by decide, ?_, ?_⟩ <;> decide

example : Grid exParams 2 := ⟨by decide, by decide, by decide, by decide⟩
example : ((initTile true exParams 4).toOption.map fun T => (T.rect, T.comps.map fun c => c.ress.map fun r => (r.pw, r.ph))) =
    some (⟨9, 10, 17, 15⟩, [[(2, 1), (2, 1), (2, 2)], [(2, 1), (1, 1)]]) := by decide +kernel
example : ∃! n, n < 3 * 2 ∧ ∃ T, initTile false exParams n = .ok T ∧ T.rect.has 16 10 :=
  C45_every_point_in_one_tile ⟨by decide, by decide, by decide, by decide⟩ exSmall exFit 16 10 (by decide) (by decide)
example : ∃ T, initTile true exParams 5 = .ok T :=
  (C45_total (exFit 5 (by omega))).2 exSmall ⟨18, 12, by decide⟩ (by decide) (by decide)
/-- The coefficient at column 13, row 12 of the first component of tile 4: resolution 2, band HL. -/
example : ∃ T tc, initTile true exParams 4 = .ok T ∧ T.comps[0]? = some tc ∧
    (∃ q : Coef, q.inBlock tc ∧ q.pos 2 = (13, 12) ∧ q.res = 2 ∧ q.band = 0) := by
  obtain ⟨T, hT⟩ := (C45_total (enc := true) (exFit 4 (by omega))).2 exSmall ⟨10, 11, by decide⟩ (by decide) (by decide)
  obtain ⟨hl, hp⟩ := C45_partition (exFit 4 (by omega)) hT
  obtain ⟨tc, htc⟩ : ∃ tc, T.comps[0]? = some tc := ⟨T.comps[0]'(by rw [hl]; decide), List.getElem?_eq_getElem _⟩
  obtain ⟨-, -, hq⟩ := hp 0 _ tc rfl htc
  have hr := ((C45_tiles (exFit 4 (by omega)) (by decide) (by decide) hT).2 0 _ tc rfl htc 13 12).2
    (((C45_tiles (exFit 4 (by omega)) (by decide) (by decide) hT).1 _ _).2 (by decide))
  obtain ⟨q, ⟨h1, h2⟩, -⟩ := hq 13 12 hr
  refine ⟨T, tc, hT, htc, q, h1, h2, ?_⟩
  change q.pos 2 = (13, 12) at h2
  unfold Coef.pos at h2
  have hres : q.res < 3 := by
    obtain ⟨r, b, k, c, e1, -⟩ := h1
    have := (List.getElem?_eq_some_iff.1 e1).1
    have := (hp 0 _ tc rfl htc).1
    simp at this
    omega
  have : q.res = 0 ∨ q.res = 1 ∨ q.res = 2 := by omega
  rcases this with e | e | e
  · simp [e] at h2; omega
  · simp [e] at h2; omega
  · simp [e] at h2
    refine ⟨e, ?_⟩
    by_contra hb
    by_cases hb1 : q.band = 1
    · simp [hb1] at h2; omega
    · simp [hb, hb1] at h2; omega

end Jp2.Tcd

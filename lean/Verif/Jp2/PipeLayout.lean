import Verif.Jp2.Pipe
import Verif.Jp2.TcdProps
import Verif.Jp2.DwtProps
/-!
# Where the blocks of a tile-component sit in its buffer
-/
namespace Jp2.Pipe
open Tcd (Rect Band Prec TileC CompP Coef RectOk compOf compRect resRect bandRect bandAx cdiv bno cdiv_cdiv p2pos ressOf ressOf_get resOf bandOf)

/-- Extent of the resolution `lev` halvings below along one axis. -/
def ext (c0 c1 : Int) (lev : Nat) : Int := cdiv c1 (2 ^ lev) - cdiv c0 (2 ^ lev)

theorem cdiv_two (a : Int) : cdiv a 2 = (a + 1) / 2 := by unfold cdiv; congr 1; omega

theorem cdiv_succ (a : Int) (lev : Nat) : cdiv a (2 ^ (lev + 1)) = (cdiv a (2 ^ lev) + 1) / 2 := by
  rw [pow_succ, ← cdiv_cdiv (p2pos lev) (by norm_num), cdiv_two]

theorem cdiv_odd (a : Int) (lev : Nat) : cdiv (a - 2 ^ lev) (2 ^ (lev + 1)) = cdiv a (2 ^ lev) / 2 := by
  rw [pow_succ, ← cdiv_cdiv (p2pos lev) (by norm_num), cdiv_two]
  have : cdiv (a - 2 ^ lev) (2 ^ lev) = cdiv a (2 ^ lev) - 1 := by
    unfold cdiv
    have hp := p2pos lev
    rw [show a - 2 ^ lev + 2 ^ lev - 1 = (a + 2 ^ lev - 1) + 2 ^ lev * (-1) by ring, Int.add_mul_ediv_left _ _ (by omega)]
    ring
  rw [this]; congr 1; ring

/-- The low band is the resolution below, the high band what is left. -/
theorem band_ext (c0 c1 : Int) (rn lev ob : Nat) (hr : rn ≠ 0) (hob : ob ≤ 1) :
    (bandAx c0 c1 rn lev ob).2 - (bandAx c0 c1 rn lev ob).1 = if ob = 1 then ext c0 c1 lev - ext c0 c1 (lev + 1) else ext c0 c1 (lev + 1) := by
  unfold bandAx ext
  rw [if_neg hr]
  have : ob = 0 ∨ ob = 1 := by omega
  rcases this with rfl | rfl
  · simp
  · rw [if_pos rfl]
    simp only [Nat.cast_one, one_mul]
    rw [cdiv_odd, cdiv_odd, cdiv_succ, cdiv_succ]
    omega

/-- The offset of a band along one axis. -/
def off (c0 c1 : Int) (lev ob : Nat) : Int := if ob = 1 then ext c0 c1 (lev + 1) else 0

theorem ext_nonneg {c0 c1 : Int} (h : c0 ≤ c1) (lev : Nat) : 0 ≤ ext c0 c1 lev := by
  unfold ext; have := Tcd.cdiv_mono (p2pos lev) h; omega

theorem ext_anti {c0 c1 : Int} (h : c0 ≤ c1) (lev : Nat) : ext c0 c1 (lev + 1) ≤ ext c0 c1 lev := by
  unfold ext
  rw [cdiv_succ, cdiv_succ]
  have := Tcd.cdiv_mono (p2pos lev) h
  omega

theorem ext_le {c0 c1 : Int} (h : c0 ≤ c1) (lev : Nat) : ext c0 c1 lev ≤ c1 - c0 := by
  induction lev with
  | zero => unfold ext cdiv; simp
  | succ n ih => exact le_trans (ext_anti h n) ih

theorem ext_zero (c0 c1 : Int) : ext c0 c1 0 = c1 - c0 := by unfold ext cdiv; simp

/-- Every place `(X, Y)` of the buffer belongs to a coefficient of some band. -/
theorem layout {x0 x1 y0 y1 : Int} (hx : x0 ≤ x1) (hy : y0 ≤ y1) : ∀ (L : Nat) (s : Nat) (X Y : Int), 0 ≤ X → X < ext x0 x1 s → 0 ≤ Y → Y < ext y0 y1 s →
    ∃ res band u v, res ≤ L ∧ band < (if res = 0 then 1 else 3) ∧
      ((bandAx x0 x1 res (s + L - res) (bno res band % 2)).1 ≤ u ∧ u < (bandAx x0 x1 res (s + L - res) (bno res band % 2)).2) ∧
      ((bandAx y0 y1 res (s + L - res) (bno res band / 2)).1 ≤ v ∧ v < (bandAx y0 y1 res (s + L - res) (bno res band / 2)).2) ∧
      X = u - (bandAx x0 x1 res (s + L - res) (bno res band % 2)).1 + off x0 x1 (s + L - res) (bno res band % 2) ∧
      Y = v - (bandAx y0 y1 res (s + L - res) (bno res band / 2)).1 + off y0 y1 (s + L - res) (bno res band / 2)
  | 0, s, X, Y, h1, h2, h3, h4 => by
    refine ⟨0, 0, X + (bandAx x0 x1 0 s 0).1, Y + (bandAx y0 y1 0 s 0).1, le_rfl, by simp, ?_, ?_, ?_, ?_⟩ <;>
      simp [bno, off, bandAx, ext] at * <;> omega
  | L + 1, s, X, Y, h1, h2, h3, h4 => by
    by_cases hc : X < ext x0 x1 (s + 1) ∧ Y < ext y0 y1 (s + 1)
    · obtain ⟨res, band, u, v, k1, k2, k3⟩ := layout hx hy L (s + 1) X Y h1 hc.1 h3 hc.2
      refine ⟨res, band, u, v, by omega, k2, ?_⟩
      rw [show s + (L + 1) - res = s + 1 + L - res by omega]
      exact k3
    · obtain ⟨a, ha⟩ : ∃ a : Nat, a = if X < ext x0 x1 (s + 1) then 0 else 1 := ⟨_, rfl⟩
      obtain ⟨b, hb⟩ : ∃ b : Nat, b = if Y < ext y0 y1 (s + 1) then 0 else 1 := ⟨_, rfl⟩
      have hab : a ≤ 1 ∧ b ≤ 1 ∧ 1 ≤ a + 2 * b := by
        rw [ha, hb]
        split <;> split <;> omega
      have eb : bno (L + 1) (a + 2 * b - 1) = a + 2 * b := by unfold bno; rw [if_neg (by omega)]; omega
      have ea : (a + 2 * b) % 2 = a := by omega
      have eb2 : (a + 2 * b) / 2 = b := by omega
      refine ⟨L + 1, a + 2 * b - 1, X - off x0 x1 s a + (bandAx x0 x1 (L + 1) s a).1, Y - off y0 y1 s b + (bandAx y0 y1 (L + 1) s b).1,
        le_rfl, by rw [if_neg (by omega)]; omega, ?_⟩
      rw [eb, ea, eb2, show s + (L + 1) - (L + 1) = s by omega]
      have bx := band_ext x0 x1 (L + 1) s a (by omega) hab.1
      have by' := band_ext y0 y1 (L + 1) s b (by omega) hab.2.1
      have e1 := ext_anti hx s
      have e2 := ext_anti hy s
      refine ⟨⟨?_, ?_⟩, ⟨?_, ?_⟩, by omega, by omega⟩ <;> unfold off <;> split at ha <;> split at hb <;> subst ha <;> subst hb <;> simp at bx by' ⊢ <;> omega

/-! ## The structure, closed -/

theorem bandRect_eq (tc : Rect) (rn lev bandno : Nat) : bandRect tc rn lev bandno =
    ⟨(bandAx tc.x0 tc.x1 rn lev (bandno % 2)).1, (bandAx tc.y0 tc.y1 rn lev (bandno / 2)).1,
      (bandAx tc.x0 tc.x1 rn lev (bandno % 2)).2, (bandAx tc.y0 tc.y1 rn lev (bandno / 2)).2⟩ := rfl

/-- What is known of a block of a structure. -/
structure Blk (enc : Bool) (t : Rect) (c : CompP) (rn bi : Nat) (r : Tcd.Res) (b : Band) : Prop where
  res : rn < c.prc.length
  rect : r.rect = resRect (compRect t c) (c.prc.length - 1 - rn)
  band : bi < (if rn = 0 then 1 else 3)
  bandno : b.bandno = bno rn bi
  brect : b.rect = bandRect (compRect t c) rn (c.prc.length - 1 - rn) (bno rn bi)

theorem blk_of {enc : Bool} {t : Rect} {c : CompP} {rn bi : Nat} {r : Tcd.Res} {b : Band} (hr : (compOf enc t c).ress[rn]? = some r)
    (hb : r.bands[bi]? = some b) : Blk enc t c rn bi r b := by
  rw [show (compOf enc t c).ress = ressOf enc c (compRect t c) 0 c.prc from rfl, ressOf_get, Nat.zero_add] at hr
  obtain ⟨pd, hpd, rfl⟩ := hr
  unfold resOf at hb
  simp only at hb
  rw [Tcd.range_get] at hb
  obtain ⟨hb, rfl⟩ := hb
  exact ⟨(List.getElem?_eq_some_iff.1 hpd).1, rfl, hb, rfl, rfl⟩

theorem ress_get {enc : Bool} {t : Rect} {c : CompP} {rn : Nat} (h : rn < c.prc.length) :
    ∃ r, (compOf enc t c).ress[rn]? = some r ∧ r.rect = resRect (compRect t c) (c.prc.length - 1 - rn) := by
  refine ⟨_, (ressOf_get enc c _ _ _ 0 rn).2 ⟨c.prc[rn], List.getElem?_eq_getElem h, rfl⟩, ?_⟩
  rw [Nat.zero_add]; rfl

/-- The place of a block in the buffer. -/
def placeX (t : Rect) (c : CompP) (rn bi : Nat) (u : Int) : Int :=
  u - (bandAx (compRect t c).x0 (compRect t c).x1 rn (c.prc.length - 1 - rn) (bno rn bi % 2)).1 +
    off (compRect t c).x0 (compRect t c).x1 (c.prc.length - 1 - rn) (bno rn bi % 2)
def placeY (t : Rect) (c : CompP) (rn bi : Nat) (v : Int) : Int :=
  v - (bandAx (compRect t c).y0 (compRect t c).y1 rn (c.prc.length - 1 - rn) (bno rn bi / 2)).1 +
    off (compRect t c).y0 (compRect t c).y1 (c.prc.length - 1 - rn) (bno rn bi / 2)

theorem offAxis_eq {ob : Nat} {lo : Option Int} {d v : Int} (h1 : ob ≤ 1) (hv : v = if ob = 1 then d + lo.getD 0 else d) (hlo : ob = 1 → lo.isSome) (h0 : 0 ≤ v) :
    offAxis (ob == 1) lo d = some v.toNat := by
  unfold offAxis
  have : ob = 0 ∨ ob = 1 := by omega
  rcases this with rfl | rfl
  · simp at hv ⊢
    subst hv
    exact ⟨h0, rfl⟩
  · obtain ⟨l, rfl⟩ := Option.isSome_iff_exists.1 (hlo rfl)
    simp at hv ⊢
    subst hv
    exact ⟨h0, rfl⟩

theorem corner_eq {enc : Bool} {t : Rect} {c : CompP} {rn bi : Nat} {r : Tcd.Res} {b : Band} (hB : Blk enc t c rn bi r b) (cb : Rect)
    (hx : 0 ≤ placeX t c rn bi cb.x0) (hy : 0 ≤ placeY t c rn bi cb.y0) :
    corner (compOf enc t c) rn b cb = some ((placeY t c rn bi cb.y0).toNat * width (compRect t c) + (placeX t c rn bi cb.x0).toNat) := by
  obtain ⟨h1, h2⟩ := Tcd.bno_bits hB.band
  have hn : ∀ k, (bno rn bi % 2 = 1 ∨ bno rn bi / 2 = 1) → k = (if rn = 0 then none else (compOf enc t c).ress[rn - 1]?) →
      ∃ r', k = some r' ∧ r'.rect = resRect (compRect t c) (c.prc.length - 1 - rn + 1) := by
    intro k hk e
    have h0 : rn ≠ 0 := by rintro rfl; simp [bno] at hk
    rw [if_neg h0] at e
    have := hB.res
    obtain ⟨r', e1, e2⟩ := ress_get (enc := enc) (t := t) (c := c) (rn := rn - 1) (by omega)
    refine ⟨r', e.trans e1, ?_⟩
    rw [e2, show c.prc.length - 1 - (rn - 1) = c.prc.length - 1 - rn + 1 by omega]
  unfold corner
  simp only
  obtain ⟨k, hk⟩ : ∃ k, k = (if rn = 0 then none else (compOf enc t c).ress[rn - 1]?) := ⟨_, rfl⟩
  rw [← hk, hB.bandno, hB.brect, bandRect_eq]
  have ex : offAxis (bno rn bi % 2 == 1) (k.map fun r => r.rect.x1 - r.rect.x0)
      (cb.x0 - (bandAx (compRect t c).x0 (compRect t c).x1 rn (c.prc.length - 1 - rn) (bno rn bi % 2)).1) = some (placeX t c rn bi cb.x0).toNat := by
    refine offAxis_eq h1 ?_ ?_ hx
    · unfold placeX off
      split
      · rename_i h
        obtain ⟨r', rfl, e⟩ := hn k (.inl h) hk
        simp [e, resRect, ext]
      · simp
    · intro h
      obtain ⟨r', rfl, e⟩ := hn k (.inl h) hk
      simp
  have ey : offAxis (bno rn bi / 2 % 2 == 1) (k.map fun r => r.rect.y1 - r.rect.y0)
      (cb.y0 - (bandAx (compRect t c).y0 (compRect t c).y1 rn (c.prc.length - 1 - rn) (bno rn bi / 2)).1) = some (placeY t c rn bi cb.y0).toNat := by
    rw [show bno rn bi / 2 % 2 = bno rn bi / 2 by omega]
    refine offAxis_eq h2 ?_ ?_ hy
    · unfold placeY off
      split
      · rename_i h
        obtain ⟨r', rfl, e⟩ := hn k (.inr h) hk
        simp [e, resRect, ext]
      · simp
    · intro h
      obtain ⟨r', rfl, e⟩ := hn k (.inr h) hk
      simp
  simp only
  rw [ex, ey]
  rfl

/-! ## Blocks within their band -/

theorem cell_axis {p0 p1 : Int} {cb a : Nat} (h : p0 ≤ p1) (ha : a < Tcd.cwOf p0 p1 cb) :
    p0 ≤ max ((p0 / 2 ^ cb + a) * 2 ^ cb) p0 ∧ max ((p0 / 2 ^ cb + a) * 2 ^ cb) p0 ≤ min ((p0 / 2 ^ cb + a + 1) * 2 ^ cb) p1 ∧
      min ((p0 / 2 ^ cb + a + 1) * 2 ^ cb) p1 ≤ p1 := by
  unfold Tcd.cwOf at ha
  have k1 : (p0 / 2 ^ cb + a) * 2 ^ cb < p1 := by
    rw [← Tcd.lt_cdiv (p2pos cb)]; omega
  have k2 : p0 < (p0 / 2 ^ cb + a + 1) * 2 ^ cb := by
    rw [← Tcd.fdiv_lt (p2pos cb)]; omega
  have e : (p0 / 2 ^ cb + a + 1) * (2 : Int) ^ cb = (p0 / 2 ^ cb + a) * 2 ^ cb + 2 ^ cb := by ring
  have hp := p2pos cb
  omega

theorem prec_axis {c0 c1 : Int} {rn lev ob pd i : Nat} (h0 : 0 ≤ c0) (h1 : c0 ≤ c1) (hob : ob ≤ 1) (hpd : rn ≠ 0 → 1 ≤ pd)
    (hi : i < Tcd.pwOf (cdiv c0 (2 ^ lev)) (cdiv c1 (2 ^ lev)) pd) :
    (bandAx c0 c1 rn lev ob).1 ≤ max ((cdiv c0 (2 ^ lev) / 2 ^ pd + i) * 2 ^ Tcd.cbgOf rn pd) (bandAx c0 c1 rn lev ob).1 ∧
    max ((cdiv c0 (2 ^ lev) / 2 ^ pd + i) * 2 ^ Tcd.cbgOf rn pd) (bandAx c0 c1 rn lev ob).1 ≤
      min ((cdiv c0 (2 ^ lev) / 2 ^ pd + i + 1) * 2 ^ Tcd.cbgOf rn pd) (bandAx c0 c1 rn lev ob).2 ∧
    min ((cdiv c0 (2 ^ lev) / 2 ^ pd + i + 1) * 2 ^ Tcd.cbgOf rn pd) (bandAx c0 c1 rn lev ob).2 ≤ (bandAx c0 c1 rn lev ob).2 := by
  obtain ⟨-, m1, -, m3, m4⟩ := Tcd.meets_core (resno := rn) h0 h1 hob hpd hi
  have e : (cdiv c0 (2 ^ lev) / 2 ^ pd + i + 1) * (2 : Int) ^ Tcd.cbgOf rn pd = (cdiv c0 (2 ^ lev) / 2 ^ pd + i) * 2 ^ Tcd.cbgOf rn pd + 2 ^ Tcd.cbgOf rn pd := by ring
  have hp := p2pos (Tcd.cbgOf rn pd)
  omega

/-- A block lies in its band. -/
structure Within (b cb : Rect) : Prop where
  x0 : b.x0 ≤ cb.x0
  x : cb.x0 ≤ cb.x1
  x1 : cb.x1 ≤ b.x1
  y0 : b.y0 ≤ cb.y0
  y : cb.y0 ≤ cb.y1
  y1 : cb.y1 ≤ b.y1

theorem within {enc : Bool} {t : Rect} {c : CompP} (hro : RectOk (compRect t c)) (hf : ∀ i q, c.prc[i]? = some q → Tcd.PdOk i q)
    {rn bi k j : Nat} {r : Tcd.Res} {b : Band} {p : Prec} {cb : Rect}
    (h1 : (compOf enc t c).ress[rn]? = some r) (h2 : r.bands[bi]? = some b) (h3 : b.precs[k]? = some p) (h4 : p.cblks[j]? = some cb) : Within b.rect cb := by
  rw [show (compOf enc t c).ress = ressOf enc c (compRect t c) 0 c.prc from rfl, ressOf_get, Nat.zero_add] at h1
  obtain ⟨pd, hpd, rfl⟩ := h1
  obtain ⟨-, -, hp1⟩ := hf _ _ hpd
  unfold resOf at h2
  simp only at h2
  rw [Tcd.range_get] at h2
  obtain ⟨hb, rfl⟩ := h2
  obtain ⟨b1, b2⟩ := Tcd.bno_bits hb
  change (if (enc && Tcd.bandEmpty (bandRect (compRect t c) rn (c.prc.length - 1 - rn) (bno rn bi))) = true then [] else _)[k]? = some p at h3
  change Within (bandRect (compRect t c) rn (c.prc.length - 1 - rn) (bno rn bi)) cb
  split at h3
  · simp at h3
  · rw [Tcd.range_get] at h3
    obtain ⟨hk, rfl⟩ := h3
    unfold Tcd.precOf at h4
    simp only at h4
    rw [Tcd.range_get] at h4
    obtain ⟨hj, rfl⟩ := h4
    have hw : 0 < Tcd.pwOf (resRect (compRect t c) (c.prc.length - 1 - rn)).x0 (resRect (compRect t c) (c.prc.length - 1 - rn)).x1 pd.1 := by
      rcases Nat.eq_zero_or_pos (Tcd.pwOf (resRect (compRect t c) (c.prc.length - 1 - rn)).x0 (resRect (compRect t c) (c.prc.length - 1 - rn)).x1 pd.1) with e | e
      · rw [e, Nat.zero_mul] at hk; omega
      · exact e
    have kx := prec_axis (rn := rn) (ob := bno rn bi % 2) hro.x0 hro.x b1 (fun e => (hp1 e).1) (Nat.mod_lt k hw)
    have ky := prec_axis (rn := rn) (ob := bno rn bi / 2) hro.y0 hro.y b2 (fun e => (hp1 e).2) (Nat.div_lt_of_lt_mul hk)
    unfold Tcd.precRect bandRect at hj ⊢
    simp only at hj ⊢
    have hcw : 0 < Tcd.cwOf (max (((resRect (compRect t c) (c.prc.length - 1 - rn)).x0 / 2 ^ pd.1 +
          ((k % Tcd.pwOf (resRect (compRect t c) (c.prc.length - 1 - rn)).x0 (resRect (compRect t c) (c.prc.length - 1 - rn)).x1 pd.1 : Nat) : Int)) * 2 ^ Tcd.cbgOf rn pd.1)
          (bandAx (compRect t c).x0 (compRect t c).x1 rn (c.prc.length - 1 - rn) (bno rn bi % 2)).1)
        (min (((resRect (compRect t c) (c.prc.length - 1 - rn)).x0 / 2 ^ pd.1 +
          ((k % Tcd.pwOf (resRect (compRect t c) (c.prc.length - 1 - rn)).x0 (resRect (compRect t c) (c.prc.length - 1 - rn)).x1 pd.1 : Nat) : Int) + 1) * 2 ^ Tcd.cbgOf rn pd.1)
          (bandAx (compRect t c).x0 (compRect t c).x1 rn (c.prc.length - 1 - rn) (bno rn bi % 2)).2) (min c.cblkw (Tcd.cbgOf rn pd.1)) := by
      rcases Nat.eq_zero_or_pos (Tcd.cwOf _ _ (min c.cblkw (Tcd.cbgOf rn pd.1))) with e | e
      · rw [e, Nat.zero_mul] at hj; omega
      · exact e
    have cx := cell_axis kx.2.1 (Nat.mod_lt j hcw)
    have cy := cell_axis ky.2.1 (Nat.div_lt_of_lt_mul hj)
    unfold Tcd.cblkOf
    simp only
    exact ⟨le_trans kx.1 cx.1, cx.2.1, le_trans cx.2.2 kx.2.2, le_trans ky.1 cy.1, cy.2.1, le_trans cy.2.2 ky.2.2⟩

/-- The place of a block in the buffer is inside the buffer. -/
theorem placed {enc : Bool} {t : Rect} {c : CompP} (hro : RectOk (compRect t c)) {rn bi : Nat} {r : Tcd.Res} {b : Band} {cb : Rect}
    (hB : Blk enc t c rn bi r b) (hw : Within b.rect cb) :
    (0 ≤ placeX t c rn bi cb.x0 ∧ placeX t c rn bi cb.x0 + (cb.x1 - cb.x0) ≤ (compRect t c).x1 - (compRect t c).x0) ∧
    (0 ≤ placeY t c rn bi cb.y0 ∧ placeY t c rn bi cb.y0 + (cb.y1 - cb.y0) ≤ (compRect t c).y1 - (compRect t c).y0) := by
  obtain ⟨h1, h2⟩ := Tcd.bno_bits hB.band
  obtain ⟨x0, x, x1, y0, y, y1⟩ := hw
  rw [hB.brect, bandRect_eq] at x0 x1 y0 y1
  simp only at x0 x1 y0 y1
  have key : ∀ (c0 c1 u u' : Int) (lev ob : Nat), c0 ≤ c1 → ob ≤ 1 → (rn = 0 → ob = 0) → (bandAx c0 c1 rn lev ob).1 ≤ u → u ≤ u' →
      u' ≤ (bandAx c0 c1 rn lev ob).2 → 0 ≤ u - (bandAx c0 c1 rn lev ob).1 + off c0 c1 lev ob ∧
      u - (bandAx c0 c1 rn lev ob).1 + off c0 c1 lev ob + (u' - u) ≤ c1 - c0 := by
    intro c0 c1 u u' lev ob hc ho hz k1 k2 k3
    have e0 := ext_nonneg hc (lev + 1)
    have e1 := ext_le hc lev
    have e2 := ext_anti hc lev
    by_cases hr : rn = 0
    · have hob := hz hr
      subst hob
      have : (bandAx c0 c1 rn lev 0).2 - (bandAx c0 c1 rn lev 0).1 = ext c0 c1 lev := by unfold bandAx ext; rw [if_pos hr]
      unfold off
      simp
      omega
    · have be := band_ext c0 c1 rn lev ob hr ho
      unfold off
      split <;> rename_i hob <;> [rw [if_pos hob] at be; rw [if_neg hob] at be] <;> omega
  unfold placeX placeY
  refine ⟨key _ _ _ _ _ _ hro.x h1 ?_ x0 x x1, key _ _ _ _ _ _ hro.y h2 ?_ y0 y y1⟩
  · rintro rfl; simp [bno]
  · rintro rfl; simp [bno]

/-- Every place of the buffer belongs to a coefficient of a block. -/
theorem cover {enc : Bool} {t : Rect} {c : CompP} (hro : RectOk (compRect t c)) (hf : ∀ i q, c.prc[i]? = some q → Tcd.PdOk i q) (hne : c.prc ≠ [])
    {X Y : Int} (hX : 0 ≤ X ∧ X < (compRect t c).x1 - (compRect t c).x0) (hY : 0 ≤ Y ∧ Y < (compRect t c).y1 - (compRect t c).y0) :
    ∃ q : Coef, q.inBlock (compOf enc t c) ∧ X = placeX t c q.res q.band q.u ∧ Y = placeY t c q.res q.band q.v := by
  have hlen := List.length_pos_iff.2 hne
  obtain ⟨res, band, u, v, h1, h2, ⟨x1, x2⟩, ⟨y1, y2⟩, ex, ey⟩ := layout hro.x hro.y (c.prc.length - 1) 0 X Y hX.1 (by rw [ext_zero]; exact hX.2) hY.1
    (by rw [ext_zero]; exact hY.2)
  rw [Nat.zero_add] at x1 x2 y1 y2 ex ey
  have a := (Tcd.bandAx_mem h1).1 ⟨x1, x2⟩
  have b := (Tcd.bandAx_mem h1).1 ⟨y1, y2⟩
  obtain ⟨q, hq, hp⟩ := Tcd.partition_exists (enc := enc) hf hne (t := t) (c := c) ⟨a.1, a.2, b.1, b.2⟩
  obtain ⟨pd, cw, ch, g1, g2, -⟩ := (Tcd.inBlock_iff enc t c q).1 hq
  have hl : q.res ≤ c.prc.length - 1 := by
    have := (List.getElem?_eq_some_iff.1 g1).1
    omega
  rw [Tcd.pos_eq _ _ g2, Prod.ext_iff] at hp
  obtain ⟨e1, e2, e3, e4⟩ := Tcd.pos_unique hl h1 g2 h2 hp.1 hp.2
  refine ⟨q, hq, ?_, ?_⟩
  · rw [e1, e2, e3]; exact ex
  · rw [e1, e2, e4]; exact ey

end Jp2.Pipe

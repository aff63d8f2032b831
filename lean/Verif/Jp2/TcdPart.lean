import Verif.Jp2.TcdShape
import Verif.Jp2.TcdSpec
/-!
# Code blocks and the sample grid
-/
namespace Jp2.Tcd
open Math

/-- A cell of a grid of step `2^cb`, cut to `[lo, hi)`. -/
theorem cell_iff {G lo hi u : Int} {i cb : Nat} :
    (max ((G + i) * 2 ^ cb) lo ≤ u ∧ u < min ((G + i + 1) * 2 ^ cb) hi) ↔ (lo ≤ u ∧ u < hi ∧ u / 2 ^ cb = G + i) := by
  have hp := p2pos cb
  have a := le_fdiv hp (a := u) (u := G + i)
  have b := fdiv_lt hp (a := u) (u := G + i + 1)
  rw [max_le_iff, lt_min_iff, ← a, ← b]
  omega

theorem range_get {α : Type} (n k : Nat) (f : Nat → α) (a : α) : ((List.range n).map f)[k]? = some a ↔ k < n ∧ f k = a := by
  rw [List.getElem?_map]
  by_cases h : k < n
  · rw [List.getElem?_range h]; simp [h]
  · rw [List.getElem?_eq_none (by simp; omega)]; simp [h]

theorem ressOf_get (enc : Bool) (c : CompP) (tc : Rect) (r : Res) : ∀ (l : List (Nat × Nat)) (resno j : Nat),
    (ressOf enc c tc resno l)[j]? = some r ↔ ∃ q, l[j]? = some q ∧ r = resOf enc c tc (resno + j) (l.length - 1 - j) q
  | [], _, _ => by simp [ressOf]
  | q :: l, resno, 0 => by simp [ressOf, eq_comm]
  | q :: l, resno, j + 1 => by
    have := ressOf_get enc c tc r l (resno + 1) j
    unfold ressOf
    rw [List.getElem?_cons_succ, List.getElem?_cons_succ, this, List.length_cons, show resno + (j + 1) = resno + 1 + j by omega,
      show l.length + 1 - 1 - (j + 1) = l.length - 1 - j by omega]

/-- `bandno` of band `i` of a resolution. -/
def bno (resno i : Nat) : Nat := if resno = 0 then 0 else i + 1

/-- The coordinates of one axis of a coefficient on its band, precinct and code block. -/
def AxisAt (c0 c1 : Int) (resno lev ob pd cblk i a cw : Nat) (u : Int) : Prop :=
  (bandAx c0 c1 resno lev ob).1 ≤ u ∧ u < (bandAx c0 c1 resno lev ob).2 ∧
  u / 2 ^ cbgOf resno pd = cdiv c0 (2 ^ lev) / 2 ^ pd + i ∧
  u / 2 ^ min cblk (cbgOf resno pd) = max ((cdiv c0 (2 ^ lev) / 2 ^ pd + i) * 2 ^ cbgOf resno pd) (bandAx c0 c1 resno lev ob).1 / 2 ^ min cblk (cbgOf resno pd) + a ∧
  cw = cwOf (max ((cdiv c0 (2 ^ lev) / 2 ^ pd + i) * 2 ^ cbgOf resno pd) (bandAx c0 c1 resno lev ob).1)
    (min ((cdiv c0 (2 ^ lev) / 2 ^ pd + i + 1) * 2 ^ cbgOf resno pd) (bandAx c0 c1 resno lev ob).2) (min cblk (cbgOf resno pd))

theorem bandEmpty_of {r : Rect} {u v : Int} (h : r.has u v) : bandEmpty r = false := by
  unfold Rect.has at h
  unfold bandEmpty
  simp
  omega

theorem inBlock_iff (enc : Bool) (t : Rect) (c : CompP) (q : Coef) :
    q.inBlock (compOf enc t c) ↔ ∃ pd cw ch, c.prc[q.res]? = some pd ∧ q.band < (if q.res = 0 then 1 else 3) ∧
      q.prec < pwOf (resRect (compRect t c) (c.prc.length - 1 - q.res)).x0 (resRect (compRect t c) (c.prc.length - 1 - q.res)).x1 pd.1 *
        pwOf (resRect (compRect t c) (c.prc.length - 1 - q.res)).y0 (resRect (compRect t c) (c.prc.length - 1 - q.res)).y1 pd.2 ∧
      q.blk < cw * ch ∧
      AxisAt (compRect t c).x0 (compRect t c).x1 q.res (c.prc.length - 1 - q.res) (bno q.res q.band % 2) pd.1 c.cblkw
        (q.prec % pwOf (resRect (compRect t c) (c.prc.length - 1 - q.res)).x0 (resRect (compRect t c) (c.prc.length - 1 - q.res)).x1 pd.1) (q.blk % cw) cw q.u ∧
      AxisAt (compRect t c).y0 (compRect t c).y1 q.res (c.prc.length - 1 - q.res) (bno q.res q.band / 2) pd.2 c.cblkh
        (q.prec / pwOf (resRect (compRect t c) (c.prc.length - 1 - q.res)).x0 (resRect (compRect t c) (c.prc.length - 1 - q.res)).x1 pd.1) (q.blk / cw) ch q.v := by
  unfold Coef.inBlock compOf
  simp only
  constructor
  · rintro ⟨r, b, k, cb, h1, h2, h3, h4, h5⟩
    rw [ressOf_get, Nat.zero_add] at h1
    obtain ⟨pd, hpd, rfl⟩ := h1
    unfold resOf at h2
    simp only at h2
    rw [range_get] at h2
    obtain ⟨hb, rfl⟩ := h2
    unfold bandOf at h3
    simp only at h3
    change (if (enc && bandEmpty (bandRect (compRect t c) q.res (c.prc.length - 1 - q.res) (bno q.res q.band))) = true then [] else _)[q.prec]? = some k at h3
    split at h3
    · simp at h3
    · rw [range_get] at h3
      obtain ⟨hk, rfl⟩ := h3
      unfold precOf at h4
      simp only at h4
      rw [range_get] at h4
      obtain ⟨hj, rfl⟩ := h4
      unfold Rect.has cblkOf at h5
      simp only at h5
      rw [← and_assoc, cell_iff, cell_iff] at h5
      obtain ⟨⟨x1, x2, x3⟩, y1, y2, y3⟩ := h5
      unfold precRect at x1 x2 x3 y1 y2 y3 hj
      simp only at x1 x2 x3 y1 y2 y3 hj
      obtain ⟨x4, x5, x6⟩ := cell_iff.1 ⟨x1, x2⟩
      obtain ⟨y4, y5, y6⟩ := cell_iff.1 ⟨y1, y2⟩
      exact ⟨pd, _, _, hpd, hb, hk, hj, ⟨x4, x5, x6, x3, rfl⟩, ⟨y4, y5, y6, y3, rfl⟩⟩
  · rintro ⟨pd, cw, ch, hpd, hb, hk, hj, ⟨x4, x5, x6, x3, hcw⟩, ⟨y4, y5, y6, y3, hch⟩⟩
    have e1 : (ressOf enc c (compRect t c) 0 c.prc)[q.res]? = some (resOf enc c (compRect t c) q.res (c.prc.length - 1 - q.res) pd) :=
      (ressOf_get enc c _ _ _ 0 q.res).2 ⟨pd, hpd, by rw [Nat.zero_add]⟩
    suffices h : ∃ k cb, (bandOf enc (compRect t c) q.res (c.prc.length - 1 - q.res)
        (pwOf (resRect (compRect t c) (c.prc.length - 1 - q.res)).x0 (resRect (compRect t c) (c.prc.length - 1 - q.res)).x1 pd.1)
        (pwOf (resRect (compRect t c) (c.prc.length - 1 - q.res)).x0 (resRect (compRect t c) (c.prc.length - 1 - q.res)).x1 pd.1 *
          pwOf (resRect (compRect t c) (c.prc.length - 1 - q.res)).y0 (resRect (compRect t c) (c.prc.length - 1 - q.res)).y1 pd.2)
        ((resRect (compRect t c) (c.prc.length - 1 - q.res)).x0 / 2 ^ pd.1) ((resRect (compRect t c) (c.prc.length - 1 - q.res)).y0 / 2 ^ pd.2)
        (cbgOf q.res pd.1) (cbgOf q.res pd.2) (min c.cblkw (cbgOf q.res pd.1)) (min c.cblkh (cbgOf q.res pd.2)) q.band).precs[q.prec]? = some k ∧
        k.cblks[q.blk]? = some cb ∧ cb.has q.u q.v by
      obtain ⟨k, cb, h1, h2, h3⟩ := h
      exact ⟨_, _, k, cb, e1, (range_get _ _ _ _).2 ⟨hb, rfl⟩, h1, h2, h3⟩
    have e3 : ¬ ((enc && bandEmpty (bandRect (compRect t c) q.res (c.prc.length - 1 - q.res) (bno q.res q.band))) = true) := by
      rw [bandEmpty_of (u := q.u) (v := q.v) ⟨x4, x5, y4, y5⟩]
      simp
    unfold bandOf
    simp only
    change ∃ k cb, (if (enc && bandEmpty (bandRect (compRect t c) q.res (c.prc.length - 1 - q.res) (bno q.res q.band))) = true then [] else _)[q.prec]? = some k ∧ _
    rw [if_neg e3]
    subst hcw hch
    have k1 := cell_iff.2 ⟨(cell_iff.2 ⟨x4, x5, x6⟩).1, (cell_iff.2 ⟨x4, x5, x6⟩).2, x3⟩
    have k2 := cell_iff.2 ⟨(cell_iff.2 ⟨y4, y5, y6⟩).1, (cell_iff.2 ⟨y4, y5, y6⟩).2, y3⟩
    exact ⟨_, _, (range_get _ _ _ _).2 ⟨hk, rfl⟩, (range_get _ _ _ _).2 ⟨hj, rfl⟩, k1.1, k1.2, k2.1, k2.2⟩

/-! ## One axis -/

/-- `Coef.pos` along one axis. -/
def posAx (L res ob : Nat) (u : Int) : Int := if res = 0 then 2 ^ L * u else 2 ^ (L - res) * (2 * u + ob)

theorem pos_eq (L : Nat) (q : Coef) (h : q.band < (if q.res = 0 then 1 else 3)) :
    q.pos L = (posAx L q.res (bno q.res q.band % 2) q.u, posAx L q.res (bno q.res q.band / 2) q.v) := by
  unfold Coef.pos posAx bno
  split
  · rfl
  · rename_i h0
    rw [if_neg h0] at h
    have : q.band = 0 ∨ q.band = 1 ∨ q.band = 2 := by omega
    rcases this with e | e | e <;> simp [e]

theorem bandAx_mem {c0 c1 u : Int} {L res ob : Nat} (hres : res ≤ L) :
    ((bandAx c0 c1 res (L - res) ob).1 ≤ u ∧ u < (bandAx c0 c1 res (L - res) ob).2) ↔ (c0 ≤ posAx L res ob u ∧ posAx L res ob u < c1) := by
  unfold bandAx posAx
  split
  · rename_i h
    subst h
    rw [cdiv_le (p2pos _), lt_cdiv (p2pos _), Nat.sub_zero, mul_comm]
  · show cdiv _ _ ≤ u ∧ u < cdiv _ _ ↔ _
    rw [cdiv_le (p2pos _), lt_cdiv (p2pos _), pow_succ]
    have e : (2 : Int) ^ (L - res) * (2 * u + ob) = u * (2 ^ (L - res) * 2) + ob * 2 ^ (L - res) := by ring
    rw [e]
    omega

/-- The cell of the precinct grid a coefficient falls into. -/
theorem axis_exists {c0 c1 u : Int} {res lev ob pd cblk : Nat} (hob : ob ≤ 1) (hpd : res ≠ 0 → 1 ≤ pd)
    (h1 : (bandAx c0 c1 res lev ob).1 ≤ u) (h2 : u < (bandAx c0 c1 res lev ob).2) :
    ∃ i a cw, i < pwOf (cdiv c0 (2 ^ lev)) (cdiv c1 (2 ^ lev)) pd ∧ a < cw ∧ AxisAt c0 c1 res lev ob pd cblk i a cw u := by
  -- the coefficient as a sample of its resolution
  have key : ∃ t, cdiv c0 (2 ^ lev) ≤ t ∧ t < cdiv c1 (2 ^ lev) ∧ t / 2 ^ pd = u / 2 ^ cbgOf res pd := by
    unfold bandAx at h1 h2
    unfold cbgOf
    split at h1
    · rename_i h
      rw [if_pos h] at h2
      rw [if_pos h]
      exact ⟨u, h1, h2, rfl⟩
    · rename_i h
      rw [if_neg h] at h2
      rw [if_neg h]
      obtain ⟨e, rfl⟩ : ∃ e, pd = e + 1 := ⟨pd - 1, by have := hpd h; omega⟩
      change cdiv _ _ ≤ _ at h1
      change _ < cdiv _ _ at h2
      rw [cdiv_le (p2pos _), pow_succ] at h1
      rw [lt_cdiv (p2pos _), pow_succ] at h2
      refine ⟨2 * u + ob, ?_, ?_, ?_⟩
      · rw [cdiv_le (p2pos _)]; have : (2 * u + ob) * (2 : Int) ^ lev = u * (2 ^ lev * 2) + ob * 2 ^ lev := by ring
        omega
      · rw [lt_cdiv (p2pos _)]; have : (2 * u + ob) * (2 : Int) ^ lev = u * (2 ^ lev * 2) + ob * 2 ^ lev := by ring
        omega
      · rw [Nat.add_sub_cancel, pow_succ, mul_comm ((2 : Int) ^ e) 2, ← Int.ediv_ediv_of_nonneg (by omega : (0 : Int) ≤ 2)]
        congr 1
        omega
  obtain ⟨t, t1, t2, t3⟩ := key
  have g1 : cdiv c0 (2 ^ lev) / 2 ^ pd ≤ t / 2 ^ pd := Int.ediv_le_ediv (p2pos pd) t1
  have g2 : t / 2 ^ pd < cdiv (cdiv c1 (2 ^ lev)) (2 ^ pd) := fdiv_lt_cdiv pd t2
  obtain ⟨i, hi⟩ : ∃ i : Nat, u / 2 ^ cbgOf res pd = cdiv c0 (2 ^ lev) / 2 ^ pd + i :=
    ⟨(u / 2 ^ cbgOf res pd - cdiv c0 (2 ^ lev) / 2 ^ pd).toNat, by omega⟩
  obtain ⟨k1, k2⟩ := cell_iff.2 ⟨h1, h2, hi⟩
  have g3 : max ((cdiv c0 (2 ^ lev) / 2 ^ pd + i) * 2 ^ cbgOf res pd) (bandAx c0 c1 res lev ob).1 / 2 ^ min cblk (cbgOf res pd) ≤
      u / 2 ^ min cblk (cbgOf res pd) := Int.ediv_le_ediv (p2pos _) k1
  have g4 := fdiv_lt_cdiv (min cblk (cbgOf res pd)) k2
  refine ⟨i, (u / 2 ^ min cblk (cbgOf res pd) - max ((cdiv c0 (2 ^ lev) / 2 ^ pd + i) * 2 ^ cbgOf res pd) (bandAx c0 c1 res lev ob).1 / 2 ^ min cblk (cbgOf res pd)).toNat,
    _, ?_, ?_, h1, h2, hi, ?_, rfl⟩
  · unfold pwOf
    rw [if_neg (by omega)]
    omega
  · unfold cwOf
    omega
  · omega

theorem axis_unique {c0 c1 u : Int} {res lev ob pd cblk i a cw i' a' cw' : Nat} (h : AxisAt c0 c1 res lev ob pd cblk i a cw u)
    (h' : AxisAt c0 c1 res lev ob pd cblk i' a' cw' u) : i = i' ∧ a = a' ∧ cw = cw' := by
  obtain ⟨-, -, h3, h4, h5⟩ := h
  obtain ⟨-, -, k3, k4, k5⟩ := h'
  have : i = i' := by omega
  subst this
  exact ⟨rfl, by omega, by rw [h5, k5]⟩

/-! ## Where the coefficients of the bands sit -/

theorem posAx_succ {L res ob : Nat} (u : Int) (h : res ≤ L) : posAx (L + 1) res ob u = 2 * posAx L res ob u := by
  unfold posAx
  split
  · rw [pow_succ]; ring
  · rw [show L + 1 - res = L - res + 1 by omega, pow_succ]; ring

theorem posAx_top {L ob : Nat} (u : Int) : posAx (L + 1) (L + 1) ob u = 2 * u + ob := by
  unfold posAx; simp

theorem pos_exists : ∀ (L : Nat) (x y : Int), ∃ res band u v, res ≤ L ∧ band < (if res = 0 then 1 else 3) ∧
    posAx L res (bno res band % 2) u = x ∧ posAx L res (bno res band / 2) v = y
  | 0, x, y => ⟨0, 0, x, y, le_rfl, by simp, by simp [posAx], by simp [posAx]⟩
  | L + 1, x, y => by
    by_cases h : x % 2 = 0 ∧ y % 2 = 0
    · obtain ⟨res, band, u, v, h1, h2, h3, h4⟩ := pos_exists L (x / 2) (y / 2)
      refine ⟨res, band, u, v, by omega, h2, ?_, ?_⟩
      · rw [posAx_succ _ h1, h3]; omega
      · rw [posAx_succ _ h1, h4]; omega
    · refine ⟨L + 1, (x % 2 + 2 * (y % 2) - 1).toNat, x / 2, y / 2, le_rfl, ?_, ?_, ?_⟩
      · simp; omega
      · rw [posAx_top]; unfold bno; rw [if_neg (by omega)]; omega
      · rw [posAx_top]; unfold bno; rw [if_neg (by omega)]; omega

theorem pos_unique : ∀ {L res band res' band' : Nat} {u v u' v' : Int}, res ≤ L → res' ≤ L →
    band < (if res = 0 then 1 else 3) → band' < (if res' = 0 then 1 else 3) →
    posAx L res (bno res band % 2) u = posAx L res' (bno res' band' % 2) u' →
    posAx L res (bno res band / 2) v = posAx L res' (bno res' band' / 2) v' → res = res' ∧ band = band' ∧ u = u' ∧ v = v'
  | 0, res, band, res', band', u, v, u', v', h, h', hb, hb', hx, hy => by
    obtain rfl : res = 0 := by omega
    obtain rfl : res' = 0 := by omega
    simp [posAx] at hx hy
    simp at hb hb'
    omega
  | L + 1, res, band, res', band', u, v, u', v', h, h', hb, hb', hx, hy => by
    by_cases e : res = L + 1 <;> by_cases e' : res' = L + 1
    · subst e; subst e'
      rw [posAx_top, posAx_top] at hx hy
      rw [if_neg (by omega)] at hb hb'
      unfold bno at hx hy
      rw [if_neg (by omega), if_neg (by omega)] at hx hy
      omega
    · subst e
      rw [posAx_top, posAx_succ _ (by omega)] at hx hy
      rw [if_neg (by omega)] at hb
      unfold bno at hx hy
      rw [if_neg (by omega)] at hx hy
      omega
    · subst e'
      rw [posAx_top, posAx_succ _ (by omega)] at hx hy
      rw [if_neg (by omega)] at hb'
      have e1 : bno (L + 1) band' = band' + 1 := by unfold bno; rw [if_neg (by omega)]
      rw [e1] at hx hy
      omega
    · rw [posAx_succ _ (by omega), posAx_succ _ (by omega)] at hx hy
      exact pos_unique (L := L) (by omega) (by omega) hb hb' (by omega) (by omega)

/-! ## The partition -/

theorem pack {i j w h : Nat} (hi : i < w) (hj : j < h) : j * w + i < w * h ∧ (j * w + i) % w = i ∧ (j * w + i) / w = j := by
  refine ⟨?_, ?_, ?_⟩
  · have : (j + 1) * w ≤ h * w := Nat.mul_le_mul_right _ hj
    rw [Nat.add_mul] at this
    rw [Nat.mul_comm w h]; omega
  · rw [Nat.mul_comm, Nat.mul_add_mod, Nat.mod_eq_of_lt hi]
  · rw [Nat.mul_comm, Nat.mul_add_div (by omega), Nat.div_eq_of_lt hi, Nat.add_zero]

theorem unpack {k k' w : Nat} (h1 : k % w = k' % w) (h2 : k / w = k' / w) : k = k' := by
  rw [← Nat.div_add_mod k w, ← Nat.div_add_mod k' w, h1, h2]

theorem bno_bits {res band : Nat} (h : band < (if res = 0 then 1 else 3)) : bno res band % 2 ≤ 1 ∧ bno res band / 2 ≤ 1 := by
  unfold bno; split at h <;> split <;> omega

theorem inBlock_pos {enc : Bool} {t : Rect} {c : CompP} {q : Coef} (h : q.inBlock (compOf enc t c)) :
    (compRect t c).has (q.pos (c.prc.length - 1)).1 (q.pos (c.prc.length - 1)).2 := by
  obtain ⟨pd, cw, ch, h1, h2, h3, h4, ⟨x1, x2, -⟩, ⟨y1, y2, -⟩⟩ := (inBlock_iff enc t c q).1 h
  have hl : q.res < c.prc.length := by
    by_contra hc
    rw [List.getElem?_eq_none (by omega)] at h1; simp at h1
  have a := (bandAx_mem (L := c.prc.length - 1) (by omega)).1 ⟨x1, x2⟩
  have b := (bandAx_mem (L := c.prc.length - 1) (by omega)).1 ⟨y1, y2⟩
  rw [pos_eq _ _ h2]
  exact ⟨a.1, a.2, b.1, b.2⟩

theorem partition_exists {enc : Bool} {t : Rect} {c : CompP} (hpd : ∀ i q, c.prc[i]? = some q → PdOk i q) (hne : c.prc ≠ []) {x y : Int}
    (h : (compRect t c).has x y) : ∃ q : Coef, q.inBlock (compOf enc t c) ∧ q.pos (c.prc.length - 1) = (x, y) := by
  obtain ⟨res, band, u, v, h1, h2, h3, h4⟩ := pos_exists (c.prc.length - 1) x y
  have hlen := List.length_pos_iff.2 hne
  obtain ⟨pd, hp⟩ : ∃ pd, c.prc[res]? = some pd := ⟨c.prc[res]'(by omega), List.getElem?_eq_getElem _⟩
  obtain ⟨-, -, hp1⟩ := hpd _ _ hp
  obtain ⟨b1, b2⟩ := bno_bits h2
  obtain ⟨k1, k2, k3, k4⟩ := h
  have mx := (bandAx_mem (c0 := (compRect t c).x0) (c1 := (compRect t c).x1) (u := u) (ob := bno res band % 2) h1).2 ⟨by omega, by omega⟩
  have my := (bandAx_mem (c0 := (compRect t c).y0) (c1 := (compRect t c).y1) (u := v) (ob := bno res band / 2) h1).2 ⟨by omega, by omega⟩
  obtain ⟨i, a, cw, i1, a1, ax⟩ := axis_exists (pd := pd.1) (cblk := c.cblkw) b1 (fun e => (hp1 e).1) mx.1 mx.2
  obtain ⟨j, b, ch, j1, b1', ay⟩ := axis_exists (pd := pd.2) (cblk := c.cblkh) b2 (fun e => (hp1 e).2) my.1 my.2
  obtain ⟨e1, e2, e3⟩ := pack i1 j1
  obtain ⟨f1, f2, f3⟩ := pack a1 b1'
  refine ⟨⟨res, band, _, _, u, v⟩, (inBlock_iff _ _ _ _).2 ⟨pd, cw, ch, hp, h2, e1, f1, ?_, ?_⟩, ?_⟩
  · show AxisAt _ _ _ _ _ _ _ (_ % _) (_ % _) _ _
    rw [f2]
    exact e2.symm ▸ ax
  · show AxisAt _ _ _ _ _ _ _ (_ / _) (_ / _) _ _
    rw [f3]
    exact e3.symm ▸ ay
  · rw [pos_eq _ _ h2]
    exact Prod.ext h3 h4

theorem partition_unique {enc : Bool} {t : Rect} {c : CompP} {q q' : Coef} (h : q.inBlock (compOf enc t c)) (h' : q'.inBlock (compOf enc t c))
    (e : q.pos (c.prc.length - 1) = q'.pos (c.prc.length - 1)) : q = q' := by
  obtain ⟨pd, cw, ch, h1, h2, h3, h4, hx, hy⟩ := (inBlock_iff enc t c q).1 h
  obtain ⟨pd', cw', ch', h1', h2', h3', h4', hx', hy'⟩ := (inBlock_iff enc t c q').1 h'
  have hl {i : Nat} {z : Nat × Nat} (hz : c.prc[i]? = some z) : i ≤ c.prc.length - 1 := by
    by_contra hc
    rw [List.getElem?_eq_none (by omega)] at hz; simp at hz
  rw [pos_eq _ _ h2, pos_eq _ _ h2'] at e
  obtain ⟨r, b, u, v⟩ := pos_unique (hl h1) (hl h1') h2 h2' (Prod.ext_iff.1 e).1 (Prod.ext_iff.1 e).2
  obtain ⟨res, band, prec, blk, qu, qv⟩ := q
  obtain ⟨res', band', prec', blk', qu', qv'⟩ := q'
  simp only at r b u v
  subst r b u v
  have : pd = pd' := by simp only at h1 h1'; rw [h1] at h1'; exact Option.some.inj h1'
  subst this
  obtain ⟨i1, a1, c1⟩ := axis_unique hx hx'
  obtain ⟨i2, a2, c2⟩ := axis_unique hy hy'
  subst c1 c2
  simp only at i1 i2 a1 a2
  rw [unpack i1 i2, unpack a1 a2]

/-! ## Blocks -/

theorem lex_iff {k k' w : Nat} : k < k' ↔ k / w < k' / w ∨ k / w = k' / w ∧ k % w < k' % w := by
  constructor
  · intro h
    rcases Nat.lt_or_ge (k / w) (k' / w) with h1 | h1
    · exact Or.inl h1
    · have h2 : k / w = k' / w := Nat.le_antisymm (Nat.div_le_div_right (le_of_lt h)) h1
      refine Or.inr ⟨h2, ?_⟩
      have a := Nat.div_add_mod k w
      have b := Nat.div_add_mod k' w
      rw [← h2] at b
      omega
  · rintro (h | ⟨h1, h2⟩)
    · by_contra hc
      have := Nat.div_le_div_right (c := w) (not_lt.1 hc)
      omega
    · have a := Nat.div_add_mod k w
      have b := Nat.div_add_mod k' w
      rw [← h1] at b
      omega

theorem dvd_cw {p0 : Int} {cb : Nat} (h : (2 : Int) ^ cb ∣ p0) : cwOf p0 p0 cb = 0 := by
  obtain ⟨m, rfl⟩ := h
  have hp := p2pos cb
  unfold cwOf
  rw [Int.mul_ediv_cancel_left _ (ne_of_gt hp)]
  have : cdiv (2 ^ cb * m) (2 ^ cb) ≤ m := by rw [cdiv_le hp]; exact le_of_eq (mul_comm _ _)
  omega

/-- A code block of a band that is not empty, along one axis. -/
theorem blk_axis {G b0 b1 p0 p1 : Int} {i j cb cbg : Nat} (hcb : cb ≤ cbg) (hb : b0 < b1) (hi : (G + i) * 2 ^ cbg ≤ b1) (lo : b0 ≤ (G + i + 1) * 2 ^ cbg)
    (e0 : p0 = max ((G + i) * 2 ^ cbg) b0) (e1 : p1 = min ((G + i + 1) * 2 ^ cbg) b1) (hj : j < cwOf p0 p1 cb) :
    max ((p0 / 2 ^ cb + j) * 2 ^ cb) p0 < min ((p0 / 2 ^ cb + j + 1) * 2 ^ cb) p1 ∧
    min ((p0 / 2 ^ cb + j + 1) * 2 ^ cb) p1 - max ((p0 / 2 ^ cb + j) * 2 ^ cb) p0 ≤ 2 ^ cb := by
  have hp := p2pos cb
  have hq := p2pos cbg
  have eq : (G + i + 1) * (2 : Int) ^ cbg = (G + i) * 2 ^ cbg + 2 ^ cbg := by ring
  have d : (2 : Int) ^ cb ∣ 2 ^ cbg := pow_dvd_pow 2 hcb
  have hlt : p0 < p1 := by
    by_contra hc
    have he : p0 = p1 := by omega
    have : (2 : Int) ^ cb ∣ p0 := by
      have : p0 = (G + i) * 2 ^ cbg ∨ p0 = (G + i + 1) * 2 ^ cbg := by omega
      rcases this with h | h <;> rw [h] <;> exact Dvd.dvd.mul_left d _
    rw [← he, dvd_cw this] at hj
    omega
  have h1 : (p0 / 2 ^ cb + j) * 2 ^ cb < p1 := by
    rw [← lt_cdiv hp]; unfold cwOf at hj; omega
  have h2 := lt_fdiv_mul p0 cb
  have h3 : (p0 / 2 ^ cb + j + 1) * (2 : Int) ^ cb = p0 / 2 ^ cb * 2 ^ cb + 2 ^ cb + j * 2 ^ cb := by ring
  have h4 : (p0 / 2 ^ cb + j + 1) * (2 : Int) ^ cb = (p0 / 2 ^ cb + j) * 2 ^ cb + 2 ^ cb := by ring
  have h5 : (0 : Int) ≤ j * 2 ^ cb := by positivity
  omega

end Jp2.Tcd

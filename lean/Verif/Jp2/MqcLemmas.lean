import Verif.Jp2.Mqc
import Mathlib.Tactic.Ring
import Mathlib.Tactic.Linarith
import Mathlib.Tactic.NormNum
/-!
# The code string as a number, and the interval argument

`W d k` is the number formed by the first `k` bytes of the code string `d` followed by `FF` for ever, where a byte after `FF`
contributes 7 bits; `P d k` is its number of bits.
-/
namespace Jp2.Mqc

def dig (d : List UInt8) (k : Nat) : Nat := ((d[k]?).getD 255).toNat
def wid (d : List UInt8) (k : Nat) : Nat := if 0 < k ∧ k < d.length ∧ d[k - 1]? = some 255 then 7 else 8
def W (d : List UInt8) : Nat → Nat
  | 0 => 0
  | k + 1 => W d k * 2 ^ wid d k + dig d k
def P (d : List UInt8) : Nat → Nat
  | 0 => 0
  | k + 1 => P d k + wid d k

/-- The interval `[L, L + A)` at resolution `q` contains what a decoder will see: from the byte after the first `j` on it is not
below, and never above. -/
structure Fut (L q A j : Nat) (d : List UInt8) : Prop where
  lo : ∀ k, j < k → L * 2 ^ P d k < (W d k + 1) * 2 ^ q
  up : ∀ k, W d k * 2 ^ q < (L + A) * 2 ^ P d k

/-- `d` extends the emitted bytes `e`, the last of which may still be incremented by a carry. -/
structure Ext (e d : List UInt8) : Prop where
  len : e.length ≤ d.length
  pre : ∀ i, i + 1 < e.length → d[i]? = e[i]?
  last : ∀ i x y, i + 1 = e.length → e[i]? = some x → d[i]? = some y → x.toNat ≤ y.toNat

theorem fut_sel {L q A δ A' j : Nat} {d : List UInt8} (h : Fut (L + δ) q A' j d) (hA : δ + A' ≤ A) : Fut L q A j d := by
  constructor
  · intro k hk
    exact lt_of_le_of_lt (Nat.mul_le_mul_right _ (by omega)) (h.lo k hk)
  · intro k
    exact lt_of_lt_of_le (h.up k) (Nat.mul_le_mul_right _ (by omega))

theorem fut_shl {L q A j : Nat} {d : List UInt8} : Fut (L * 2) (q + 1) (A * 2) j d ↔ Fut L q A j d := by
  constructor
  · intro h
    constructor
    · intro k hk
      have := h.lo k hk
      rw [Nat.pow_succ] at this
      nlinarith
    · intro k
      have := h.up k
      rw [Nat.pow_succ] at this
      nlinarith
  · intro h
    constructor
    · intro k hk
      have := h.lo k hk
      rw [Nat.pow_succ]
      nlinarith
    · intro k
      have := h.up k
      rw [Nat.pow_succ]
      nlinarith

theorem fut_shls {L q A j : Nat} {d : List UInt8} (n : Nat) : Fut (L * 2 ^ n) (q + n) (A * 2 ^ n) j d ↔ Fut L q A j d := by
  induction n with
  | zero => simp
  | succ n ih =>
    rw [← ih, Nat.pow_succ, ← Nat.mul_assoc, ← Nat.mul_assoc, ← Nat.add_assoc, fut_shl]

theorem fut_emit {L q A j : Nat} {d : List UInt8} (h : Fut L q A (j + 1) d)
    (hl : L * 2 ^ P d (j + 1) < (W d (j + 1) + 1) * 2 ^ q) : Fut L q A j d := by
  constructor
  · intro k hk
    by_cases hk' : k = j + 1
    · subst hk'; exact hl
    · exact h.lo k (by omega)
  · exact h.up

theorem P_mono (d : List UInt8) {i k : Nat} (h : i ≤ k) : P d i ≤ P d k := by
  induction k with
  | zero => rw [Nat.le_zero.mp h]
  | succ k ih =>
    rcases Nat.lt_or_ge k i with h1 | h1
    · rw [show i = k + 1 by omega]
    · have := ih h1
      show P d i ≤ P d k + wid d k
      omega

theorem fut_dec {L q A j k ct : Nat} {d : List UInt8} (h : Fut L q A j d) (hq : P d j < q) (hk : P d k = q + ct) :
    L * 2 ^ ct ≤ W d k ∧ W d k < (L + A) * 2 ^ ct := by
  have hj : j < k := by
    by_contra hc
    have := P_mono d (show k ≤ j by omega)
    omega
  have h1 := h.lo k hj
  have h2 := h.up k
  have hq0 : 0 < 2 ^ q := Nat.two_pow_pos q
  rw [hk, Nat.pow_add] at h1 h2
  constructor
  · have : L * 2 ^ ct < W d k + 1 := by
      apply Nat.lt_of_mul_lt_mul_right (a := 2 ^ q)
      calc L * 2 ^ ct * 2 ^ q = L * (2 ^ q * 2 ^ ct) := by ring
        _ < _ := h1
    omega
  · apply Nat.lt_of_mul_lt_mul_right (a := 2 ^ q)
    calc W d k * 2 ^ q < _ := h2
      _ = _ := by ring

/-! ## Agreement on prefixes -/

theorem wid_congr {d e : List UInt8} {k : Nat} (hk : k < e.length) (hl : e.length ≤ d.length)
    (h : ∀ i, i + 1 < e.length → d[i]? = e[i]?) : wid d k = wid e k := by
  unfold wid
  rcases Nat.eq_zero_or_pos k with h0 | h0
  · simp [h0]
  · rw [h (k - 1) (by omega)]
    have : k < d.length := by omega
    simp [h0, hk, this]

theorem P_congr {d e : List UInt8} (hl : e.length ≤ d.length) (h : ∀ i, i + 1 < e.length → d[i]? = e[i]?) (k : Nat)
    (hk : k ≤ e.length) : P d k = P e k := by
  induction k with
  | zero => rfl
  | succ k ih =>
    show P d k + wid d k = P e k + wid e k
    rw [ih (by omega), wid_congr (by omega) hl h]

theorem W_congr {d e : List UInt8} (hl : e.length ≤ d.length) (h : ∀ i, i + 1 < e.length → d[i]? = e[i]?) (k : Nat)
    (hk : k < e.length) : W d k = W e k := by
  induction k with
  | zero => rfl
  | succ k ih =>
    show W d k * _ + dig d k = W e k * _ + dig e k
    rw [ih (by omega), wid_congr (by omega) hl h]
    unfold dig
    rw [h k (by omega)]

theorem ext_P {e d : List UInt8} (h : Ext e d) : P d e.length = P e e.length := P_congr h.len h.pre _ (Nat.le_refl _)

theorem ext_W {e d : List UInt8} (h : Ext e d) : W e e.length ≤ W d e.length := by
  rcases hn : e.length with _ | n
  · exact Nat.le_refl _
  · show W e n * _ + dig e n ≤ W d n * _ + dig d n
    rw [W_congr h.len h.pre n (by omega), wid_congr (by omega) h.len h.pre]
    have hl := h.len
    have : dig e n ≤ dig d n := by
      unfold dig
      have h1 : n < e.length := by omega
      have h2 : n < d.length := by omega
      have := h.last n e[n] d[n] (by omega) (List.getElem?_eq_getElem h1) (List.getElem?_eq_getElem h2)
      rw [List.getElem?_eq_getElem h1, List.getElem?_eq_getElem h2]
      exact this
    omega

/-- Width of the byte that follows `e`. -/
def nextWid (e : List UInt8) : Nat := if e.getLast? = some 255 then 7 else 8

theorem getLast?_idx {e : List UInt8} {n : Nat} (h : e.length = n + 1) : e.getLast? = e[n]? := by
  rw [List.getLast?_eq_getElem?, h]; rfl

theorem wid_snoc (e : List UInt8) (b : UInt8) : wid (e ++ [b]) e.length = nextWid e := by
  unfold wid nextWid
  rcases hn : e.length with _ | n
  · have : e = [] := List.length_eq_zero_iff.mp hn
    simp [this]
  · rw [getLast?_idx hn, show n + 1 - 1 = n by omega, List.getElem?_append_left (by omega)]
    simp [hn]

theorem W_snoc (e : List UInt8) (b : UInt8) :
    W (e ++ [b]) (e.length + 1) = W e e.length * 2 ^ nextWid e + b.toNat := by
  show W (e ++ [b]) e.length * 2 ^ wid (e ++ [b]) e.length + dig (e ++ [b]) e.length = _
  have hw : ∀ k, k ≤ e.length → W (e ++ [b]) k = W e k := by
    intro k hk
    induction k with
    | zero => rfl
    | succ k ih =>
      show W (e ++ [b]) k * _ + dig (e ++ [b]) k = W e k * _ + dig e k
      rw [ih (by omega), wid_congr (d := e ++ [b]) (e := e) (by omega) (by simp)
        (fun i hi => List.getElem?_append_left (by omega))]
      unfold dig
      rw [List.getElem?_append_left (by omega)]
  rw [hw _ (Nat.le_refl _), wid_snoc]
  unfold dig
  simp

theorem P_snoc (e : List UInt8) (b : UInt8) : P (e ++ [b]) (e.length + 1) = P e e.length + nextWid e := by
  show P (e ++ [b]) e.length + wid (e ++ [b]) e.length = _
  rw [wid_snoc, P_congr (d := e ++ [b]) (e := e) (by simp) (fun i hi => List.getElem?_append_left (by omega)) _
    (Nat.le_refl _)]

/-- The value and length of the emitted bytes. -/
def Sv (e : List UInt8) : Nat := W e e.length
def Pv (e : List UInt8) : Nat := P e e.length

theorem Sv_snoc (e : List UInt8) (b : UInt8) : Sv (e ++ [b]) = Sv e * 2 ^ nextWid e + b.toNat := by
  unfold Sv; rw [List.length_append]; exact W_snoc e b
theorem Pv_snoc (e : List UInt8) (b : UInt8) : Pv (e ++ [b]) = Pv e + nextWid e := by
  unfold Pv; rw [List.length_append]; exact P_snoc e b

theorem ext_snoc {e d : List UInt8} {b : UInt8} (h : Ext (e ++ [b]) d) : Ext e d := by
  have hl := h.len
  simp only [List.length_append, List.length_cons, List.length_nil] at hl
  refine ⟨by omega, ?_, ?_⟩
  · intro i hi
    rw [h.pre i (by simp; omega), List.getElem?_append_left (by omega)]
  · intro i x y hi hx hy
    have := h.pre i (by simp; omega)
    rw [List.getElem?_append_left (by omega), hx, hy] at this
    injection this with this
    rw [this]

/-- A carry only increments the last byte. -/
theorem ext_bump {f d : List UInt8} {x : UInt8} (h : Ext (f ++ [x + 1]) d) (hx : x ≠ 255) : Ext (f ++ [x]) d := by
  refine ⟨by simpa using h.len, ?_, ?_⟩
  · intro i hi
    simp only [List.length_append, List.length_cons, List.length_nil] at hi
    rw [h.pre i (by simpa using hi), List.getElem?_append_left (by omega), List.getElem?_append_left (by omega)]
  · intro i a y hi ha hy
    simp only [List.length_append, List.length_cons, List.length_nil] at hi
    have hi' : i = f.length := by omega
    subst hi'
    have := h.last f.length (x + 1) y (by simp) (by simp) hy
    simp at ha
    subst ha
    have h2 : (x + 1).toNat = x.toNat + 1 := by
      have : x.toNat ≠ 255 := fun hc => hx (UInt8.toNat_inj.mp hc)
      have := x.toNat_lt
      rw [UInt8.toNat_add]
      simp
      omega
    omega

/-! ## The final code string -/

theorem dig_ge {d : List UInt8} {k : Nat} (h : d.length ≤ k) : dig d k = 255 := by
  unfold dig; rw [List.getElem?_eq_none h]; rfl
theorem wid_ge {d : List UInt8} {k : Nat} (h : d.length ≤ k) : wid d k = 8 := by
  unfold wid; rw [if_neg (by omega)]

theorem W_tail (d : List UInt8) (i : Nat) : W d (d.length + i) + 1 = (W d d.length + 1) * 2 ^ (8 * i) ∧
    P d (d.length + i) = P d d.length + 8 * i := by
  induction i with
  | zero => simp
  | succ i ih =>
    obtain ⟨h1, h2⟩ := ih
    constructor
    · show W d (d.length + i) * 2 ^ wid d (d.length + i) + dig d (d.length + i) + 1 = _
      rw [wid_ge (by omega), dig_ge (by omega), show 8 * (i + 1) = 8 * i + 8 by ring, Nat.pow_add, ← Nat.mul_assoc, ← h1]
      norm_num
      ring
    · show P d (d.length + i) + wid d (d.length + i) = _
      rw [wid_ge (by omega), h2]
      ring

theorem W_mul_le (d : List UInt8) {i k : Nat} (h : i ≤ k) : W d i * 2 ^ (P d k - P d i) ≤ W d k := by
  induction k with
  | zero => rw [Nat.le_zero.mp h]; simp
  | succ k ih =>
    rcases Nat.lt_or_ge k i with h1 | h1
    · rw [show i = k + 1 by omega]; simp
    · have h2 := ih h1
      have h3 := P_mono d h1
      show W d i * 2 ^ (P d k + wid d k - P d i) ≤ W d k * 2 ^ wid d k + dig d k
      rw [show P d k + wid d k - P d i = P d k - P d i + wid d k by omega, Nat.pow_add, ← Nat.mul_assoc]
      exact Nat.le_add_right_of_le (Nat.mul_le_mul_right _ h2)

/-- The base of the backward argument: the string is complete and what is left of the code register is filled by `FF`. -/
theorem fut_base {d : List UInt8} {r C B : Nat} (hC : C < 2 ^ r) (hB : 2 ^ r ≤ C + B) :
    Fut (Sv d * 2 ^ r + C) (Pv d + r) B d.length d := by
  unfold Sv Pv
  have key : ∀ k, d.length ≤ k → W d k * 2 ^ (P d d.length + r) < (W d d.length * 2 ^ r + C + B) * 2 ^ P d k := by
    intro k hk
    obtain ⟨i, rfl⟩ := Nat.exists_eq_add_of_le hk
    obtain ⟨h1, h2⟩ := W_tail d i
    rw [h2]
    have h3 : 0 < 2 ^ (P d d.length + r) := Nat.two_pow_pos _
    calc W d (d.length + i) * 2 ^ (P d d.length + r) < (W d (d.length + i) + 1) * 2 ^ (P d d.length + r) := by nlinarith
      _ = (W d d.length * 2 ^ r + 2 ^ r) * 2 ^ (P d d.length + 8 * i) := by rw [h1]; ring
      _ ≤ _ := Nat.mul_le_mul_right _ (by omega)
  constructor
  · intro k hk
    obtain ⟨i, rfl⟩ := Nat.exists_eq_add_of_le (Nat.le_of_lt hk)
    obtain ⟨h1, h2⟩ := W_tail d i
    rw [h1, h2]
    have h3 : 0 < 2 ^ (P d d.length + 8 * i) := Nat.two_pow_pos _
    calc (W d d.length * 2 ^ r + C) * 2 ^ (P d d.length + 8 * i) < (W d d.length * 2 ^ r + 2 ^ r) * 2 ^ (P d d.length + 8 * i) :=
          Nat.mul_lt_mul_of_pos_right (by omega) h3
      _ = _ := by ring
  · intro k
    rcases Nat.lt_or_ge k d.length with hk | hk
    · have h1 := W_mul_le d (Nat.le_of_lt hk)
      have h2 := P_mono d (Nat.le_of_lt hk)
      have h3 := key d.length (Nat.le_refl _)
      have h4 : W d k * 2 ^ P d d.length ≤ W d d.length * 2 ^ P d k := by
        calc W d k * 2 ^ P d d.length = W d k * 2 ^ (P d d.length - P d k) * 2 ^ P d k := by
              rw [Nat.mul_assoc, ← Nat.pow_add, Nat.sub_add_cancel h2]
          _ ≤ _ := Nat.mul_le_mul_right _ h1
      apply Nat.lt_of_mul_lt_mul_right (a := 2 ^ P d d.length)
      calc W d k * 2 ^ (P d d.length + r) * 2 ^ P d d.length = W d k * 2 ^ P d d.length * 2 ^ (P d d.length + r) := by ring
        _ ≤ W d d.length * 2 ^ P d k * 2 ^ (P d d.length + r) := Nat.mul_le_mul_right _ h4
        _ = W d d.length * 2 ^ (P d d.length + r) * 2 ^ P d k := by ring
        _ < (W d d.length * 2 ^ r + C + B) * 2 ^ P d d.length * 2 ^ P d k :=
            Nat.mul_lt_mul_of_pos_right h3 (Nat.two_pow_pos _)
        _ = _ := by ring
    · exact key k hk

/-- Dropping a final `FF` not preceded by another one changes nothing. -/
theorem W_drop {f : List UInt8} (h : f.getLast? ≠ some 255) (k : Nat) : W (f ++ [255]) k = W f k ∧ P (f ++ [255]) k = P f k := by
  have hd : ∀ k, dig (f ++ [255]) k = dig f k := by
    intro k
    unfold dig
    rcases Nat.lt_trichotomy k f.length with h1 | h1 | h1
    · rw [List.getElem?_append_left h1]
    · subst h1; simp
    · rw [List.getElem?_eq_none (by simp; omega), List.getElem?_eq_none (by omega)]
  have hw : ∀ k, wid (f ++ [255]) k = wid f k := by
    intro k
    rcases Nat.lt_trichotomy k f.length with h1 | h1 | h1
    · exact wid_congr h1 (by simp) (fun i hi => List.getElem?_append_left (by omega))
    · subst h1
      rw [wid_snoc, wid_ge (Nat.le_refl _)]
      unfold nextWid
      rw [if_neg h]
    · rw [wid_ge (by simp; omega), wid_ge (by omega)]
  induction k with
  | zero => exact ⟨rfl, rfl⟩
  | succ k ih =>
    constructor
    · show W (f ++ [255]) k * 2 ^ wid (f ++ [255]) k + dig (f ++ [255]) k = W f k * 2 ^ wid f k + dig f k
      rw [ih.1, hd, hw]
    · show P (f ++ [255]) k + wid (f ++ [255]) k = P f k + wid f k
      rw [ih.2, hw]

theorem fut_drop {f : List UInt8} (h : f.getLast? ≠ some 255) {L q A j : Nat} (hf : Fut L q A j (f ++ [255])) :
    Fut L q A j f := by
  constructor
  · intro k hk
    have := hf.lo k hk
    rwa [(W_drop h k).1, (W_drop h k).2] at this
  · intro k
    have := hf.up k
    rwa [(W_drop h k).1, (W_drop h k).2] at this

end Jp2.Mqc

import Verif.Jp2.Math
import Mathlib.Tactic.Linarith
import Mathlib.Tactic.Positivity
/-!
# Property theorems about the integer helpers (C26)
-/
namespace Jp2.Math

/-! ## Specification -/

/-- `q = ⌈a / b⌉` for `b > 0`: the least `q` with `a ≤ q·b`. -/
def IsCeilDiv (a b q : Int) : Prop := a ≤ q * b ∧ ∀ q', a ≤ q' * b → q ≤ q'

/-- `q = ⌊a / b⌋` for `b > 0`: the greatest `q` with `q·b ≤ a`. -/
def IsFloorDiv (a b q : Int) : Prop := q * b ≤ a ∧ ∀ q', q' * b ≤ a → q' ≤ q

/-! ## Helpers -/

theorem isCeilDiv_of (a b q : Int) (hb : 0 < b) (h1 : a ≤ q * b) (h2 : q * b < a + b) : IsCeilDiv a b q := by
  refine ⟨h1, fun q' h => ?_⟩
  by_contra hc
  have : q' + 1 ≤ q := by omega
  have := mul_le_mul_of_nonneg_right this (le_of_lt hb)
  linarith

theorem isFloorDiv_of (a b q : Int) (hb : 0 < b) (h1 : q * b ≤ a) (h2 : a < q * b + b) : IsFloorDiv a b q := by
  refine ⟨h1, fun q' h => ?_⟩
  by_contra hc
  have : q + 1 ≤ q' := by omega
  have := mul_le_mul_of_nonneg_right this (le_of_lt hb)
  linarith

theorem isCeilDiv_ediv (a b : Int) (hb : 0 < b) : IsCeilDiv a b ((a + b - 1) / b) := by
  have h1 := Int.mul_ediv_add_emod (a + b - 1) b
  have h2 := Int.emod_nonneg (a + b - 1) (ne_of_gt hb)
  have h3 := Int.emod_lt_of_pos (a + b - 1) hb
  rw [mul_comm] at h1
  exact isCeilDiv_of a b _ hb (by linarith) (by linarith)

theorem isFloorDiv_ediv (a b : Int) (hb : 0 < b) : IsFloorDiv a b (a / b) := by
  have h1 := Int.mul_ediv_add_emod a b
  have h2 := Int.emod_nonneg a (ne_of_gt hb)
  have h3 := Int.emod_lt_of_pos a hb
  rw [mul_comm] at h1
  exact isFloorDiv_of a b _ hb (by linarith) (by linarith)

theorem natCeil (a b : Nat) (hb : 0 < b) : IsCeilDiv a b (((a + b - 1) / b : Nat) : Int) := by
  have := isCeilDiv_ediv a b (by exact_mod_cast hb)
  have e : (((a + b - 1) / b : Nat) : Int) = ((a : Int) + b - 1) / b := by
    rw [Int.natCast_ediv]
    congr 1
    omega
  rw [e]; exact this

theorem pow_le_64 (b : Nat) (h : b ≤ 63) : 2 ^ b ≤ 2 ^ 63 := Nat.pow_le_pow_right (by omega) h

/-! ## Properties -/

/-- **C26.** `opj_uint_ceildiv` is the ceiling for every pair of 32-bit operands with `b ≠ 0`. -/
theorem C26_uint_ceildiv (a b : Nat) (ha : a < 2 ^ 32) (hb : b < 2 ^ 32) (h0 : b ≠ 0) :
    ∃ q, uintCeildiv a b = some q ∧ IsCeilDiv a b q := by
  refine ⟨(a + b - 1) / b, ?_, natCeil a b (by omega)⟩
  have hq : (a + b - 1) / b < 2 ^ 32 := by
    rw [Nat.div_lt_iff_lt_mul (by omega)]
    have : 1 * (b - 1) ≤ 2 ^ 32 * (b - 1) := Nat.mul_le_mul_right _ (by omega)
    have e : 2 ^ 32 * b = 2 ^ 32 * (b - 1) + 2 ^ 32 := by
      obtain ⟨c, rfl⟩ : ∃ c, b = c + 1 := ⟨b - 1, by omega⟩
      simp [Nat.mul_add]
    omega
  unfold uintCeildiv
  rw [if_pos h0]
  have : ((a + b) % 2 ^ 64 + (2 ^ 64 - 1)) % 2 ^ 64 = a + b - 1 := by omega
  rw [this, Nat.mod_eq_of_lt hq]

/-- **C26.** `opj_uint_ceildivpow2` is `⌈a / 2^b⌉` for every 32-bit `a` and shift below 32. -/
theorem C26_uint_ceildivpow2 (a b : Nat) (ha : a < 2 ^ 32) (hb : b < 32) :
    ∃ q, uintCeildivpow2 a b = some q ∧ IsCeilDiv a (2 ^ b : Nat) q := by
  refine ⟨(a + 2 ^ b - 1) / 2 ^ b, ?_, natCeil a _ (Nat.two_pow_pos b)⟩
  have hp : 2 ^ b ≤ 2 ^ 31 := Nat.pow_le_pow_right (by omega) (by omega)
  have hpos := Nat.two_pow_pos b
  unfold uintCeildivpow2
  rw [if_pos (by omega)]
  have e : ((a + 2 ^ b) % 2 ^ 64 + (2 ^ 64 - 1)) % 2 ^ 64 = a + 2 ^ b - 1 := by omega
  rw [e, Nat.shiftRight_eq_div_pow]
  suffices hq : (a + 2 ^ b - 1) / 2 ^ b < 2 ^ 32 by rw [Nat.mod_eq_of_lt hq]
  rw [Nat.div_lt_iff_lt_mul hpos]
  have : 1 * (2 ^ b - 1) ≤ 2 ^ 32 * (2 ^ b - 1) := Nat.mul_le_mul_right _ (by omega)
  have e : 2 ^ 32 * 2 ^ b = 2 ^ 32 * (2 ^ b - 1) + 2 ^ 32 := by
    obtain ⟨c, hc⟩ : ∃ c, 2 ^ b = c + 1 := ⟨2 ^ b - 1, by omega⟩
    rw [hc]; simp [Nat.mul_add]
  omega

/-- **C26.** `opj_int_ceildivpow2` is `⌈a / 2^b⌉` for every 32-bit signed `a` (negative ones included)
and shift below 63. -/
theorem C26_int_ceildivpow2 (a : Int) (b : Nat) (ha : I32 a) (hb : b < 63) :
    ∃ q, intCeildivpow2 a b = some q ∧ IsCeilDiv a (2 ^ b) q := by
  obtain ⟨h1, h2⟩ := ha
  have hp : (2 : Int) ^ b ≤ 2 ^ 62 := by
    exact_mod_cast Nat.pow_le_pow_right (n := 2) (by omega) (by omega : b ≤ 62)
  have hpos : (0 : Int) < 2 ^ b := by positivity
  refine ⟨(a + 2 ^ b - 1) / 2 ^ b, ?_, isCeilDiv_ediv a _ hpos⟩
  unfold intCeildivpow2 int64Ceildivpow2 chk64
  have hw : wrap 64 (2 ^ b) = 2 ^ b := by
    unfold wrap Int.bmod
    simp only
    split <;> omega
  rw [if_pos (by omega), Int.toNat_natCast, hw, if_pos (by omega), Option.bind_some, if_pos (by omega), Option.map_some]
  rw [Int.shiftRight_eq_div_pow]
  push_cast
  rw [wrap32_of_I32]
  constructor
  · rw [Int.le_ediv_iff_mul_le hpos]; nlinarith
  · rw [Int.ediv_lt_iff_lt_mul hpos]; nlinarith

/-- **C26.** `opj_int64_ceildivpow2` for every 64-bit `a` and shift for which the result fits. -/
theorem C26_int64_ceildivpow2 (a : Int) (b : Nat) (ha : -2 ^ 63 ≤ a) (ha' : a < 2 ^ 62) (hb : b < 62)
    (q : Int) (hq : IsCeilDiv a (2 ^ b) q) (hfit : I32 q) : int64Ceildivpow2 a b = some q := by
  have hp : (2 : Int) ^ b ≤ 2 ^ 61 := by
    exact_mod_cast Nat.pow_le_pow_right (n := 2) (by omega) (by omega : b ≤ 61)
  have hpos : (0 : Int) < 2 ^ b := by positivity
  unfold int64Ceildivpow2 chk64
  have hw : wrap 64 (2 ^ b) = 2 ^ b := by
    unfold wrap Int.bmod
    simp only
    split <;> omega
  rw [if_pos (by omega), Int.toNat_natCast, hw, if_pos (by omega), Option.bind_some, if_pos (by omega), Option.map_some]
  rw [Int.shiftRight_eq_div_pow]
  push_cast
  have hc := isCeilDiv_ediv a (2 ^ b) hpos
  have : q = (a + 2 ^ b - 1) / 2 ^ b := Int.le_antisymm (hq.2 _ hc.1) (hc.2 _ hq.1)
  rw [← this, wrap32_of_I32 _ hfit]

/-- **C26.** `opj_int_ceildiv` is the ceiling whenever `b > 0` and `a > -b` (in particular for every
non-negative `a`). For `a ≤ -b` it is not: see `C26_int_ceildiv_negative`. -/
theorem C26_int_ceildiv (a b : Int) (ha : I32 a) (hb : I32 b) (h0 : 0 < b) (hab : -b < a) :
    ∃ q, intCeildiv a b = some q ∧ IsCeilDiv a b q := by
  obtain ⟨h1, h2⟩ := ha
  obtain ⟨h3, h4⟩ := hb
  refine ⟨(a + b - 1) / b, ?_, isCeilDiv_ediv a b h0⟩
  unfold intCeildiv chk64
  rw [if_pos (by omega), if_pos (by omega), Option.bind_some, if_pos (by omega), Option.map_some]
  rw [Int.tdiv_eq_ediv_of_nonneg (by omega), wrap32_of_I32]
  constructor
  · rw [Int.le_ediv_iff_mul_le h0]; nlinarith
  · rw [Int.ediv_lt_iff_lt_mul h0]; nlinarith

/-- **C26.** Truncating division makes `opj_int_ceildiv` wrong for negative numerators: `⌈-3/3⌉` is
computed as 0. -/
theorem C26_int_ceildiv_negative : intCeildiv (-3) 3 = some 0 ∧ IsCeilDiv (-3) 3 (-1) :=
  ⟨by decide, isCeilDiv_of _ _ _ (by omega) (by omega) (by omega)⟩

/-- **C26.** `opj_uint64_ceildiv_res_uint32`: the ceiling, modulo `2^32`, whenever `a + b` does not overflow. -/
theorem C26_uint64_ceildiv (a b : Nat) (h0 : b ≠ 0) (hab : a + b < 2 ^ 64) (q : Nat) (hq : IsCeilDiv a b q)
    (hfit : q < 2 ^ 32) : uint64CeildivResUint32 a b = some q := by
  have hc := natCeil a b (by omega)
  have : (q : Int) = ((a + b - 1) / b : Nat) := Int.le_antisymm (hq.2 _ hc.1) (hc.2 _ hq.1)
  have : q = (a + b - 1) / b := by exact_mod_cast this
  unfold uint64CeildivResUint32 chkU64
  rw [if_pos h0, if_pos hab, Option.map_some, ← this, Nat.mod_eq_of_lt hfit]

/-- **C26.** The floor helpers. -/
theorem C26_floordivpow2 (a : Int) (n b : Nat) (hb : b < 32) :
    (∃ q, intFloordivpow2 a b = some q ∧ IsFloorDiv a (2 ^ b) q) ∧
    (∃ q, uintFloordivpow2 n b = some q ∧ IsFloorDiv n (2 ^ b) q) := by
  have hpos : (0 : Int) < 2 ^ b := by positivity
  constructor
  · refine ⟨a / 2 ^ b, ?_, isFloorDiv_ediv a _ hpos⟩
    unfold intFloordivpow2
    rw [if_pos (by omega), Int.shiftRight_eq_div_pow, Int.toNat_natCast]
    push_cast; rfl
  · refine ⟨n >>> b, by unfold uintFloordivpow2; rw [if_pos hb], ?_⟩
    have := isFloorDiv_ediv n _ hpos
    have e : ((n >>> b : Nat) : Int) = (n : Int) / 2 ^ b := by
      rw [Nat.shiftRight_eq_div_pow]; push_cast; rfl
    rw [e]; exact this

theorem floorlog2Loop_spec (fuel a l : Nat) (h0 : 0 < a) (h : a < 2 ^ fuel) :
    ∃ k, floorlog2Loop fuel a l = some (l + k) ∧ 2 ^ k ≤ a ∧ a < 2 ^ (k + 1) := by
  induction fuel generalizing a l with
  | zero => simp at h; omega
  | succ f ih =>
    unfold floorlog2Loop
    split
    · rw [Nat.shiftRight_eq_div_pow]
      obtain ⟨k, h1, h2, h3⟩ := ih (a / 2 ^ 1) (l + 1) (by omega) (by rw [Nat.pow_succ] at h; omega)
      refine ⟨k + 1, by rw [h1]; congr 1; omega, ?_, ?_⟩
      · rw [Nat.pow_succ]; omega
      · rw [Nat.pow_succ]; omega
    · exact ⟨0, rfl, by omega, by omega⟩

/-- **C26.** `opj_uint_floorlog2` / `opj_int_floorlog2` return the exponent of the leading bit. -/
theorem C26_floorlog2 (a : Nat) (h0 : 0 < a) (ha : a < 2 ^ 32) :
    (∃ k, uintFloorlog2 a = some k ∧ 2 ^ k ≤ a ∧ a < 2 ^ (k + 1)) ∧
    (a < 2 ^ 31 → ∃ k, intFloorlog2 a = some k ∧ 2 ^ k ≤ a ∧ a < 2 ^ (k + 1)) := by
  constructor
  · obtain ⟨k, h1, h2⟩ := floorlog2Loop_spec 33 a 0 h0 (by omega)
    exact ⟨k, by unfold uintFloorlog2; rw [h1]; congr 1; omega, h2⟩
  · intro _
    unfold intFloorlog2
    split
    · obtain ⟨k, h1, h2⟩ := floorlog2Loop_spec 33 a 0 h0 (by omega)
      rw [Int.toNat_natCast]
      exact ⟨k, by rw [h1]; congr 1; omega, h2⟩
    · exact ⟨0, rfl, by omega, by omega⟩

/-- **C26.** Extremes, saturation, absolute value and clamping. -/
theorem C26_minmax (a b : Int) (m n : Nat) :
    intMax a b = max a b ∧ intMin a b = min a b ∧ uintMin m n = min m n ∧ uintMax m n = max m n ∧
    uintAdds m n = min (m + n) (2 ^ 32 - 1) ∧ uintSubs m n = m - n := by
  unfold intMax intMin uintMin uintMax uintAdds uintSubs
  refine ⟨?_, ?_, ?_, ?_, ?_, ?_⟩ <;> split <;> omega

theorem C26_abs_clamp (a lo hi : Int) :
    (intAbs a = if a = -2 ^ 31 then none else some |a|) ∧
    (lo ≤ hi → intClamp a lo hi = some (max lo (min a hi))) ∧
    (hi < lo → intClamp a lo hi = none) := by
  unfold intAbs intClamp
  refine ⟨?_, fun h => ?_, fun h => by rw [if_neg (by omega)]⟩
  · split
    · rfl
    · congr 1
      split
      · rw [abs_of_neg (by assumption)]
      · rw [abs_of_nonneg (by omega)]
  · rw [if_pos h]; congr 1
    split
    · omega
    · split <;> omega

/-- **C26.** The "no overflow" helpers return the exact result whenever it is representable and never
panic. -/
theorem C26_no_overflow (a b : Int) :
    (I32 (a + b) → addNoOverflow a b = a + b) ∧ (I32 (a - b) → subNoOverflow a b = a - b) ∧
    I32 (addNoOverflow a b) ∧ I32 (subNoOverflow a b) :=
  ⟨wrap32_of_I32 _, wrap32_of_I32 _, wrap32_I32 _, wrap32_I32 _⟩

example : uintCeildiv (2 ^ 32 - 1) 2 = some (2 ^ 31) := by decide
example : uintCeildivpow2 (2 ^ 32 - 1) 31 = some 2 := by decide
example : intCeildivpow2 (-7) 2 = some (-1) := by decide
example : intCeildiv 7 2 = some 4 ∧ intCeildiv (-1) 2 = some 0 := by decide
example : uintFloorlog2 1023 = some 9 := by decide

end Jp2.Math

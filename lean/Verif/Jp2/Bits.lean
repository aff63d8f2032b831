/-! # Bit lists: a small specification vocabulary -/
namespace Jp2

/-- The `n` low bits of `v`, most significant first. -/
def bitsOf : Nat → Nat → List Bool
  | 0, _ => []
  | n + 1, v => v.testBit n :: bitsOf n v

/-- The number a list of bits denotes, most significant first. -/
def valOf (l : List Bool) : Nat := l.foldl (fun a b => 2 * a + b.toNat) 0

theorem bitsOf_length (n v : Nat) : (bitsOf n v).length = n := by
  induction n with
  | zero => rfl
  | succ n ih => simp [bitsOf, ih]

theorem bitsOf_append (m n v : Nat) : bitsOf (m + n) v = bitsOf m (v / 2 ^ n) ++ bitsOf n v := by
  induction m with
  | zero => simp [bitsOf]
  | succ m ih =>
    rw [Nat.succ_add]
    simp only [bitsOf, ih, List.cons_append, List.cons.injEq, and_true]
    rw [Nat.testBit_div_two_pow, Nat.add_comm]

theorem bitsOf_mod (n v m : Nat) (h : n ≤ m) : bitsOf n (v % 2 ^ m) = bitsOf n v := by
  induction n with
  | zero => rfl
  | succ n ih =>
    simp only [bitsOf, ih (by omega), List.cons.injEq, and_true]
    rw [Nat.testBit_mod_two_pow]
    simp; omega

theorem bitsOf_zero (n : Nat) : bitsOf n 0 = List.replicate n false := by
  induction n with
  | zero => rfl
  | succ n ih => simp [bitsOf, ih, List.replicate_succ]

theorem valOf_foldl (l : List Bool) (a : Nat) :
    l.foldl (fun a b => 2 * a + b.toNat) a = a * 2 ^ l.length + valOf l := by
  induction l generalizing a with
  | nil => simp [valOf]
  | cons b l ih =>
    unfold valOf
    simp only [List.foldl_cons, List.length_cons]
    rw [ih, ih (2 * 0 + b.toNat), Nat.pow_succ, Nat.add_mul]
    simp
    rw [Nat.mul_comm 2 a, Nat.mul_assoc, Nat.mul_comm 2]
    omega

theorem valOf_cons (b : Bool) (l : List Bool) : valOf (b :: l) = b.toNat * 2 ^ l.length + valOf l := by
  have := valOf_foldl l (b.toNat)
  unfold valOf
  simp only [List.foldl_cons, Nat.mul_zero, Nat.zero_add]
  exact this

theorem valOf_append (a b : List Bool) : valOf (a ++ b) = valOf a * 2 ^ b.length + valOf b := by
  unfold valOf
  rw [List.foldl_append]
  exact valOf_foldl b _

theorem valOf_lt (l : List Bool) : valOf l < 2 ^ l.length := by
  induction l with
  | nil => simp [valOf]
  | cons b l ih =>
    rw [valOf_cons, List.length_cons, Nat.pow_succ]
    cases b <;> simp <;> omega

theorem valOf_bitsOf (n v : Nat) : valOf (bitsOf n v) = v % 2 ^ n := by
  induction n with
  | zero => simp [bitsOf, valOf]; omega
  | succ n ih =>
    simp only [bitsOf]
    rw [valOf_cons, ih, bitsOf_length, Nat.mod_pow_succ, Nat.testBit_eq_decide_div_mod_eq]
    have : v / 2 ^ n % 2 = 0 ∨ v / 2 ^ n % 2 = 1 := by omega
    rcases this with h | h <;> simp [h] <;> omega

theorem bitsOf_valOf (l : List Bool) : bitsOf l.length (valOf l) = l := by
  induction l with
  | nil => rfl
  | cons b l ih =>
    simp only [List.length_cons, bitsOf]
    have hl := valOf_lt l
    have e : valOf (b :: l) % 2 ^ l.length = valOf l := by
      rw [valOf_cons, Nat.mul_comm, Nat.mul_add_mod, Nat.mod_eq_of_lt hl]
    have ht : (valOf (b :: l)).testBit l.length = b := by
      rw [valOf_cons, Nat.testBit_eq_decide_div_mod_eq]
      rw [Nat.mul_comm, Nat.mul_add_div (Nat.two_pow_pos _), Nat.div_eq_of_lt hl]
      cases b <;> simp
    rw [ht, ← bitsOf_mod _ _ _ (Nat.le_refl _), e, ih]

end Jp2

import Mathlib.Tactic.Ring
/-!
# Two's complement

`wrap w x` is the value of the low `w` bits of `x` read as a signed number: what a Rust `wrapping_*`
operation or an `as iN` cast leaves of the mathematical result `x`.
-/
namespace Jp2

/-- Two's complement reduction to `w` bits. -/
def wrap (w : Nat) (x : Int) : Int := Int.bmod x (2 ^ w)

abbrev wrap32 := wrap 32

/-- The values of `i32`. -/
def I32 (x : Int) : Prop := -2 ^ 31 ≤ x ∧ x < 2 ^ 31

/-- The values of `i64`. -/
def I64 (x : Int) : Prop := -2 ^ 63 ≤ x ∧ x < 2 ^ 63

theorem wrap32_I32 (x : Int) : I32 (wrap32 x) := by
  unfold I32 wrap32 wrap Int.bmod
  simp only
  split <;> omega

theorem wrap32_of_I32 (x : Int) (h : I32 x) : wrap32 x = x := by
  obtain ⟨h1, h2⟩ := h
  unfold wrap32 wrap Int.bmod
  simp only
  split <;> omega

theorem wrap32_add_left (x y : Int) : wrap32 (wrap32 x + y) = wrap32 (x + y) := by
  unfold wrap32 wrap; exact Int.bmod_add_bmod

theorem wrap32_add_right (x y : Int) : wrap32 (x + wrap32 y) = wrap32 (x + y) := by
  unfold wrap32 wrap; exact Int.add_bmod_bmod

theorem wrap32_sub_left (x y : Int) : wrap32 (wrap32 x - y) = wrap32 (x - y) := by
  unfold wrap32 wrap; exact Int.bmod_sub_bmod

theorem wrap32_sub_right (x y : Int) : wrap32 (x - wrap32 y) = wrap32 (x - y) := by
  unfold wrap32 wrap; exact Int.sub_bmod_bmod

theorem wrap32_wrap32 (x : Int) : wrap32 (wrap32 x) = wrap32 x := wrap32_of_I32 _ (wrap32_I32 x)

end Jp2

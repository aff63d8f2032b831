import Verif.Jp2.Wrap
/-!
# `i32` arithmetic in the two build modes

`+`, `-` and `*` on `i32` panic on overflow in a build with overflow checks and wrap around otherwise.
-/
namespace Jp2

/-- How the crate was compiled. -/
inductive Mode where
  /-- `overflow-checks = true` (the default of the dev profile) -/
  | checked
  /-- `overflow-checks = false` (the default of the release profile) -/
  | wrapping
deriving DecidableEq, Repr

/-- The outcome of an `i32` operation whose mathematical result is `x`; `none` is the overflow panic. -/
def ar (m : Mode) (x : Int) : Option Int :=
  match m with
  | .checked => if -2 ^ 31 ≤ x ∧ x < 2 ^ 31 then some x else none
  | .wrapping => some (wrap32 x)

theorem ar_of_I32 (m : Mode) (x : Int) (h : I32 x) : ar m x = some x := by
  cases m
  · simp only [ar]; rw [if_pos (show _ ∧ _ from h)]
  · simp only [ar]; rw [wrap32_of_I32 x h]

theorem ar_checked (x y : Int) (h : ar .checked x = some y) : y = x ∧ I32 x := by
  simp only [ar] at h
  split at h
  · simp only [Option.some.injEq] at h; exact ⟨h.symm, by assumption⟩
  · simp at h

theorem ar_I32 (m : Mode) (x y : Int) (h : ar m x = some y) : I32 y := by
  cases m
  · obtain ⟨rfl, h⟩ := ar_checked x y h; exact h
  · simp only [ar, Option.some.injEq] at h; rw [← h]; exact wrap32_I32 x

end Jp2

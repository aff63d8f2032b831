import Verif.Jp2.Invert
import Mathlib.Tactic.Ring
import Mathlib.Tactic.Linarith
/-!
# C82: custom component transforms

Setting up the encoder with a matrix of its own (`opj_set_MCT`) inverts this matrix. -/
namespace Jp2.Invert
variable {F : Type}

theorem bind_none {α β : Type} (x : Option α) (f : α → Option β) (h : ∀ a, x = some a → f a = none) : x.bind f = none := by
  cases hx : x with
  | none => rfl
  | some a => exact h a hx

/-- The last line of back substitution is read in front of the matrix. -/
theorem back_none (checked : Bool) (o : Ops F) (n : Nat) (m z : List F) (hm : m.length + n ≤ 2 ^ 64) (hn : 1 ≤ n) : ∀ (k line dest gen beg : Nat) (r : List F),
    line + n = (k + 1) * (n + 1) → back checked o n m z (k + 2) line dest gen beg r = none := by
  intro k
  induction k with
  | zero =>
    intro line dest gen beg r h
    unfold back
    refine bind_none _ _ fun u _ => bind_none _ _ fun line' hl => bind_none _ _ fun s _ => bind_none _ _ fun x _ => bind_none _ _ fun r' _ =>
      bind_none _ _ fun g _ => bind_none _ _ fun b _ => bind_none _ _ fun d _ => ?_
    have h1 : line = 1 := by omega
    subst h1
    unfold usub at hl
    rw [if_neg (by omega)] at hl
    cases checked with
    | true => exact absurd hl (by simp)
    | false =>
      rw [if_neg (by decide)] at hl
      injection hl with hl
      unfold back
      refine bind_none _ _ fun u hu => ?_
      have := (List.getElem?_eq_some_iff.mp hu).1
      omega
  | succ k ih =>
    intro line dest gen beg r h
    have h2 : (k + 1 + 1) * (n + 1) = (k + 1) * (n + 1) + (n + 1) := by ring
    have h3 : 1 * (n + 1) ≤ (k + 1) * (n + 1) := Nat.mul_le_mul_right _ (by omega)
    unfold back
    refine bind_none _ _ fun u _ => bind_none _ _ fun line' hl => bind_none _ _ fun s _ => bind_none _ _ fun x _ => bind_none _ _ fun r' _ =>
      bind_none _ _ fun g _ => bind_none _ _ fun b _ => bind_none _ _ fun d _ => ?_
    refine ih line' d g b r' ?_
    rw [h2] at h
    obtain ⟨q, hq⟩ : ∃ q, q = (k + 1) * (n + 1) := ⟨_, rfl⟩
    rw [← hq] at h h3 ⊢
    unfold usub at hl
    rw [if_pos (by omega)] at hl
    injection hl with hl
    omega

theorem solve_none (checked : Bool) (o : Ops F) (r m vec : List F) (perm : List Nat) (n : Nat) (z : List F) (hm : m.length = n * n) (hn : 1 ≤ n)
    (hb : n * n + n ≤ 2 ^ 64) : lupSolve checked o r m vec perm n z = none := by
  unfold lupSolve
  refine bind_none _ _ fun beg _ => bind_none _ _ fun gen _ => bind_none _ _ fun z' _ => bind_none _ _ fun a ha => bind_none _ _ fun line hl => ?_
  rw [if_neg (by omega)]
  have hnn : n * 1 ≤ n * n := Nat.mul_le_mul_left _ hn
  unfold usub at ha
  rw [hm, if_pos (by omega)] at ha
  injection ha with ha
  by_cases h1 : n = 1
  · subst h1
    unfold usub at hl
    rw [if_neg (by omega)] at hl
    cases checked with
    | true => exact absurd hl (by simp)
    | false =>
      rw [if_neg (by decide)] at hl
      injection hl with hl
      unfold back
      refine bind_none _ _ fun u hu => ?_
      have := (List.getElem?_eq_some_iff.mp hu).1
      omega
  · obtain ⟨k, rfl⟩ : ∃ k, n = k + 2 := ⟨n - 2, by omega⟩
    have h2 : (k + 2) * (k + 2) = k * k + 4 * k + 4 := by ring
    have h3 : (k + 1) * (k + 2 + 1) = k * k + 4 * k + 3 := by ring
    refine back_none checked o (k + 2) m z' (by rw [hm]; exact hb) hn k line _ _ _ _ ?_
    obtain ⟨q, hq⟩ : ∃ q, q = k * k := ⟨_, rfl⟩
    rw [h2] at ha
    rw [h3]
    rw [← hq] at ha ⊢
    unfold usub at hl
    rw [if_pos (by omega)] at hl
    injection hl with hl
    omega

/-- No matrix is ever inverted: for every number of components (a `u16`) and every matrix, in builds with and without overflow checks and
whatever the arithmetic, inversion returns `false` or panics. -/
theorem C82_inversion_never_succeeds (checked : Bool) (o : Ops F) (src dst : List F) (n : Nat) (hn : 1 ≤ n) (hb : n < 2 ^ 16) :
    inversion checked o src dst n = none ∨ inversion checked o src dst n = some none := by
  unfold inversion
  cases hd : lupDecompose checked o n n src with
  | none => exact Or.inl rfl
  | some r =>
    rw [Option.bind_some]
    cases r with
    | none => exact Or.inr rfl
    | some q =>
      left
      simp only
      rw [Option.map_eq_none_iff]
      obtain ⟨j, rfl⟩ : ∃ j, n = j + 1 := ⟨n - 1, by omega⟩
      rw [lupInvert]
      by_cases hl : dst.length < 0 + 1
      · rw [if_pos hl]
      · rw [if_neg hl]
        refine bind_none _ _ fun vec _ => bind_none _ _ fun m' hm => ?_
        rw [solve_none checked o _ m' vec _ (j + 1) _ (by
          unfold slice at hm
          split at hm
          · injection hm with hm
            rw [← hm, List.length_take, List.length_drop]
            omega
          · exact absurd hm (by simp)) hn (by
          have : (j + 1) * (j + 1) ≤ 2 ^ 16 * 2 ^ 16 := Nat.mul_le_mul (by omega) (by omega)
          omega)]
        rfl

theorem pivot_zero (o : Ops F) (n : Nat) (m : List F) (hz : o.gt (o.abs o.zero) o.zero = false) : ∀ (cnt i col k2 : Nat),
    (∀ t < cnt, m[col + t * n]? = some o.zero) → pivot o n m cnt i col o.zero k2 = some (o.zero, k2) := by
  intro cnt
  induction cnt with
  | zero => intro i col k2 _; rfl
  | succ cnt ih =>
    intro i col k2 h
    unfold pivot
    have h0 := h 0 (by omega)
    rw [Nat.zero_mul, Nat.add_zero] at h0
    rw [h0, Option.bind_some, if_neg (by rw [hz]; decide)]
    refine ih _ _ _ fun t ht => ?_
    have := h (t + 1) (by omega)
    rw [show col + n + t * n = col + (t + 1) * n by ring]
    exact this

/-- What does work: a matrix of two or more lines whose first column is zero is refused. -/
theorem C82_zero_column_refused (checked : Bool) (o : Ops F) (hz : o.gt (o.abs o.zero) o.zero = false) (hz2 : o.isZero o.zero = true) (src dst : List F) (n : Nat)
    (hn : 2 ≤ n) (h0 : ∀ t < n, src[t * n]? = some o.zero) : inversion checked o src dst n = some none := by
  unfold inversion lupDecompose
  have h1 : usub checked n 1 = some (n - 1) := by unfold usub; rw [if_pos (by omega)]
  rw [h1, Option.bind_some]
  obtain ⟨j, rfl⟩ : ∃ j, n = j + 2 := ⟨n - 2, by omega⟩
  rw [show j + 2 - 1 = j + 1 by omega, colLoop, Nat.sub_zero, pivot_zero o (j + 2) src hz (j + 2) 0 _ 0 (fun t ht => by
    rw [Nat.zero_add]; exact h0 t ht)]
  rw [Option.bind_some]
  simp only
  rw [if_pos hz2]
  rfl

/-- Integers as the numbers, for the examples. -/
def intOps : Ops Int := ⟨0, 1, (· + ·), (· - ·), (· * ·), (· / ·), fun x => (x.natAbs : Int), fun a b => decide (a > b), fun a => decide (a = 0)⟩

-- the unit matrix panics, with overflow checks and without; a zero column is refused
example : inversion true intOps [1, 0, 0, 1] [0, 0, 0, 0] 2 = none := by decide +kernel
example : inversion false intOps [1, 0, 0, 1] [0, 0, 0, 0] 2 = none := by decide +kernel
example : inversion false intOps [1] [0] 1 = none := by decide +kernel
example : inversion true intOps [0, 3, 0, 4] [0, 0, 0, 0] 2 = some none := by decide +kernel
-- the decomposition itself can succeed, so that the panic is in the inversion
example : lupDecompose true intOps 1 1 [5] = some (some ([5], [0])) := by decide +kernel

end Jp2.Invert

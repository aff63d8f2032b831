import Verif.Jp2.DwtTile
/-!
# How large coefficients of the 5/3 transform can get, band by band
-/
namespace Jp2.Dwt

/-- One of the neighbours of a neighbour of `k` is `k`. -/
theorem predict_nb {n : Nat} (hn : 2 ≤ n) {x : Nat → Int} {B : Int} (hx : ∀ k < n, -B ≤ x k ∧ x k ≤ B) {k : Nat} (hk : k < n) :
    (∃ a c : Int, (-B ≤ a ∧ a ≤ B) ∧ (-B ≤ c ∧ c ≤ B) ∧ predict n x (lft k) = a - (x k + c) / 2) ∧
    ∃ b d : Int, (-B ≤ b ∧ b ≤ B) ∧ (-B ≤ d ∧ d ≤ B) ∧ predict n x (rgt n k) = b - (x k + d) / 2 := by
  constructor
  · refine ⟨x (lft k), if k = 0 then x (rgt n (lft k)) else x (lft (lft k)), hx _ (lft_lt hn hk), ?_, ?_⟩
    · split
      · exact hx _ (rgt_lt hn (lft_lt hn hk))
      · exact hx _ (lft_lt hn (lft_lt hn hk))
    · unfold predict
      by_cases h0 : k = 0
      · subst h0
        rw [if_pos rfl]
        rfl
      · rw [if_neg h0, show rgt n (lft k) = k by unfold lft rgt; rw [if_neg h0, if_neg (by omega)]; omega, add_comm (x (lft (lft k)))]
  · refine ⟨x (rgt n k), if k + 1 = n then x (lft (rgt n k)) else x (rgt n (rgt n k)), hx _ (rgt_lt hn hk), ?_, ?_⟩
    · split
      · exact hx _ (lft_lt hn (rgt_lt hn hk))
      · exact hx _ (rgt_lt hn (rgt_lt hn hk))
    · unfold predict
      by_cases h0 : k + 1 = n
      · rw [if_pos h0, show rgt n (rgt n k) = k by unfold rgt; rw [if_pos h0, if_neg (by omega)]; omega, add_comm (x (lft (rgt n k)))]
      · rw [if_neg h0, show lft (rgt n k) = k by unfold lft rgt; rw [if_neg h0, if_neg (by omega)]; omega]

/-- Low-pass values grow by one half. -/
theorem low_bd {n cas : Nat} {x : Nat → Int} {B : Int} (hx : ∀ k < n, -B ≤ x k ∧ x k ≤ B) (hc : cas ≤ 1) (i : Nat) (hi : i < lowCount n cas) :
    -(3 * B + 1) ≤ 2 * fwd1 n cas x i ∧ 2 * fwd1 n cas x i ≤ 3 * B + 1 := by
  unfold fwd1 pos
  rw [if_pos hi]
  unfold lowCount at hi
  have hk : 2 * i + cas < n := by omega
  have h1 := hx _ hk
  unfold lift
  split
  · rw [if_pos (by omega)]
    constructor <;> omega
  · rw [if_neg (by omega)]
    obtain ⟨⟨a, c, ha, hcc, e1⟩, b, d, hb, hd, e2⟩ := predict_nb (by omega) hx hk
    rw [e1, e2]
    constructor <;> omega

/-- The same in the form in which it is carried on: low-pass values, and all values. -/
theorem fwd1_grow {n cas : Nat} (hc : cas ≤ 1) {x : Nat → Int} {s F : Int} (hs : 0 < s) (hx : ∀ k < n, (2 * (x k).natAbs + 3) * s ≤ F) (i : Nat) (hi : i < n) :
    (i < lowCount n cas → 2 * ((2 * ((fwd1 n cas x i).natAbs : Int) + 3) * s) ≤ 3 * F) ∧ (2 * ((fwd1 n cas x i).natAbs : Int) + 3) * s ≤ 2 * F := by
  obtain ⟨Q, hQ⟩ : ∃ Q, Q = F / s := ⟨_, rfl⟩
  have hQs : Q * s ≤ F := by rw [hQ]; exact Int.ediv_mul_le F (by omega)
  have hb : ∀ k < n, -((Q - 3) / 2) ≤ x k ∧ x k ≤ (Q - 3) / 2 := by
    intro k hk
    have : 2 * ((x k).natAbs : Int) + 3 ≤ Q := by rw [hQ]; exact (Int.le_ediv_iff_mul_le hs).2 (hx k hk)
    omega
  have mono : ∀ a b : Int, a ≤ b → a * s ≤ b * s := fun a b h => mul_le_mul_of_nonneg_right h (by omega)
  constructor
  · intro hl
    have := low_bd hb hc i hl
    have h1 := mono (2 * (2 * ((fwd1 n cas x i).natAbs : Int) + 3)) (3 * Q) (by omega)
    nlinarith
  · have := fwd1_bd hc hb i hi
    have h1 := mono (2 * ((fwd1 n cas x i).natAbs : Int) + 3) (2 * Q) (by omega)
    nlinarith

end Jp2.Dwt

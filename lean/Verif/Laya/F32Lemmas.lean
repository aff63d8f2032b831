import Verif.Laya.F32
import Mathlib.Algebra.Order.Group.Unbundled.Abs
/-! Helper lemmas about the f32 model: rounding is nearest-even, parsing follows the grammar. -/
namespace Laya

namespace F32

theorem units_small (k : Nat) (h : k ≤ 2 ^ 24) : units k = k := by
  unfold units
  split
  · rfl
  · rename_i h1
    rcases Nat.lt_or_ge k (2 ^ 24) with h2 | h2
    · have : k / 2 ^ 23 = 1 := by omega
      rw [this]; omega
    · have : k = 2 ^ 24 := by omega
      subst this; rfl

theorem units_norm (q s : Nat) (h1 : 2 ^ 23 ≤ q) (h2 : q ≤ 2 ^ 24) :
    units (q + s * 2 ^ 23) = q * 2 ^ s := by
  unfold units
  rw [if_neg (by omega)]
  rcases Nat.lt_or_ge q (2 ^ 24) with h | h
  · have ha : (q + s * 2 ^ 23) / 2 ^ 23 = s + 1 := by omega
    have hb : (q + s * 2 ^ 23) % 2 ^ 23 = q - 2 ^ 23 := by omega
    rw [ha, hb, Nat.add_sub_cancel, Nat.add_sub_cancel' h1]
  · have hq : q = 2 ^ 24 := by omega
    subst hq
    have ha : (2 ^ 24 + s * 2 ^ 23) / 2 ^ 23 = s + 2 := by omega
    have hb : (2 ^ 24 + s * 2 ^ 23) % 2 ^ 23 = 0 := by omega
    rw [ha, hb, show s + 2 - 1 = s + 1 from rfl, Nat.pow_succ]
    omega

theorem units_lt_succ (k : Nat) : units k < units (k + 1) := by
  rcases Nat.lt_or_ge k (2 ^ 24) with h | h
  · rw [units_small k (by omega), units_small (k + 1) (by omega)]; omega
  · obtain ⟨s, q, hk, h1, h2⟩ : ∃ s q, k = q + s * 2 ^ 23 ∧ 2 ^ 23 ≤ q ∧ q < 2 ^ 24 :=
      ⟨k / 2 ^ 23 - 1, 2 ^ 23 + k % 2 ^ 23, by omega, by omega, by omega⟩
    rw [hk, units_norm q s h1 (by omega), show q + s * 2 ^ 23 + 1 = (q + 1) + s * 2 ^ 23 by omega,
      units_norm (q + 1) s (by omega) (by omega)]
    exact Nat.mul_lt_mul_of_pos_right (by omega) (by positivity)

theorem units_strictMono {a b : Nat} (h : a < b) : units a < units b := by
  induction b with
  | zero => omega
  | succ b ih =>
    rcases Nat.lt_or_ge a b with h1 | h1
    · exact Nat.lt_trans (ih h1) (units_lt_succ b)
    · have : a = b := by omega
      subst this; exact units_lt_succ a

theorem units_mono {a b : Nat} (h : a ≤ b) : units a ≤ units b := by
  rcases Nat.lt_or_ge a b with h1 | h1
  · exact Nat.le_of_lt (units_strictMono h1)
  · have : a = b := by omega
    subst this; exact Nat.le_refl _

theorem mag_strictMono {a b : Nat} (h : a < b) : mag a < mag b := by
  unfold mag
  have : (units a : ℚ) < units b := by exact_mod_cast units_strictMono h
  exact div_lt_div_of_pos_right this (by positivity)

theorem mag_mono {a b : Nat} (h : a ≤ b) : mag a ≤ mag b := by
  unfold mag
  have : (units a : ℚ) ≤ units b := by exact_mod_cast units_mono h
  exact div_le_div_of_nonneg_right this (by positivity)

theorem mag_lt_iff {a b : Nat} : mag a < mag b ↔ a < b := by
  constructor
  · intro h
    by_contra hc
    exact absurd (mag_mono (Nat.le_of_not_lt hc)) (not_le.2 h)
  · exact mag_strictMono

theorem mag_zero : mag 0 = 0 := by simp [mag, units]

end F32

open F32

/-- Between two consecutive patterns, choose by comparing with the midpoint. -/
theorem nearest_of_between (x : ℚ) (k : Nat) (h1 : mag k ≤ x) (h2 : x < mag (k + 1)) :
    (2 * x < mag k + mag (k + 1) → Nearest x k) ∧
    (mag k + mag (k + 1) < 2 * x → Nearest x (k + 1)) ∧
    (2 * x = mag k + mag (k + 1) → k % 2 = 0 → Nearest x k) ∧
    (2 * x = mag k + mag (k + 1) → k % 2 = 1 → Nearest x (k + 1)) := by
  have hk : |x - mag k| = x - mag k := abs_of_nonneg (by linarith)
  have hk1 : |x - mag (k + 1)| = mag (k + 1) - x := by
    rw [abs_of_nonpos (by linarith)]; ring
  have below : ∀ j, j < k → x - mag k < |x - mag j| := by
    intro j hj
    have := mag_strictMono hj
    rw [abs_of_nonneg (by linarith)]; linarith
  have above : ∀ j, k + 1 < j → mag (k + 1) - x < |x - mag j| := by
    intro j hj
    have := mag_strictMono hj
    rw [abs_of_nonpos (by linarith)]; linarith
  refine ⟨?_, ?_, ?_, ?_⟩
  · intro h j hj
    left; rw [hk]
    rcases Nat.lt_trichotomy j k with h3 | h3 | h3
    · exact below j h3
    · exact absurd h3 hj
    · rcases Nat.lt_or_ge (k + 1) j with h4 | h4
      · have := above j h4; linarith
      · have : j = k + 1 := by omega
        subst this; rw [hk1]; linarith
  · intro h j hj
    left; rw [hk1]
    rcases Nat.lt_trichotomy j (k + 1) with h3 | h3 | h3
    · rcases Nat.lt_or_ge j k with h4 | h4
      · have := below j h4; linarith
      · have : j = k := by omega
        subst this; rw [hk]; linarith
    · exact absurd h3 hj
    · exact above j h3
  · intro h he j hj
    rw [hk]
    rcases Nat.lt_trichotomy j k with h3 | h3 | h3
    · left; exact below j h3
    · exact absurd h3 hj
    · rcases Nat.lt_or_ge (k + 1) j with h4 | h4
      · have := above j h4; left; linarith
      · have : j = k + 1 := by omega
        subst this; right; rw [hk1]; exact ⟨by linarith, he⟩
  · intro h he j hj
    rw [hk1]
    rcases Nat.lt_trichotomy j (k + 1) with h3 | h3 | h3
    · rcases Nat.lt_or_ge j k with h4 | h4
      · have := below j h4; left; linarith
      · have : j = k := by omega
        subst this; right; rw [hk]; exact ⟨by linarith, by omega⟩
    · exact absurd h3 hj
    · left; exact above j h3

theorem Nearest.unique {x : ℚ} {a b : Nat} (ha : Nearest x a) (hb : Nearest x b) : a = b := by
  have aux : ∀ {a b : Nat}, Nearest x a → Nearest x b → ¬ a < b := by
    intro a b ha hb hlt
    have h1 := ha b (by omega)
    have h2 := hb a (by omega)
    rcases h1 with h1 | ⟨h1, ea⟩
    · rcases h2 with h2 | ⟨h2, _⟩ <;> linarith
    · rcases h2 with h2 | ⟨_, eb⟩
      · linarith
      · have hne : a + 1 ≠ a := by omega
        have hlt2 : a + 1 < b := by omega
        have m1 := mag_strictMono (show a < a + 1 by omega)
        have m2 := mag_strictMono hlt2
        -- x is the midpoint of mag a and mag b
        have hm : 2 * x = mag a + mag b := by
          rcases abs_eq_abs.1 h1 with h | h <;> linarith
        have e1 : |x - mag a| = (mag b - mag a) / 2 := by
          rw [abs_of_nonneg (by linarith)]; linarith
        have e2 : |x - mag (a + 1)| < (mag b - mag a) / 2 := by
          rw [abs_lt]; constructor <;> linarith
        rcases ha (a + 1) hne with h | ⟨h, _⟩ <;> linarith
  rcases Nat.lt_trichotomy a b with h | h | h
  · exact absurd h (aux ha hb)
  · exact h
  · exact absurd h (aux hb ha)

theorem RoundsTo.unique {x : ℚ} {a b : Nat} (ha : RoundsTo x a) (hb : RoundsTo x b) : a = b := by
  obtain ⟨a', h1, h2⟩ := ha
  obtain ⟨b', h3, h4⟩ := hb
  rw [h2, h4, h1.unique h3]

theorem log2_bounds (v : Nat) :
    v < 2 ^ (Nat.log2 v - 23 + 24) ∧ (Nat.log2 v - 23 ≠ 0 → 2 ^ (Nat.log2 v - 23 + 23) ≤ v) := by
  rcases Nat.eq_zero_or_pos v with h | h
  · subst h; simp
  · have h1 : v < 2 ^ (Nat.log2 v + 1) := Nat.lt_log2_self
    have h2 : 2 ^ Nat.log2 v ≤ v := Nat.log2_self_le (by omega)
    constructor
    · exact Nat.lt_of_lt_of_le h1 (Nat.pow_le_pow_right (by omega) (by omega))
    · intro h3
      rw [show Nat.log2 v - 23 + 23 = Nat.log2 v by omega]; exact h2

theorem divHalfEven_cases (n d : Nat) :
    (2 * (n % d) < d → divHalfEven n d = n / d) ∧
    (d < 2 * (n % d) → divHalfEven n d = n / d + 1) ∧
    (2 * (n % d) = d → (n / d) % 2 = 0 → divHalfEven n d = n / d) ∧
    (2 * (n % d) = d → (n / d) % 2 = 1 → divHalfEven n d = n / d + 1) := by
  unfold divHalfEven
  refine ⟨?_, ?_, ?_, ?_⟩
  · intro h; simp [h]
  · intro h
    have h' : ¬ 2 * (n % d) < d := by omega
    simp [h, h']
  · intro h h2
    have h' : ¬ 2 * (n % d) < d := by omega
    have h'' : ¬ d < 2 * (n % d) := by omega
    simp [h', h'', h2]
  · intro h h2
    have h' : ¬ 2 * (n % d) < d := by omega
    have h'' : ¬ d < 2 * (n % d) := by omega
    simp [h', h'', h2]

theorem ratAux1 (d t lo r P : ℚ) (hd : 0 < d) :
    (d * t * lo + r) / d / P = lo * t / P + r / d / P := by
  rw [add_div, add_div]
  congr 2
  field_simp

theorem ratAux2 (d t lo r P : ℚ) (hd : 0 < d) :
    2 * (lo * t / P + r / d / P) = lo * t / P + (lo + 1) * t / P + (2 * r - d * t) / d / P := by
  have : d * t / d = t := by field_simp
  rw [sub_div, sub_div, this]; ring

theorem roundUnits_spec (n d : Nat) (hd : 0 < d) :
    RoundsTo ((n : ℚ) / d / 2 ^ 149) (roundUnits n d) := by
  obtain ⟨hb1, hb2⟩ := log2_bounds (n / d)
  obtain ⟨s, hsdef⟩ : ∃ s, s = Nat.log2 (n / d) - 23 := ⟨_, rfl⟩
  rw [← hsdef] at hb1 hb2
  obtain ⟨D, hD⟩ : ∃ D, D = d * 2 ^ s := ⟨_, rfl⟩
  have hDpos : 0 < D := by rw [hD]; positivity
  obtain ⟨lo, hlo⟩ : ∃ lo, lo = n / D := ⟨_, rfl⟩
  have hlo' : lo = n / d / 2 ^ s := by rw [hlo, hD, Nat.div_div_eq_div_mul]
  have hlolt : lo < 2 ^ 24 := by
    rw [hlo', Nat.div_lt_iff_lt_mul (by positivity), ← Nat.pow_add, Nat.add_comm]; exact hb1
  have hloge : s ≠ 0 → 2 ^ 23 ≤ lo := by
    intro h
    rw [hlo', Nat.le_div_iff_mul_le (by positivity), ← Nat.pow_add, Nat.add_comm]; exact hb2 h
  have u : ∀ q, q = lo ∨ q = lo + 1 → units (q + s * 2 ^ 23) = q * 2 ^ s := by
    intro q hq
    by_cases hs : s = 0
    · rw [hs, Nat.zero_mul, Nat.add_zero, units_small q (by omega), Nat.pow_zero, Nat.mul_one]
    · have := hloge hs
      exact units_norm q s (by omega) (by omega)
  have hdm : n = D * lo + n % D := by rw [hlo]; exact (Nat.div_add_mod n D).symm
  have hr : n % D < D := Nat.mod_lt _ hDpos
  -- cast to ℚ
  obtain ⟨K, hK⟩ : ∃ K, K = lo + s * 2 ^ 23 := ⟨_, rfl⟩
  have c0 : (n : ℚ) = D * lo + ((n % D : Nat) : ℚ) := by exact_mod_cast hdm
  obtain ⟨r, hrdef⟩ : ∃ r : ℚ, r = ((n % D : Nat) : ℚ) := ⟨_, rfl⟩
  rw [← hrdef] at c0
  have cr : r < D := by rw [hrdef]; exact_mod_cast hr
  have cr0 : 0 ≤ r := by rw [hrdef]; exact_mod_cast Nat.zero_le _
  have dq : (0 : ℚ) < d := by exact_mod_cast hd
  have Dq : (D : ℚ) = d * 2 ^ s := by rw [hD]; push_cast; ring
  have mk : mag K = (lo : ℚ) * 2 ^ s / 2 ^ 149 := by
    unfold mag; rw [hK, u lo (Or.inl rfl)]; push_cast; ring
  have mk1 : mag (K + 1) = ((lo : ℚ) + 1) * 2 ^ s / 2 ^ 149 := by
    unfold mag
    rw [show K + 1 = (lo + 1) + s * 2 ^ 23 by omega, u (lo + 1) (Or.inr rfl)]; push_cast; ring
  obtain ⟨x, hxd⟩ : ∃ x : ℚ, x = (n : ℚ) / d / 2 ^ 149 := ⟨_, rfl⟩
  rw [← hxd]
  have xq : x = (lo : ℚ) * 2 ^ s / 2 ^ 149 + r / d / 2 ^ 149 := by
    rw [hxd, c0, Dq]; exact ratAux1 _ _ _ _ _ dq
  have rd : r / d < 2 ^ s := by rw [div_lt_iff₀ dq]; rw [Dq] at cr; linarith
  have rd0 : 0 ≤ r / d := by positivity
  have p149 : (0 : ℚ) < 2 ^ 149 := by positivity
  have scale : ∀ a : ℚ, ∀ b : ℚ, a < b → a / 2 ^ 149 < b / 2 ^ 149 := fun a b h =>
    div_lt_div_of_pos_right h p149
  have hx1 : mag K ≤ x := by
    rw [xq, mk]; have : 0 ≤ r / d / 2 ^ 149 := by positivity
    linarith
  have hx2 : x < mag (K + 1) := by
    rw [xq, mk1, add_mul, add_div, one_mul]
    have := scale _ _ rd; linarith
  have hmid : ∀ op : ℚ, 2 * x = mag K + mag (K + 1) + (2 * r - D) / d / 2 ^ 149 := by
    intro _
    rw [xq, mk, mk1, Dq]; exact ratAux2 _ _ _ _ _ dq
  have hmid := hmid 0
  obtain ⟨n1, n2, n3, n4⟩ := nearest_of_between x K hx1 hx2
  obtain ⟨d1, d2, d3, d4⟩ := divHalfEven_cases n D
  have hKpar : K % 2 = lo % 2 := by omega
  have goalred : ∀ k', Nearest x k' → divHalfEven n D + s * 2 ^ 23 = k' →
      RoundsTo x (roundUnits n d) := by
    intro k' h1 h2
    exact ⟨k', h1, by unfold roundUnits; simp only; rw [← hsdef, ← hD, h2]⟩
  rcases Nat.lt_trichotomy (2 * (n % D)) D with h | h | h
  · refine goalred K (n1 ?_) (by rw [d1 h, ← hlo, hK])
    have : 2 * r < D := by rw [hrdef]; exact_mod_cast h
    have : (2 * r - D) / d / 2 ^ 149 < 0 := by
      apply div_neg_of_neg_of_pos _ p149
      exact div_neg_of_neg_of_pos (by linarith) dq
    linarith
  · have h2 : 2 * r = D := by rw [hrdef]; exact_mod_cast h
    have h3 : 2 * x = mag K + mag (K + 1) := by rw [hmid, h2]; simp
    rcases Nat.mod_two_eq_zero_or_one lo with hp | hp
    · exact goalred K (n3 h3 (by omega)) (by rw [d3 h (by rw [← hlo]; exact hp), ← hlo, hK])
    · exact goalred (K + 1) (n4 h3 (by omega)) (by rw [d4 h (by rw [← hlo]; exact hp), ← hlo, hK]; omega)
  · refine goalred (K + 1) (n2 ?_) (by rw [d2 h, ← hlo, hK]; omega)
    have : (D : ℚ) < 2 * r := by rw [hrdef]; exact_mod_cast h
    have : 0 < (2 * r - D) / d / 2 ^ 149 := by
      apply div_pos _ p149
      exact div_pos (by linarith) dq
    linarith

theorem roundDec_spec (m : Nat) (e : Int) : RoundsTo ((m : ℚ) * 10 ^ e) (roundDec m e) := by
  cases e with
  | ofNat p =>
    have := roundUnits_spec (m * 10 ^ p * 2 ^ 149) 1 (by omega)
    have h : (((m * 10 ^ p * 2 ^ 149 : Nat) : ℚ) / ((1 : Nat) : ℚ) / 2 ^ 149) = (m : ℚ) * 10 ^ (Int.ofNat p) := by
      rw [Nat.cast_mul, Nat.cast_one, div_one, show ((2 ^ 149 : Nat) : ℚ) = 2 ^ 149 by rw [Nat.cast_pow]; rfl,
        mul_div_cancel_right₀ _ (by positivity)]
      push_cast; simp
    rw [h] at this; exact this
  | negSucc p =>
    have := roundUnits_spec (m * 2 ^ 149) (10 ^ (p + 1)) (by positivity)
    have h : (((m * 2 ^ 149 : Nat) : ℚ) / ((10 ^ (p + 1) : Nat) : ℚ) / 2 ^ 149) = (m : ℚ) * 10 ^ (Int.negSucc p) := by
      rw [Nat.cast_mul, show ((2 ^ 149 : Nat) : ℚ) = 2 ^ 149 by rw [Nat.cast_pow]; rfl, zpow_negSucc,
        div_right_comm, mul_div_cancel_right₀ _ (by positivity), div_eq_mul_inv]
      push_cast; rfl
    rw [h] at this; exact this

end Laya

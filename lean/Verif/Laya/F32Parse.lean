import Verif.Laya.F32Lemmas
/-! The f32 parser accepts exactly the documented grammar and rounds correctly. -/
namespace Laya
open F32

theorem spanDigits_spec (s : Str) :
    s = (spanDigits s).1 ++ (spanDigits s).2 ∧ (∀ c ∈ (spanDigits s).1, IsDigit c) ∧
    (∀ c r, (spanDigits s).2 = c :: r → ¬ IsDigit c) := by
  induction s with
  | nil => simp [spanDigits]
  | cons c cs ih =>
    simp only [spanDigits]
    cases h : digit? c with
    | none =>
      rw [digit?_none] at h
      simp only [List.nil_append, List.not_mem_nil, false_implies, implies_true, true_and]
      intro c' r e; simp at e; rw [← e.1]; exact h
    | some d =>
      obtain ⟨h1, _⟩ := (digit?_some c d).1 h
      refine ⟨by simp; exact ih.1, ?_, ih.2.2⟩
      intro x hx
      rcases List.mem_cons.1 hx with hx | hx
      · rw [hx]; exact h1
      · exact ih.2.1 x hx

theorem spanDigits_append (a b : Str) (ha : ∀ c ∈ a, IsDigit c) (hb : ∀ c r, b = c :: r → ¬ IsDigit c) :
    spanDigits (a ++ b) = (a, b) := by
  induction a with
  | nil =>
    cases b with
    | nil => rfl
    | cons c r =>
      simp only [List.nil_append, spanDigits, (digit?_none c).2 (hb c r rfl)]
  | cons c cs ih =>
    simp only [List.cons_append, spanDigits,
      (digit?_some c _).2 ⟨ha c (by simp), rfl⟩, ih (fun x hx => ha x (by simp [hx]))]

theorem spanDigits_all (a : Str) (ha : ∀ c ∈ a, IsDigit c) : spanDigits a = (a, []) := by
  have := spanDigits_append a [] ha (by simp)
  simpa using this

/-- capped digit accumulation from a start value -/
def expFrom (n : Nat) (ds : Str) : Nat :=
  ds.foldl (fun n c => if n < 0x10000 then 10 * n + (c.toNat - '0'.toNat) else n) n

theorem expFrom_cases (n : Nat) (ds : Str) :
    expFrom n ds = decFrom n ds ∨ (0x10000 ≤ expFrom n ds ∧ 0x10000 ≤ decFrom n ds) := by
  induction ds generalizing n with
  | nil => left; rfl
  | cons c cs ih =>
    have hd : decFrom n (c :: cs) = decFrom (10 * n + (c.toNat - '0'.toNat)) cs := by
      simp only [decFrom, List.foldl_cons]
    have he : expFrom n (c :: cs)
        = expFrom (if n < 0x10000 then 10 * n + (c.toNat - '0'.toNat) else n) cs := by
      simp only [expFrom, List.foldl_cons]
    rw [hd, he]
    split
    · exact ih _
    · rename_i h
      right
      constructor
      · have key : ∀ (l : Str) m, 0x10000 ≤ m → 0x10000 ≤ expFrom m l := by
          intro l
          induction l with
          | nil => intro m hm; exact hm
          | cons x xs ih2 =>
            intro m hm
            simp only [expFrom, List.foldl_cons]
            rw [if_neg (by omega)]
            exact ih2 m hm
        exact key cs n (by omega)
      · exact Nat.le_trans (by omega) (decFrom_ge _ _)

theorem expDigits_cases (ds : Str) :
    expDigits ds = decVal ds ∨ (0x10000 ≤ expDigits ds ∧ 0x10000 ≤ decVal ds) := expFrom_cases 0 ds

/-- The exponent text as the parser sees it (before capping): sign and digits. -/
inductive ExpRaw : Str → Bool → Str → Prop
  | plain (ds : Str) : ds ≠ [] → (∀ d ∈ ds, IsDigit d) → ExpRaw ds false ds
  | plus (ds : Str) : ds ≠ [] → (∀ d ∈ ds, IsDigit d) → ExpRaw ('+' :: ds) false ds
  | minus (ds : Str) : ds ≠ [] → (∀ d ∈ ds, IsDigit d) → ExpRaw ('-' :: ds) true ds

def signed (neg : Bool) (n : Nat) : Int := if neg then -(n : Int) else n

theorem not_digit_plus : ¬ IsDigit '+' := by rw [isDigit_iff]; decide
theorem not_digit_minus : ¬ IsDigit '-' := by rw [isDigit_iff]; decide
theorem not_digit_dot : ¬ IsDigit '.' := by rw [isDigit_iff]; decide
theorem not_digit_e : ¬ IsDigit 'e' := by rw [isDigit_iff]; decide
theorem not_digit_E : ¬ IsDigit 'E' := by rw [isDigit_iff]; decide

theorem parseExp_sound (s : Str) (x : Int) (h : parseExp s = some x) :
    ∃ neg ds, ExpRaw s neg ds ∧ x = signed neg (expDigits ds) := by
  have key : ∀ (neg : Bool) (r : Str),
      (match spanDigits r with
        | ([], _) => none
        | (_, _ :: _) => none
        | (ds, []) => some (if neg then -(expDigits ds : Int) else expDigits ds)) = some x →
      r ≠ [] ∧ (∀ d ∈ r, IsDigit d) ∧ x = signed neg (expDigits r) := by
    intro neg r h
    obtain ⟨h1, h2, _⟩ := spanDigits_spec r
    generalize spanDigits r = p at h h1 h2
    obtain ⟨a, b⟩ := p
    cases a with
    | nil => simp at h
    | cons a1 as =>
      cases b with
      | cons b1 bs => simp at h
      | nil =>
        simp only [List.append_nil] at h1 h2
        simp only [Option.some.injEq] at h
        rw [← h1] at h h2
        exact ⟨by rw [h1]; simp, h2, h.symm⟩
  unfold parseExp at h
  split at h
  rename_i neg r heq
  obtain ⟨h1, h2, h3⟩ := key neg r h
  refine ⟨neg, r, ?_, h3⟩
  unfold splitSign at heq
  split at heq
  · simp at heq; obtain ⟨rfl, rfl⟩ := heq; exact absurd rfl h1
  · split at heq
    · rename_i hc; subst hc; simp at heq; obtain ⟨rfl, rfl⟩ := heq; exact .minus _ h1 h2
    · split at heq
      · rename_i hc; subst hc; simp at heq; obtain ⟨rfl, rfl⟩ := heq; exact .plus _ h1 h2
      · simp at heq; obtain ⟨rfl, rfl⟩ := heq; exact .plain _ h1 h2

theorem parseExp_complete (s : Str) (neg : Bool) (ds : Str) (h : ExpRaw s neg ds) :
    parseExp s = some (signed neg (expDigits ds)) := by
  have key : ∀ (neg : Bool) (r : Str), r ≠ [] → (∀ d ∈ r, IsDigit d) →
      (match spanDigits r with
        | ([], _) => none
        | (_, _ :: _) => none
        | (ds, []) => some (if neg then -(expDigits ds : Int) else expDigits ds)) =
        some (signed neg (expDigits r)) := by
    intro neg r h1 h2
    rw [spanDigits_all r h2]
    cases r with
    | nil => simp at h1
    | cons => simp [signed]
  cases h with
  | plain _ h1 h2 =>
    unfold parseExp
    have : splitSign s = (false, s) := by
      cases s with
      | nil => rfl
      | cons c r =>
        have hc := h2 c (by simp)
        have n1 : c ≠ '-' := by rintro rfl; exact not_digit_minus hc
        have n2 : c ≠ '+' := by rintro rfl; exact not_digit_plus hc
        simp [splitSign, n1, n2]
    rw [this]; exact key false s h1 h2
  | plus _ h1 h2 => exact key false ds h1 h2
  | minus _ h1 h2 => exact key true ds h1 h2

/-- Parsed shape of a number: integer digits, optional fraction digits, optional exponent. -/
inductive NumShape : Str → Nat → Int → Prop
  | int (i : Str) : i ≠ [] → (∀ d ∈ i, IsDigit d) → NumShape i (decVal i) 0
  | intE (i : Str) (c : Char) (r : Str) (neg : Bool) (ds : Str) : i ≠ [] → (∀ d ∈ i, IsDigit d) →
      c = 'e' ∨ c = 'E' → ExpRaw r neg ds →
      NumShape (i ++ c :: r) (decVal i) (signed neg (expDigits ds))
  | frac (i f : Str) : (i ≠ [] ∨ f ≠ []) → (∀ d ∈ i, IsDigit d) → (∀ d ∈ f, IsDigit d) →
      NumShape (i ++ '.' :: f) (decVal (i ++ f)) (-(f.length : Int))
  | fracE (i f : Str) (c : Char) (r : Str) (neg : Bool) (ds : Str) : (i ≠ [] ∨ f ≠ []) →
      (∀ d ∈ i, IsDigit d) → (∀ d ∈ f, IsDigit d) → c = 'e' ∨ c = 'E' → ExpRaw r neg ds →
      NumShape (i ++ '.' :: f ++ c :: r) (decVal (i ++ f)) (signed neg (expDigits ds) - f.length)

theorem parseNumber_sound (s : Str) (m : Nat) (e : Int) (h : parseNumber s = some (m, e)) :
    NumShape s m e := by
  unfold parseNumber at h
  obtain ⟨h1, h2, h3⟩ := spanDigits_spec s
  generalize spanDigits s = p at h h1 h2 h3
  obtain ⟨i, s1⟩ := p
  simp only at h h1 h2 h3
  subst h1
  by_cases hdot : ∃ r, s1 = '.' :: r
  · obtain ⟨r, rfl⟩ := hdot
    simp only [fracPart, if_true] at h
    obtain ⟨g1, g2, g3⟩ := spanDigits_spec r
    generalize spanDigits r = q at h g1 g2 g3
    obtain ⟨f, s2⟩ := q
    simp only at h g1 g2 g3
    subst g1
    split at h
    · simp at h
    · rename_i hlen
      have hne : i ≠ [] ∨ f ≠ [] := by
        by_contra hc; push Not at hc; rw [hc.1, hc.2] at hlen; simp at hlen
      cases s2 with
      | nil =>
        simp at h; obtain ⟨rfl, rfl⟩ := h
        simpa using NumShape.frac i f hne h2 g2
      | cons c r =>
        simp only at h
        split at h
        · rename_i hc
          split at h
          · simp at h
          · rename_i x hx
            simp at h; obtain ⟨rfl, rfl⟩ := h
            obtain ⟨neg, ds, hr, rfl⟩ := parseExp_sound r x hx
            have := NumShape.fracE i f c r neg ds hne h2 g2 hc hr
            simpa using this
        · simp at h
  · have hm : fracPart s1 = (([] : Str), s1) := by
      cases s1 with
      | nil => rfl
      | cons c r =>
        have : c ≠ '.' := by rintro rfl; exact hdot ⟨r, rfl⟩
        simp [fracPart, this]
    rw [hm] at h
    simp only [List.length_nil, Nat.add_zero, List.append_nil] at h
    split at h
    · simp at h
    · rename_i hlen
      have hne : i ≠ [] := by rintro rfl; simp at hlen
      cases s1 with
      | nil =>
        simp at h; obtain ⟨rfl, rfl⟩ := h
        simpa using NumShape.int i hne h2
      | cons c r =>
        simp only at h
        split at h
        · rename_i hc
          split at h
          · simp at h
          · rename_i x hx
            simp at h; obtain ⟨rfl, rfl⟩ := h
            obtain ⟨neg, ds, hr, rfl⟩ := parseExp_sound r x hx
            exact NumShape.intE i c r neg ds hne h2 hc hr
        · simp at h

theorem parseNumber_complete (s : Str) (m : Nat) (e : Int) (h : NumShape s m e) :
    parseNumber s = some (m, e) := by
  have hce : ∀ c : Char, c = 'e' ∨ c = 'E' → ¬ IsDigit c ∧ c ≠ '.' := by
    rintro c (rfl | rfl)
    · exact ⟨not_digit_e, by decide⟩
    · exact ⟨not_digit_E, by decide⟩
  cases h with
  | int _ h1 h2 =>
    unfold parseNumber
    rw [spanDigits_all s h2]
    have : s.length ≠ 0 := by simpa using h1
    simp [this, fracPart]
  | intE i c r neg ds h1 h2 hc hr =>
    unfold parseNumber
    rw [spanDigits_append i (c :: r) h2 (by intro c' r' e; simp at e; rw [← e.1]; exact (hce c hc).1)]
    have hm : fracPart (c :: r) = (([] : Str), c :: r) := by
      simp [fracPart, (hce c hc).2]
    have : i.length ≠ 0 := by simpa using h1
    simp only [hm, List.length_nil, Nat.add_zero, this, if_false, if_pos hc,
      parseExp_complete r neg ds hr]
    simp
  | frac i f h1 h2 h3 =>
    unfold parseNumber
    rw [spanDigits_append i ('.' :: f) h2 (by intro c' r' e; simp at e; rw [← e.1]; exact not_digit_dot)]
    simp only [fracPart, if_true, spanDigits_all f h3]
    have : i.length + f.length ≠ 0 := by
      intro hc
      have hi : i = [] := List.eq_nil_of_length_eq_zero (by omega)
      have hf : f = [] := List.eq_nil_of_length_eq_zero (by omega)
      rcases h1 with h1 | h1 <;> contradiction
    simp only [this, if_false]
  | fracE i f c r neg ds h1 h2 h3 hc hr =>
    unfold parseNumber
    rw [List.append_assoc, List.cons_append,
      spanDigits_append i ('.' :: (f ++ c :: r)) h2 (by intro c' r' e; simp at e; rw [← e.1]; exact not_digit_dot)]
    simp only [fracPart, if_true, spanDigits_append f (c :: r) h3 (by intro c' r' e; simp at e; rw [← e.1]; exact (hce c hc).1)]
    have : i.length + f.length ≠ 0 := by
      intro hcc
      have hi : i = [] := List.eq_nil_of_length_eq_zero (by omega)
      have hf : f = [] := List.eq_nil_of_length_eq_zero (by omega)
      rcases h1 with h1 | h1 <;> contradiction
    simp only [this, if_false, if_pos hc, parseExp_complete r neg ds hr]

/-! ### Capped exponents do not change the rounded value -/

set_option exponentiation.threshold 300 in
theorem mag_inf : mag infBits = 2 ^ 128 := by
  have : units infBits = 2 ^ 277 := by
    unfold infBits
    rw [show (0x7F800000 : Nat) = 2 ^ 23 + 254 * 2 ^ 23 by norm_num,
      units_norm (2 ^ 23) 254 (by omega) (by norm_num), ← Nat.pow_add]
  unfold mag
  rw [this]
  rw [Nat.cast_pow, div_eq_iff (by positivity), ← pow_add]
  norm_num

theorem exists_nearest (x : ℚ) (hx : 0 ≤ x) : ∃ k, Nearest x k := by
  -- scale to a fraction of units
  have hn : x = ((x.num.toNat * 2 ^ 149 : Nat) : ℚ) / (x.den : ℚ) / 2 ^ 149 := by
    have h0 : (0 : Int) ≤ x.num := Rat.num_nonneg.2 hx
    have h1 : ((x.num.toNat : Nat) : ℚ) = (x.num : ℚ) := by
      have : ((x.num.toNat : Nat) : Int) = x.num := Int.toNat_of_nonneg h0
      exact_mod_cast this
    rw [Nat.cast_mul, h1, show ((2 ^ 149 : Nat) : ℚ) = 2 ^ 149 by rw [Nat.cast_pow]; rfl,
      div_right_comm, mul_div_cancel_right₀ _ (by positivity), Rat.num_div_den]
  have := roundUnits_spec (x.num.toNat * 2 ^ 149) x.den x.den_pos
  rw [← hn] at this
  obtain ⟨k', h, _⟩ := this
  exact ⟨k', h⟩

theorem roundsTo_inf (x : ℚ) (h : 2 ^ 128 ≤ x) : RoundsTo x infBits := by
  obtain ⟨k, hk⟩ := exists_nearest x (le_trans (by positivity) h)
  refine ⟨k, hk, ?_⟩
  have : infBits ≤ k := by
    by_contra hc
    have hlt : k < infBits := by omega
    have hm := mag_strictMono hlt
    rw [mag_inf] at hm
    have h1 : |x - mag infBits| = x - 2 ^ 128 := by rw [mag_inf]; exact abs_of_nonneg (by linarith)
    have h2 : |x - mag k| = x - mag k := abs_of_nonneg (by linarith)
    rcases hk infBits (by omega) with h3 | ⟨h3, _⟩ <;> rw [h1, h2] at h3 <;> linarith
  omega

theorem mag_one : mag 1 = 1 / 2 ^ 149 := by
  unfold mag; rw [units_small 1 (by norm_num)]; simp

theorem roundsTo_zero (x : ℚ) (h0 : 0 ≤ x) (h : x ≤ 1 / 2 ^ 150) : RoundsTo x 0 := by
  obtain ⟨n1, _, n3, _⟩ := nearest_of_between x 0 (by rw [mag_zero]; exact h0)
    (by rw [zero_add, mag_one]; exact lt_of_le_of_lt h (by
      rw [div_lt_div_iff_of_pos_left (by norm_num) (by positivity) (by positivity)]
      exact pow_lt_pow_right₀ (by norm_num) (by norm_num)))
  rw [zero_add, mag_zero, mag_one, zero_add] at n1 n3
  have hh : (1 : ℚ) / 2 ^ 149 = 2 * (1 / 2 ^ 150) := by
    rw [show (150 : Nat) = 149 + 1 from rfl, pow_succ]; field_simp
  rcases lt_or_eq_of_le h with h | h
  · exact ⟨0, n1 (by rw [hh]; linarith), by simp⟩
  · exact ⟨0, n3 (by rw [hh]; linarith) rfl, by simp⟩

theorem pow10_big : (2 : ℚ) ^ 128 ≤ 10 ^ (39 : Int) := by
  norm_num

theorem big_val (m : Nat) (hm : m ≠ 0) (e : Int) (he : 39 ≤ e) : (2 : ℚ) ^ 128 ≤ m * 10 ^ e := by
  have h1 : (10 : ℚ) ^ (39 : Int) ≤ 10 ^ e := zpow_le_zpow_right₀ (by norm_num) he
  have h2 : (1 : ℚ) ≤ m := by exact_mod_cast Nat.one_le_iff_ne_zero.2 hm
  have h3 : (0 : ℚ) < 10 ^ e := zpow_pos (by norm_num) e
  calc (2 : ℚ) ^ 128 ≤ 10 ^ (39 : Int) := pow10_big
    _ ≤ 10 ^ e := h1
    _ ≤ m * 10 ^ e := le_mul_of_one_le_left h3.le h2

theorem pow10_small : (10 : ℚ) ^ (-46 : Int) ≤ 1 / 2 ^ 150 := by
  norm_num

theorem small_val (m l : Nat) (hm : m < 10 ^ l) (e : Int) (he : l + e ≤ -46) :
    (m : ℚ) * 10 ^ e ≤ 1 / 2 ^ 150 := by
  have h1 : (m : ℚ) ≤ 10 ^ (l : Int) := by
    rw [zpow_natCast]; exact_mod_cast hm.le
  have h3 : (0 : ℚ) < 10 ^ e := zpow_pos (by norm_num) e
  calc (m : ℚ) * 10 ^ e ≤ 10 ^ (l : Int) * 10 ^ e := mul_le_mul_of_nonneg_right h1 h3.le
    _ = 10 ^ ((l : Int) + e) := by rw [← zpow_add₀ (by norm_num)]
    _ ≤ 10 ^ (-46 : Int) := zpow_le_zpow_right₀ (by norm_num) he
    _ ≤ _ := pow10_small

/-- For texts of at most 65000 characters, capping the exponent digits does not change the result. -/
theorem cap_ok (m L f : Nat) (neg : Bool) (ds : Str) (hm : m < 10 ^ L) (hL : L ≤ 65000) (hf : f ≤ L) :
    RoundsTo ((m : ℚ) * 10 ^ (signed neg (decVal ds) - f)) (roundDec m (signed neg (expDigits ds) - f)) := by
  rcases expDigits_cases ds with h | ⟨h1, h2⟩
  · rw [h]; exact roundDec_spec _ _
  · have hs := roundDec_spec m (signed neg (expDigits ds) - f)
    by_cases hm0 : m = 0
    · subst hm0
      simp only [Nat.cast_zero, zero_mul] at hs ⊢
      exact hs
    · cases neg with
      | false =>
        have a1 := roundsTo_inf _ (big_val m hm0 (signed false (decVal ds) - f)
          (by simp only [signed, Bool.false_eq_true, if_false]; omega))
        have a2 := roundsTo_inf _ (big_val m hm0 (signed false (expDigits ds) - f)
          (by simp only [signed, Bool.false_eq_true, if_false]; omega))
        rw [hs.unique a2]; exact a1
      | true =>
        have a1 := roundsTo_zero ((m : ℚ) * 10 ^ (signed true (decVal ds) - f)) (mul_nonneg (Nat.cast_nonneg _) (zpow_pos (by norm_num) _).le)
          (small_val m L hm _ (by simp only [signed, if_true]; omega))
        have a2 := roundsTo_zero ((m : ℚ) * 10 ^ (signed true (expDigits ds) - f)) (mul_nonneg (Nat.cast_nonneg _) (zpow_pos (by norm_num) _).le)
          (small_val m L hm _ (by simp only [signed, if_true]; omega))
        rw [hs.unique a2]; exact a1

/-! ### Grammar equivalence -/

theorem expRaw_text (c : Char) (hc : c = 'e' ∨ c = 'E') (r : Str) (neg : Bool) (ds : Str)
    (h : ExpRaw r neg ds) : ExpText (c :: r) (signed neg (decVal ds)) := by
  cases h with
  | plain _ h1 h2 => exact .plain c _ hc h1 h2
  | plus _ h1 h2 => exact .plus c _ hc h1 h2
  | minus _ h1 h2 => exact .minus c _ hc h1 h2

theorem text_expRaw (x : Str) (e : Int) (h : ExpText x e) :
    (x = [] ∧ e = 0) ∨ ∃ c r neg ds, x = c :: r ∧ (c = 'e' ∨ c = 'E') ∧ ExpRaw r neg ds ∧
      e = signed neg (decVal ds) := by
  cases h with
  | none => left; exact ⟨rfl, rfl⟩
  | plain c ds hc h1 h2 => right; exact ⟨c, ds, false, ds, rfl, hc, .plain _ h1 h2, rfl⟩
  | plus c ds hc h1 h2 => right; exact ⟨c, _, false, ds, rfl, hc, .plus _ h1 h2, rfl⟩
  | minus c ds hc h1 h2 => right; exact ⟨c, _, true, ds, rfl, hc, .minus _ h1 h2, rfl⟩

theorem number_sound (s : Str) (m : Nat) (e : Int) (hlen : s.length ≤ 65000)
    (h : parseNumber s = some (m, e)) :
    ∃ x, UnsignedText s (.exact x) ∧ RoundsTo x (roundDec m e) := by
  cases parseNumber_sound s m e h with
  | int _ h1 h2 =>
    refine ⟨_, by simpa using UnsignedText.int s [] 0 h1 h2 .none, ?_⟩
    have := roundDec_spec (decVal s) 0
    simpa using this
  | intE i c r neg ds h1 h2 hc hr =>
    refine ⟨_, UnsignedText.int i (c :: r) _ h1 h2 (expRaw_text c hc r neg ds hr), ?_⟩
    have := cap_ok (decVal i) i.length 0 neg ds (decVal_lt i h2) (by simp only [List.length_cons, List.length_append] at hlen; omega) (by omega)
    simpa using this
  | frac i f h1 h2 h3 =>
    refine ⟨_, by simpa using UnsignedText.frac i f [] 0 h1 h2 h3 .none, ?_⟩
    have := roundDec_spec (decVal (i ++ f)) (-(f.length : Int))
    simpa using this
  | fracE i f c r neg ds h1 h2 h3 hc hr =>
    refine ⟨_, UnsignedText.frac i f (c :: r) _ h1 h2 h3 (expRaw_text c hc r neg ds hr), ?_⟩
    have hd : ∀ d ∈ i ++ f, IsDigit d := by
      intro d hd; rcases List.mem_append.1 hd with hd | hd
      · exact h2 d hd
      · exact h3 d hd
    exact cap_ok (decVal (i ++ f)) (i ++ f).length f.length neg ds (decVal_lt _ hd)
      (by simp only [List.length_cons, List.length_append] at hlen ⊢; omega) (by simp)

theorem number_complete (s : Str) (x : ℚ) (hlen : s.length ≤ 65000) (h : UnsignedText s (.exact x)) :
    ∃ m e, parseNumber s = some (m, e) ∧ RoundsTo x (roundDec m e) := by
  cases h with
  | int i ex e h1 h2 h3 =>
    rcases text_expRaw ex e h3 with ⟨rfl, rfl⟩ | ⟨c, r, neg, ds, rfl, hc, hr, rfl⟩
    · refine ⟨_, _, by simpa using parseNumber_complete _ _ _ (.int i h1 h2), ?_⟩
      exact roundDec_spec _ _
    · refine ⟨_, _, parseNumber_complete _ _ _ (.intE i c r neg ds h1 h2 hc hr), ?_⟩
      have := cap_ok (decVal i) i.length 0 neg ds (decVal_lt i h2) (by simp only [List.length_cons, List.length_append] at hlen; omega) (by omega)
      simpa using this
  | frac i f ex e h1 h2 h3 h4 =>
    rcases text_expRaw ex e h4 with ⟨rfl, rfl⟩ | ⟨c, r, neg, ds, rfl, hc, hr, rfl⟩
    · refine ⟨_, _, by simpa using parseNumber_complete _ _ _ (.frac i f h1 h2 h3), ?_⟩
      have := roundDec_spec (decVal (i ++ f)) (-(f.length : Int))
      simpa using this
    · refine ⟨_, _, parseNumber_complete _ _ _ (.fracE i f c r neg ds h1 h2 h3 hc hr), ?_⟩
      have hd : ∀ d ∈ i ++ f, IsDigit d := by
        intro d hd; rcases List.mem_append.1 hd with hd | hd
        · exact h2 d hd
        · exact h3 d hd
      exact cap_ok (decVal (i ++ f)) (i ++ f).length f.length neg ds (decVal_lt _ hd)
        (by simp only [List.length_cons, List.length_append] at hlen ⊢; omega) (by simp)

theorem lower_head (t : Str) (c : Char) (r : Str) (h : lower t = c :: r) :
    ∃ c' r', t = c' :: r' ∧ c'.toLower = c := by
  cases t with
  | nil => simp [lower] at h
  | cons a b => simp [lower] at h; exact ⟨a, b, rfl, h.1⟩

theorem toLower_digit (c : Char) (h : IsDigit c) : c.toLower = c := by
  rw [isDigit_iff] at h
  unfold Char.toLower
  rw [dif_neg]
  intro hc
  have : (65 : UInt32) ≤ c.val := hc.1
  rw [UInt32.le_iff_toNat_le] at this
  have h2 : c.toNat = c.val.toNat := rfl
  have h3 : (65 : UInt32).toNat = 65 := rfl
  omega

theorem shape_head (s : Str) (m : Nat) (e : Int) (h : NumShape s m e) :
    ∃ c r, s = c :: r ∧ (IsDigit c ∨ c = '.') := by
  have aux : ∀ (i : Str) (t : Str), i ≠ [] → (∀ d ∈ i, IsDigit d) →
      ∃ c r, i ++ t = c :: r ∧ (IsDigit c ∨ c = '.') := by
    intro i t h1 h2
    cases i with
    | nil => simp at h1
    | cons a b => exact ⟨a, b ++ t, rfl, Or.inl (h2 a (by simp))⟩
  cases h with
  | int _ h1 h2 => simpa using aux s [] h1 h2
  | intE i c r neg ds h1 h2 => exact aux i _ h1 h2
  | frac i f h1 h2 =>
    by_cases hi : i = []
    · subst hi; exact ⟨'.', f, rfl, Or.inr rfl⟩
    · exact aux i _ hi h2
  | fracE i f c r neg ds h1 h2 =>
    by_cases hi : i = []
    · subst hi; exact ⟨'.', _, rfl, Or.inr rfl⟩
    · rw [List.append_assoc]; exact aux i _ hi h2

theorem word_not_number (t : Str) (w : Char) (r : Str) (h : lower t = w :: r) (hw : ¬ IsDigit w)
    (hd : w ≠ '.') : parseNumber t = none := by
  cases hp : parseNumber t with
  | none => rfl
  | some p =>
    obtain ⟨m, e⟩ := p
    obtain ⟨c, r', rfl, hc⟩ := shape_head t m e (parseNumber_sound t m e hp)
    obtain ⟨c', r'', h1, h2⟩ := lower_head _ _ _ h
    simp at h1
    rw [← h1.1] at h2
    rcases hc with hc | hc
    · rw [toLower_digit c hc] at h2; rw [h2] at hc; exact absurd hc hw
    · subst hc; rw [show Char.toLower '.' = '.' by decide] at h2; exact absurd h2.symm hd

theorem unsigned_head (t : Str) (v : Magnitude) (h : UnsignedText t v) :
    ∃ c r, t = c :: r ∧ c ≠ '+' ∧ c ≠ '-' := by
  have dig : ∀ c, IsDigit c → c ≠ '+' ∧ c ≠ '-' := by
    intro c hc
    exact ⟨by rintro rfl; exact not_digit_plus hc, by rintro rfl; exact not_digit_minus hc⟩
  have word : ∀ w r, lower t = w :: r → w ≠ '+' → w ≠ '-' → ∃ c r, t = c :: r ∧ c ≠ '+' ∧ c ≠ '-' := by
    intro w r h h1 h2
    obtain ⟨c', r', rfl, rfl⟩ := lower_head _ _ _ h
    refine ⟨c', r', rfl, ?_, ?_⟩
    · rintro rfl; exact h1 (by decide)
    · rintro rfl; exact h2 (by decide)
  cases h with
  | nan _ h => exact word _ _ h (by decide) (by decide)
  | inf _ h =>
    rcases h with h | h
    · exact word _ _ h (by decide) (by decide)
    · exact word _ _ h (by decide) (by decide)
  | int i x e h1 h2 =>
    cases i with
    | nil => simp at h1
    | cons a b => exact ⟨a, _, rfl, dig a (h2 a (by simp))⟩
  | frac i f x e h1 h2 =>
    cases i with
    | nil => exact ⟨'.', _, rfl, by decide, by decide⟩
    | cons a b => exact ⟨a, _, rfl, dig a (h2 a (by simp))⟩

/-- The body of `parseF32`, after the sign. -/
def parseBody (neg : Bool) (body : Str) : Option F32 :=
  match parseNumber body with
  | some (m, e) => some (.num neg (roundDec m e))
  | none =>
    if lower body = lit "nan" then some .nan
    else if lower body = lit "inf" ∨ lower body = lit "infinity" then some (.num neg F32.infBits)
    else none

inductive BodyText (neg : Bool) : Str → F32 → Prop
  | nan (t) : UnsignedText t .nan → BodyText neg t .nan
  | inf (t) : UnsignedText t .inf → BodyText neg t (.num neg infBits)
  | exact (t) (x) (k) : UnsignedText t (.exact x) → RoundsTo x k → BodyText neg t (.num neg k)

theorem parseBody_iff (neg : Bool) (t : Str) (f : F32) (hlen : t.length ≤ 65000) :
    parseBody neg t = some f ↔ BodyText neg t f := by
  constructor
  · intro h
    unfold parseBody at h
    cases hp : parseNumber t with
    | some p =>
      obtain ⟨m, e⟩ := p
      rw [hp] at h; simp only [Option.some.injEq] at h; subst h
      obtain ⟨x, h1, h2⟩ := number_sound t m e hlen hp
      exact .exact t x _ h1 h2
    | none =>
      rw [hp] at h; simp only at h
      split at h
      · rename_i hn; simp at h; subst h; exact .nan t (.nan t hn)
      · split at h
        · rename_i hn; simp at h; subst h; exact .inf t (.inf t hn)
        · simp at h
  · intro h
    unfold parseBody
    cases h with
    | nan h =>
      cases h with
      | nan _ h =>
        rw [word_not_number t 'n' ['a', 'n'] h (by rw [isDigit_iff]; decide) (by decide)]
        simp [h]
    | inf h =>
      cases h with
      | inf _ h =>
        rcases h with h | h
        · rw [word_not_number t 'i' ['n', 'f'] h (by rw [isDigit_iff]; decide) (by decide)]
          simp [h, lit]
        · rw [word_not_number t 'i' "nfinity".toList h (by rw [isDigit_iff]; decide) (by decide)]
          simp [h, lit]
    | exact x k h1 h2 =>
      obtain ⟨m, e, h3, h4⟩ := number_complete t x hlen h1
      rw [h3]; simp only; rw [h4.unique h2]

/-- **The parser accepts exactly the float grammar, and returns the correctly rounded value**, for
texts of at most 65000 characters (hyper limits a URI to 65534 bytes). -/
theorem parseF32_iff (t : Str) (f : F32) (hlen : t.length ≤ 65000) :
    parseF32 t = some f ↔ FloatText t f := by
  have hbody : ∀ neg r, r.length ≤ 65000 → (parseBody neg r = some f ↔ BodyText neg r f) :=
    fun neg r h => parseBody_iff neg r f h
  have hdef : parseF32 t = parseBody (splitSign t).1 (splitSign t).2 := rfl
  rw [hdef]
  have conv : ∀ (sg r : Str) , sg = [] ∨ sg = ['+'] ∨ sg = ['-'] →
      BodyText (decide (sg = ['-'])) r f → FloatText (sg ++ r) f := by
    intro sg r hs hb
    cases hb with
    | nan h => exact .nan r sg hs h
    | inf h => exact .inf r sg hs h
    | exact x k h1 h2 => exact .exact r sg x k hs h1 h2
  have conv2 : FloatText t f → ∃ sg r, t = sg ++ r ∧ (sg = [] ∨ sg = ['+'] ∨ sg = ['-']) ∧
      BodyText (decide (sg = ['-'])) r f ∧ ∃ c r', r = c :: r' ∧ c ≠ '+' ∧ c ≠ '-' := by
    intro h
    cases h with
    | nan r sg hs h => exact ⟨sg, r, rfl, hs, .nan r h, unsigned_head _ _ h⟩
    | inf r sg hs h => exact ⟨sg, r, rfl, hs, .inf r h, unsigned_head _ _ h⟩
    | exact r sg x k hs h1 h2 => exact ⟨sg, r, rfl, hs, .exact r x k h1 h2, unsigned_head _ _ h1⟩
  have hl : (splitSign t).2.length ≤ 65000 := by
    refine Nat.le_trans ?_ hlen
    cases t with
    | nil => simp [splitSign]
    | cons c r => simp only [splitSign]; split <;> [skip; split] <;> simp
  rw [hbody _ _ hl]
  constructor
  · intro h
    cases t with
    | nil => exact conv [] [] (by simp) (by simpa [splitSign] using h)
    | cons c r =>
      simp only [splitSign] at h
      split at h
      · rename_i hc; subst hc; exact conv ['-'] r (by simp) h
      · split at h
        · rename_i hc; subst hc; exact conv ['+'] r (by simp) h
        · exact conv [] (c :: r) (by simp) h
  · intro h
    obtain ⟨sg, r, rfl, hs, hb, c, r', rfl, hc1, hc2⟩ := conv2 h
    rcases hs with rfl | rfl | rfl
    · simpa [splitSign, hc1, hc2] using hb
    · simpa [splitSign] using hb
    · simpa [splitSign] using hb

end Laya

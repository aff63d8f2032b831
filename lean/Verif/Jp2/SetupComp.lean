import Verif.Jp2.SetupSpec
import Verif.Jp2.MathProps
import Verif.Jp2.HdrRound
/-!
# The parts a component is made of
-/
namespace Jp2.Setup
open Jp2.Hdr (R refuseIf Comp Tccp Dec cdiv levelShift ok_bind refuse_bind)

theorem u32_of {x : Int} (h0 : 0 ≤ x) (h : x < 2 ^ 32) : ((u32 x : Nat) : Int) = x := by
  unfold u32
  rw [Int.emod_eq_of_lt h0 h]
  omega

theorem u32_nat {n : Nat} (h : n < 2 ^ 32) : u32 (n : Int) = n := by
  have := u32_of (x := (n : Int)) (by omega) (by omega)
  omega

/-- Two powers of two around the same number are the same. -/
theorem pow_unique {a k l : Nat} (h1 : 2 ^ k ≤ a) (h2 : a < 2 ^ (k + 1)) (h3 : 2 ^ l ≤ a) (h4 : a < 2 ^ (l + 1)) : k = l := by
  have a1 : k < l + 1 := (Nat.pow_lt_pow_iff_right (by omega : 1 < 2)).1 (lt_of_le_of_lt h1 h4)
  have a2 : l < k + 1 := (Nat.pow_lt_pow_iff_right (by omega : 1 < 2)).1 (lt_of_le_of_lt h3 h2)
  omega

theorem log2_spec {a : Nat} (h0 : 0 < a) (h : a < 2 ^ 31) : ∃ k, log2 a = .ok k ∧ 2 ^ k ≤ a ∧ a < 2 ^ (k + 1) := by
  obtain ⟨k, h1, h2⟩ := (Math.C26_floorlog2 a h0 (by omega)).2 h
  exact ⟨k, by unfold log2; rw [h1], h2⟩

theorem log2_pow {k : Nat} (h : k < 31) : log2 (2 ^ k) = .ok k := by
  have hp := Nat.two_pow_pos k
  have hl : 2 ^ k < 2 ^ 31 := Nat.pow_lt_pow_right (by omega) h
  obtain ⟨j, h1, h2, h3⟩ := log2_spec hp hl
  have : j = k := pow_unique h2 h3 (le_refl _) (by rw [Nat.pow_succ]; omega)
  rw [← this]
  push_cast at h1
  rw [← this] at h1
  exact h1

theorem log2_int {s : Int} (h0 : 1 ≤ s) (h : s < 2 ^ 31) : ∃ k, log2 s = .ok k ∧ (2 : Int) ^ k ≤ s ∧ s < 2 ^ (k + 1) := by
  obtain ⟨n, rfl⟩ : ∃ n : Nat, s = n := ⟨s.toNat, by omega⟩
  obtain ⟨k, h1, h2, h3⟩ := log2_spec (a := n) (by omega) (by omega)
  exact ⟨k, h1, by exact_mod_cast h2, by exact_mod_cast h3⟩

/-! ## Lists -/

theorem mapM_ok {α β : Type} {f : α → R β} {P : α → β → Prop} :
    ∀ (l : List α), (∀ a ∈ l, ∃ b, f a = .ok b ∧ P a b) → ∃ bs, l.mapM f = .ok bs ∧ List.Forall₂ P l bs
  | [], _ => ⟨[], rfl, .nil⟩
  | a :: l, h => by
    obtain ⟨b, hb, hp⟩ := h a (by simp)
    obtain ⟨bs, hbs, hps⟩ := mapM_ok l (fun x hx => h x (by simp [hx]))
    refine ⟨b :: bs, ?_, .cons hp hps⟩
    rw [List.mapM_cons, hb, ok_bind, hbs, ok_bind]
    rfl

theorem forall₂_get {α β : Type} {P : α → β → Prop} {l : List α} {m : List β} (h : List.Forall₂ P l m) :
    ∀ (i : Nat) (a : α), l[i]? = some a → ∃ b, m[i]? = some b ∧ P a b := by
  induction h with
  | nil => simp
  | cons hp _ ih =>
    intro i a hi
    cases i with
    | zero => simp at hi; subst hi; exact ⟨_, by simp, hp⟩
    | succ i => simpa using ih i a (by simpa using hi)

theorem forall₂_len {α β : Type} {P : α → β → Prop} {l : List α} {m : List β} (h : List.Forall₂ P l m) : l.length = m.length := by
  induction h with
  | nil => rfl
  | cons _ _ ih => simp [ih]

theorem forall₂_mem {α β : Type} {P : α → β → Prop} {l : List α} {m : List β} (h : List.Forall₂ P l m) : ∀ b ∈ m, ∃ a ∈ l, P a b := by
  induction h with
  | nil => simp
  | cons hp _ ih =>
    intro b hb
    rcases List.mem_cons.1 hb with rfl | hb
    · exact ⟨_, by simp, hp⟩
    · obtain ⟨a, ha, h⟩ := ih b hb
      exact ⟨a, by simp [ha], h⟩

/-! ## Precincts -/

theorem exponent_spec {s : Int} (h0 : 1 ≤ s) (h : s < 2 ^ 31) : ∃ k, exponent s = .ok k ∧ (2 : Int) ^ k ≤ s ∧ s < 2 ^ (k + 1) := by
  unfold exponent
  rw [if_neg (by omega)]
  exact log2_int h0 h

theorem precinct_spec {l : List Int} {spec : Int} {k : Nat} (hs : 1 ≤ spec) (hs33 : spec ≤ 33) (hl : l.length = 33) (hk : k < 32)
    (h0 : 1 ≤ askedSize l spec k) (h : askedSize l spec k < 2 ^ 31) :
    ∃ e, precinct l spec k = .ok e ∧ (2 : Int) ^ e ≤ askedSize l spec k ∧ askedSize l spec k < 2 ^ (e + 1) := by
  unfold precinct
  by_cases hlt : (k : Int) < spec
  · have hk' : k < l.length := by omega
    have ha : askedSize l spec k = l[k] := by
      unfold askedSize
      rw [if_pos hlt, List.getD_eq_getElem?_getD, List.getElem?_eq_getElem hk', Option.getD_some]
    rw [ha] at h0 h ⊢
    rw [if_pos hlt, List.getElem?_eq_getElem hk']
    exact exponent_spec h0 h
  · have hk' : (spec - 1).toNat < l.length := by omega
    have ha : askedSize l spec k = l[(spec - 1).toNat] / 2 ^ (k - (spec - 1).toNat) := by
      unfold askedSize
      rw [if_neg hlt, List.getD_eq_getElem?_getD, List.getElem?_eq_getElem hk', Option.getD_some]
    rw [ha] at h0 h ⊢
    rw [if_neg hlt, if_neg (by omega), List.getElem?_eq_getElem hk']
    dsimp only
    rw [if_neg (by omega), Int.shiftRight_eq_div_pow]
    push_cast
    exact exponent_spec h0 h

/-- What the precincts of a component are. -/
def PrecsAre (p : Params) (n : Nat) (l : List (Nat × Nat)) : Prop :=
  ∀ r : Nat, r < n → ∃ w h, l[r]? = some (w, h) ∧
    if p.csty % 2 = 1 then
      let k := n - 1 - r
      ((2 : Int) ^ w ≤ askedSize p.prcw p.resSpec k ∧ askedSize p.prcw p.resSpec k < 2 ^ (w + 1)) ∧
      ((2 : Int) ^ h ≤ askedSize p.prch p.resSpec k ∧ askedSize p.prch p.resSpec k < 2 ^ (h + 1))
    else w = 15 ∧ h = 15

theorem precincts_spec {p : Params} {im : Image} (hf : Fits p im) {n : Nat} (hn : (n : Int) = p.numres) :
    ∃ l, precincts p n = .ok l ∧ l.length = 33 ∧ PrecsAre p n l := by
  have hr := hf.res
  unfold precincts
  by_cases hc : p.csty % 2 = 1
  · rw [if_pos hc]
    obtain ⟨s1, s2, s3, s4⟩ := hf.prec_spec hc
    obtain ⟨l, hl, hp⟩ := mapM_ok (f := fun r => do
        let w ← precinct p.prcw p.resSpec (n - 1 - r)
        let h ← precinct p.prch p.resSpec (n - 1 - r)
        return (w, h)) (P := fun r (q : Nat × Nat) =>
        ((2 : Int) ^ q.1 ≤ askedSize p.prcw p.resSpec (n - 1 - r) ∧ askedSize p.prcw p.resSpec (n - 1 - r) < 2 ^ (q.1 + 1)) ∧
        ((2 : Int) ^ q.2 ≤ askedSize p.prch p.resSpec (n - 1 - r) ∧ askedSize p.prch p.resSpec (n - 1 - r) < 2 ^ (q.2 + 1)))
        (List.range n) (by
      intro r hr'
      have hr' : r < n := List.mem_range.1 hr'
      have hk : ((n - 1 - r : Nat) : Int) < p.numres := by omega
      obtain ⟨a1, a2, _⟩ := hf.prec_size hc (n - 1 - r) hk _ (Or.inl rfl)
      obtain ⟨b1, b2, _⟩ := hf.prec_size hc (n - 1 - r) hk _ (Or.inr rfl)
      obtain ⟨w, hw, hw'⟩ := precinct_spec s1 s2 s3 (by omega) a1 (by omega)
      obtain ⟨h, hh, hh'⟩ := precinct_spec s1 s2 s4 (by omega) b1 (by omega)
      exact ⟨(w, h), by rw [hw, ok_bind, hh, ok_bind]; rfl, hw', hh'⟩)
    have hlen : l.length = n := by have := forall₂_len hp; simpa using this.symm
    refine ⟨l ++ List.replicate (33 - n) (0, 0), by rw [hl, ok_bind]; rfl, by simp [hlen]; omega, ?_⟩
    intro r hr'
    obtain ⟨⟨w, h⟩, hq, hq'⟩ := forall₂_get hp r r (by simp [hr'])
    refine ⟨w, h, by rw [List.getElem?_append_left (by omega)]; exact hq, ?_⟩
    rw [if_pos hc]
    exact hq'
  · rw [if_neg hc]
    refine ⟨_, rfl, by simp; omega, ?_⟩
    intro r hr'
    refine ⟨15, 15, ?_, ?_⟩
    · rw [List.getElem?_append_left (by simpa using hr')]
      simp [hr']
    · rw [if_neg hc]
      exact ⟨rfl, rfl⟩

/-! ## Step sizes -/

theorem norm_is (level orient : Nat) (h : orient ≤ 3) : norm level orient = waveletNorm level orient ∧ 1000 ≤ norm level orient ∧
    norm level orient ≤ 557200 := by
  have key : ∀ l, l ≤ 9 → ∀ o, o ≤ 3 → (o ≠ 0 → l ≤ 8) →
      (normTable.getD o []).getD l 0 = waveletNorm l o ∧ 1000 ≤ waveletNorm l o ∧ waveletNorm l o ≤ 557200 := by decide
  unfold norm
  dsimp only
  have hmin : ∀ m, waveletNorm level orient = waveletNorm m orient → ∀ x, x = waveletNorm m orient ∧ 1000 ≤ waveletNorm m orient ∧
      waveletNorm m orient ≤ 557200 → x = waveletNorm level orient ∧ 1000 ≤ x ∧ x ≤ 557200 := by
    intro m e x ⟨h1, h2, h3⟩
    rw [e, h1]
    exact ⟨rfl, h2, h3⟩
  split
  · rename_i hc
    obtain ⟨rfl, hl⟩ := hc
    refine hmin 9 ?_ _ (key 9 (by omega) 0 (by omega) (by omega))
    unfold waveletNorm
    rw [Nat.min_eq_right (by omega : 9 ≤ level)]
    rfl
  · rename_i hc
    split
    · rename_i hc'
      refine hmin 8 ?_ _ (key 8 (by omega) orient h (by omega))
      unfold waveletNorm
      split
      · omega
      · rw [Nat.min_eq_right (by omega : 8 ≤ level)]; rfl
      · rw [Nat.min_eq_right (by omega : 8 ≤ level)]; rfl
    · exact hmin level rfl _ (key level (by omega) orient h (by omega))

theorem encodeStep_spec {s prec : Nat} (h0 : 8 ≤ s) (h1 : s ≤ 8192) (hp : prec ≤ 2 ^ 16) :
    ∃ e m, encodeStep s prec = .ok (e, m) ∧ prec ≤ e ∧ e ≤ prec + 10 ∧ m < 2048 ∧
      (2 ^ 11 + m) * 2 ^ 13 * 2 ^ prec ≤ s * 2 ^ 11 * 2 ^ e ∧ s * 2 ^ 11 * 2 ^ e < (2 ^ 11 + m + 1) * 2 ^ 13 * 2 ^ prec := by
  obtain ⟨k, hk, h2, h3⟩ := log2_spec (a := s) (by omega) (by omega)
  have hk3 : 3 ≤ k := by
    by_contra hc
    have : 2 ^ (k + 1) ≤ 2 ^ 3 := Nat.pow_le_pow_right (by omega) (by omega)
    omega
  have hk13 : k ≤ 13 := by
    by_contra hc
    have : 2 ^ 14 ≤ 2 ^ k := Nat.pow_le_pow_right (by omega) (by omega)
    omega
  have he : u32 ((prec : Int) - ((k : Int) - 13)) = prec + (13 - k) := by
    have : (prec : Int) - ((k : Int) - 13) = ((prec + (13 - k) : Nat) : Int) := by omega
    rw [this, u32_nat (by omega)]
  obtain ⟨m, hm⟩ : ∃ m, m = (if 11 < k then s >>> (k - 11) else s <<< (11 - k)) % 2048 := ⟨_, rfl⟩
  have hm' : m < 2048 ∧ (2048 + m) * 2 ^ k ≤ s * 2048 ∧ s * 2048 < (2048 + m + 1) * 2 ^ k := by
    rw [hm]
    rw [Nat.shiftRight_eq_div_pow, Nat.shiftLeft_eq]
    obtain hk | hk | hk | hk | hk | hk | hk | hk | hk | hk | hk :
      k = 3 ∨ k = 4 ∨ k = 5 ∨ k = 6 ∨ k = 7 ∨ k = 8 ∨ k = 9 ∨ k = 10 ∨ k = 11 ∨ k = 12 ∨ k = 13 := by omega
    all_goals
      subst hk
      norm_num at h2 h3 ⊢
      omega
  obtain ⟨hm1, hm2, hm3⟩ := hm'
  refine ⟨prec + (13 - k), m, ?_, by omega, by omega, hm1, ?_, ?_⟩
  · unfold encodeStep
    rw [hk, ok_bind, he, ← hm]
    rfl
  · have e1 : (2 ^ 11 + m) * 2 ^ 13 * 2 ^ prec = ((2048 + m) * 2 ^ k) * (2 ^ (13 - k) * 2 ^ prec) := by
      have : (2 : Nat) ^ 13 = 2 ^ k * 2 ^ (13 - k) := by rw [← Nat.pow_add]; congr 1; omega
      rw [this]
      ring
    have e2 : s * 2 ^ 11 * 2 ^ (prec + (13 - k)) = (s * 2048) * (2 ^ (13 - k) * 2 ^ prec) := by
      rw [Nat.pow_add]; ring
    rw [e1, e2]
    exact Nat.mul_le_mul_right _ hm2
  · have e1 : (2 ^ 11 + m + 1) * 2 ^ 13 * 2 ^ prec = ((2048 + m + 1) * 2 ^ k) * (2 ^ (13 - k) * 2 ^ prec) := by
      have : (2 : Nat) ^ 13 = 2 ^ k * 2 ^ (13 - k) := by rw [← Nat.pow_add]; congr 1; omega
      rw [this]
      ring
    have e2 : s * 2 ^ 11 * 2 ^ (prec + (13 - k)) = (s * 2048) * (2 ^ (13 - k) * 2 ^ prec) := by
      rw [Nat.pow_add]; ring
    rw [e1, e2]
    exact Nat.mul_lt_mul_of_pos_right hm3 (by positivity)

theorem orient_le (b : Nat) : bandOrient b ≤ 3 := by unfold bandOrient; split <;> omega

theorem encodeStep_one {n : Nat} (hn : n ≤ 2 ^ 16) : encodeStep 8192 n = .ok (n, 0) := by
  obtain ⟨k, hk, h2, h3⟩ := log2_spec (a := 8192) (by omega) (by omega)
  have : k = 13 := pow_unique h2 h3 (by norm_num) (by norm_num)
  subst this
  unfold encodeStep
  rw [hk, ok_bind]
  have : (n : Int) - (((13 : Nat) : Int) - 13) = (n : Int) := by omega
  rw [this, u32_nat (by omega)]
  rfl

theorem bandStep_rev (numres prec b : Nat) (hp : prec ≤ 29) :
    ∃ s, bandStep 0 1 numres prec b = .ok s ∧ StepFor false numres prec b s ∧ s.1 ≤ 31 ∧ s.2 ≤ 2047 := by
  unfold bandStep
  dsimp only
  rw [if_pos rfl]
  have ho := orient_le b
  have hg : gain 1 (bandOrient b) = [0, 1, 1, 2].getD (bandOrient b) 0 ∧ gain 1 (bandOrient b) ≤ 2 := by
    obtain h | h | h | h : bandOrient b = 0 ∨ bandOrient b = 1 ∨ bandOrient b = 2 ∨ bandOrient b = 3 := by omega
    all_goals rw [h]; decide
  have hw : wrap32 ((prec : Int) + (gain 1 (bandOrient b) : Nat)) = ((prec + gain 1 (bandOrient b) : Nat) : Int) := by
    push_cast
    exact wrap32_of_I32 _ (by unfold I32; omega)
  rw [hw, encodeStep_one (by omega)]
  refine ⟨_, rfl, ?_, by dsimp only; omega, by dsimp only; omega⟩
  unfold StepFor
  dsimp only
  rw [if_neg (by decide), hg.1]
  rfl

theorem bandStep_irr (numres prec b : Nat) (hp : prec ≤ 21) :
    ∃ s, bandStep 2 0 numres prec b = .ok s ∧ StepFor true numres prec b s ∧ s.1 ≤ 31 ∧ s.2 ≤ 2047 := by
  unfold bandStep
  dsimp only
  rw [if_neg (by decide)]
  have ho := orient_le b
  obtain ⟨n1, n2, n3⟩ := norm_is (numres - 1 - bandRes b) (bandOrient b) ho
  have hg : gain 0 (bandOrient b) = 0 := by unfold gain; rw [if_pos rfl]
  have hw : wrap32 ((prec : Int) + (gain 0 (bandOrient b) : Nat)) = (prec : Int) := by
    rw [hg]
    exact wrap32_of_I32 _ (by unfold I32; omega)
  rw [hw, hg]
  obtain ⟨N, hN⟩ : ∃ N, N = norm (numres - 1 - bandRes b) (bandOrient b) := ⟨_, rfl⟩
  rw [← hN] at n1 n2 n3 ⊢
  have v1 : 8 ≤ 2 ^ 0 * 8192000 / N := by
    rw [Nat.le_div_iff_mul_le (by omega)]
    omega
  have v2 : 2 ^ 0 * 8192000 / N ≤ 8192 := by
    apply Nat.div_le_of_le_mul
    omega
  obtain ⟨e, m, h1, h2, h3, h4, h5, h6⟩ := encodeStep_spec v1 v2 (show prec ≤ 2 ^ 16 by omega)
  refine ⟨_, h1, ?_, by dsimp only; omega, by dsimp only; omega⟩
  unfold StepFor
  dsimp only
  rw [if_pos rfl]
  have hl : (if b = 0 then numres - 1 else numres - 2 - (b - 1) / 3) = numres - 1 - bandRes b := by
    unfold bandRes; split <;> omega
  have hv : 8192 * 1000 / waveletNorm (if b = 0 then numres - 1 else numres - 2 - (b - 1) / 3) (if b = 0 then 0 else (b - 1) % 3 + 1) =
      2 ^ 0 * 8192000 / N := by
    rw [hl, n1]
    rfl
  rw [hv]
  exact ⟨h5, h6⟩

theorem steps_spec {y q numres prec : Nat} {irr : Bool} (hn : numres ≤ 33)
    (hb : ∀ b, ∃ s, bandStep y q numres prec b = .ok s ∧ StepFor irr numres prec b s ∧ s.1 ≤ 31 ∧ s.2 ≤ 2047) :
    ∃ l, steps y q numres prec = .ok l ∧ l.length = 97 ∧ (∀ s ∈ l, s.1 ≤ 31 ∧ s.2 ≤ 2047) ∧
      ∀ b < 3 * numres - 2, ∃ s, l[b]? = some s ∧ StepFor irr numres prec b s := by
  obtain ⟨l, hl, hp⟩ := mapM_ok (f := bandStep y q numres prec) (P := fun b s => StepFor irr numres prec b s ∧ s.1 ≤ 31 ∧ s.2 ≤ 2047)
    (List.range (3 * numres - 2)) (fun b _ => hb b)
  have hlen : l.length = 3 * numres - 2 := by have := forall₂_len hp; simpa using this.symm
  refine ⟨l ++ List.replicate (97 - (3 * numres - 2)) (0, 0), ?_, by simp [hlen]; omega, ?_, ?_⟩
  · unfold steps
    rw [hl, ok_bind]
    rfl
  · intro s hs
    rcases List.mem_append.1 hs with hs | hs
    · obtain ⟨_, _, h⟩ := forall₂_mem hp s hs
      exact h.2
    · rw [List.eq_of_mem_replicate hs]
      exact ⟨by decide, by decide⟩
  · intro b hb'
    obtain ⟨s, hs, hs'⟩ := forall₂_get hp b b (by simp [hb'])
    exact ⟨s, by rw [List.getElem?_append_left (by omega)]; exact hs, hs'.1⟩

end Jp2.Setup

import Verif.Laya.Parse
import Verif.Laya.ParseSpec
import Verif.Laya.F32Parse
/-! Helper lemmas for the parameter parsers. -/
namespace Laya
open F32

theorem F32.lt_zero_iff (f : F32) : F32.lt F32.zero f = true ↔ f.Positive := by
  unfold F32.Positive
  cases f with
  | nan => simp [F32.lt, F32.key, F32.zero]
  | num neg k =>
    have hm : 0 < mag k ↔ 0 < k := by rw [← mag_zero, mag_lt_iff]
    cases neg
    · simp only [F32.lt, F32.key, F32.zero, decide_eq_true_eq, num.injEq, true_and]
      constructor
      · intro h; exact ⟨k, rfl, hm.2 (by omega)⟩
      · rintro ⟨k', rfl, h⟩
        have := (by rw [← mag_zero, mag_lt_iff] at h; exact h : 0 < k); omega
    · simp only [F32.lt, F32.key, F32.zero, decide_eq_true_eq, num.injEq, Bool.true_eq_false, false_and,
        exists_false, iff_false]
      omega

theorem mag_hundred : mag 0x42C80000 = 100 := by
  have : units 0x42C80000 = 100 * 2 ^ 149 := by decide +kernel
  unfold mag
  rw [this, Nat.cast_mul, Nat.cast_pow, div_eq_iff (by positivity)]; norm_num

theorem mag_threeSixty : mag 0x43B40000 = 360 := by
  have : units 0x43B40000 = 360 * 2 ^ 149 := by decide +kernel
  unfold mag
  rw [this, Nat.cast_mul, Nat.cast_pow, div_eq_iff (by positivity)]; norm_num

theorem mag_le_iff {a b : Nat} : mag a ≤ mag b ↔ a ≤ b := by
  rw [← not_lt, mag_lt_iff, not_lt]

theorem F32.within_iff (f : F32) (c : Nat) (hc : c < infBits) (q : ℚ) (hq : mag c = q) :
    (F32.le F32.zero f && F32.le f (.num false c)) = true ↔ f.Within q := by
  unfold F32.Within
  cases f with
  | nan => simp [F32.le, F32.key, F32.zero]
  | num neg k =>
    cases neg
    · simp only [F32.le, F32.key, F32.zero, Bool.and_eq_true, decide_eq_true_eq, num.injEq]
      constructor
      · rintro ⟨_, h⟩
        exact ⟨false, k, ⟨rfl, rfl⟩, by omega, by simp, by rw [← hq, mag_le_iff]; omega⟩
      · rintro ⟨neg', k', ⟨rfl, rfl⟩, _, _, h⟩
        rw [← hq, mag_le_iff] at h
        omega
    · simp only [F32.le, F32.key, F32.zero, Bool.and_eq_true, decide_eq_true_eq, num.injEq]
      have hz : mag k = 0 ↔ k = 0 := by
        constructor
        · intro h; rw [← mag_zero] at h
          by_contra hk
          have := mag_strictMono (Nat.pos_of_ne_zero hk)
          linarith
        · rintro rfl; exact mag_zero
      constructor
      · rintro ⟨h, _⟩
        have hk : k = 0 := by omega
        subst hk
        exact ⟨true, 0, ⟨rfl, rfl⟩, by omega, fun _ => mag_zero, by rw [← hq, mag_le_iff]; omega⟩
      · rintro ⟨neg', k', ⟨rfl, rfl⟩, _, h, _⟩
        have := hz.1 (h rfl)
        omega

theorem F32.within360_iff (f : F32) :
    (F32.le F32.zero f && F32.le f F32.threeSixty) = true ↔ f.Within 360 :=
  F32.within_iff f _ (by decide) _ mag_threeSixty

theorem F32.pos_le100_iff (f : F32) (hp : f.Positive) :
    F32.le f F32.hundred = true ↔ f.Within 100 := by
  rw [← F32.within_iff f _ (by decide) _ mag_hundred]
  obtain ⟨k, rfl, _⟩ := hp
  simp only [F32.hundred, F32.le, F32.key, F32.zero, Bool.and_eq_true, decide_eq_true_eq]
  omega

/-! ### characters of numerals -/

theorem digit_ne (c d : Char) (h : IsDigit c) (hd : ¬ IsDigit d) : c ≠ d := by rintro rfl; exact hd h

theorem mem_lower_of (t : Str) (c : Char) (h : c ∈ t) : c.toLower ∈ lower t := by
  unfold lower; exact List.mem_map_of_mem h

/-- A float text contains only digits, letters, `+`, `-` and `.`. -/
theorem FloatText.chars {t : Str} {f : F32} (h : FloatText t f) (c : Char) (hc : ¬ IsDigit c)
    (hp : c ≠ '+' ∧ c ≠ '-' ∧ c ≠ '.') (hl : c.toLower ∉ lit "infityae") : c ∉ t := by
  have hce : c ≠ 'e' ∧ c ≠ 'E' := by
    constructor <;> rintro rfl <;> exact hl (by decide)
  have dig : ∀ ds : Str, (∀ d ∈ ds, IsDigit d) → c ∉ ds := fun ds hd hm => hc (hd c hm)
  have ex : ∀ x e, ExpText x e → c ∉ x := by
    intro x e hx
    cases hx with
    | none => simp
    | plain c' ds h1 h2 h3 =>
      simp only [List.mem_cons, not_or]
      exact ⟨by rcases h1 with rfl | rfl <;> tauto, dig ds h3⟩
    | plus c' ds h1 h2 h3 =>
      simp only [List.mem_cons, not_or]
      exact ⟨by rcases h1 with rfl | rfl <;> tauto, hp.1, dig ds h3⟩
    | minus c' ds h1 h2 h3 =>
      simp only [List.mem_cons, not_or]
      exact ⟨by rcases h1 with rfl | rfl <;> tauto, hp.2.1, dig ds h3⟩
  have un : ∀ t v, UnsignedText t v → c ∉ t := by
    intro t v hu
    have word : ∀ w : String, lower t = lit w → (∀ x ∈ lit w, x ∈ lit "infityae") → c ∉ t := by
      intro w hw hsub hm
      exact hl (hsub _ (hw ▸ mem_lower_of t c hm))
    cases hu with
    | nan _ h => exact word "nan" h (by decide)
    | inf _ h =>
      rcases h with h | h
      · exact word "inf" h (by decide)
      · exact word "infinity" h (by decide)
    | int i x e h1 h2 h3 =>
      simp only [List.mem_append, not_or]; exact ⟨dig i h2, ex x e h3⟩
    | frac i f x e h1 h2 h3 h4 =>
      simp only [List.mem_append, List.mem_cons, not_or]
      exact ⟨⟨dig i h2, hp.2.2, dig f h3⟩, ex x e h4⟩
  have sg : ∀ s : Str, s = [] ∨ s = ['+'] ∨ s = ['-'] → c ∉ s := by
    rintro s (rfl | rfl | rfl) <;> simp <;> tauto
  cases h with
  | nan r s hs h => simp only [List.mem_append, not_or]; exact ⟨sg s hs, un r _ h⟩
  | inf r s hs h => simp only [List.mem_append, not_or]; exact ⟨sg s hs, un r _ h⟩
  | exact r s x k hs h => simp only [List.mem_append, not_or]; exact ⟨sg s hs, un r _ h⟩

theorem FloatText.noComma {t : Str} {f : F32} (h : FloatText t f) : ',' ∉ t :=
  h.chars ',' (by rw [isDigit_iff]; decide) (by decide) (by decide)

theorem FloatText.noSlash {t : Str} {f : F32} (h : FloatText t f) : '/' ∉ t :=
  h.chars '/' (by rw [isDigit_iff]; decide) (by decide) (by decide)

theorem FloatText.noBang {t : Str} {f : F32} (h : FloatText t f) : '!' ∉ t :=
  h.chars '!' (by rw [isDigit_iff]; decide) (by decide) (by decide)

theorem U32Text.noSep {t : Str} {n : Nat} (h : U32Text t n) : ',' ∉ t :=
  h.noComma ',' (by rw [isDigit_iff]; decide) (by decide)

/-! ### selector loop -/

section
variable {T : Type} (parse : Str → Option T) (validate : T → Nat → Except ParseError T) (input : Str)

theorem selectorLoop_cons_ok (todo idx : Nat) (s : Str) (rest : List Str) (vs : List T) (r : List Str) :
    selectorLoop parse validate input (todo + 1) idx (s :: rest) = .ok (vs, r) ↔
    ∃ v0 v vs', parse s = some v0 ∧ validate v0 idx = .ok v ∧
      selectorLoop parse validate input todo (idx + 1) rest = .ok (vs', r) ∧ vs = v :: vs' := by
  simp only [selectorLoop]
  cases h1 : parse s with
  | none => simp
  | some v0 =>
    simp only [Option.some.injEq]
    cases h2 : validate v0 idx with
    | error e => simp [h2]
    | ok v =>
      cases h3 : selectorLoop parse validate input todo (idx + 1) rest with
      | error e => simp
      | ok p =>
        obtain ⟨vs', r'⟩ := p
        simp only [Except.ok.injEq, Prod.mk.injEq]
        constructor
        · rintro ⟨rfl, rfl⟩; exact ⟨v0, v, vs', rfl, h2, ⟨rfl, rfl⟩, rfl⟩
        · rintro ⟨v0', v', vs'', rfl, h4, ⟨rfl, rfl⟩, rfl⟩
          rw [h2] at h4; simp at h4; exact ⟨by rw [h4], rfl⟩

theorem parseRegionSelectors_ok (vs : List T) :
    parseRegionSelectors parse validate input = .ok vs ↔
    ∃ a b c d a0 b0 c0 d0 a' b' c' d', split ',' input = [a, b, c, d] ∧
      parse a = some a0 ∧ validate a0 0 = .ok a' ∧ parse b = some b0 ∧ validate b0 1 = .ok b' ∧
      parse c = some c0 ∧ validate c0 2 = .ok c' ∧ parse d = some d0 ∧ validate d0 3 = .ok d' ∧
      vs = [a', b', c', d'] := by
  have step : parseRegionSelectors parse validate input = .ok vs ↔
      selectorLoop parse validate input 4 0 (split ',' input) = .ok (vs, []) := by
    unfold parseRegionSelectors
    split <;> rename_i h <;> simp [h]
  rw [step]
  constructor
  · intro h
    have nilerr : ∀ n i vs r, selectorLoop parse validate input (n + 1) i [] ≠ .ok (vs, r) := by
      intro n i vs r; simp [selectorLoop]
    generalize split ',' input = ps at h
    cases ps with
    | nil => exact absurd h (nilerr _ _ _ _)
    | cons a ps =>
    obtain ⟨a0, a', vs1, ha, hav, h1, rfl⟩ := (selectorLoop_cons_ok ..).1 h
    clear h
    cases ps with
    | nil => exact absurd h1 (nilerr _ _ _ _)
    | cons b ps =>
    obtain ⟨b0, b', vs2, hb, hbv, h2, rfl⟩ := (selectorLoop_cons_ok ..).1 h1
    clear h1
    cases ps with
    | nil => exact absurd h2 (nilerr _ _ _ _)
    | cons c ps =>
    obtain ⟨c0, c', vs3, hc, hcv, h3, rfl⟩ := (selectorLoop_cons_ok ..).1 h2
    clear h2
    cases ps with
    | nil => exact absurd h3 (nilerr _ _ _ _)
    | cons d ps =>
    obtain ⟨d0, d', vs4, hd, hdv, h4, rfl⟩ := (selectorLoop_cons_ok ..).1 h3
    clear h3
    simp [selectorLoop] at h4
    obtain ⟨rfl, rfl⟩ := h4
    exact ⟨a, b, c, d, a0, b0, c0, d0, a', b', c', d', rfl, ha, hav, hb, hbv, hc, hcv, hd, hdv, rfl⟩
  · rintro ⟨a, b, c, d, a0, b0, c0, d0, a', b', c', d', hs, ha, hav, hb, hbv, hc, hcv, hd, hdv, rfl⟩
    rw [hs]
    simp only [selectorLoop, ha, hav, hb, hbv, hc, hcv, hd, hdv]

theorem parseRegionSelectors_length (vs : List T)
    (h : parseRegionSelectors parse validate input = .ok vs) : vs.length = 4 := by
  obtain ⟨_, _, _, _, _, _, _, _, _, _, _, _, _, _, _, _, _, _, _, _, _, rfl⟩ :=
    (parseRegionSelectors_ok parse validate input vs).1 h
  rfl

end

theorem validateU32_ok (v i v' : Nat) : validateU32 v i = .ok v' ↔ v' = v ∧ (i ≤ 1 ∨ 0 < v) := by
  unfold validateU32
  split
  · rename_i h; simp only [Except.ok.injEq, eq_comm]; constructor
    · intro e; exact ⟨e, h⟩
    · exact And.left
  · rename_i h; simp; intro _; omega

theorem validateF32_ok (fmt : F32 → Str) (v : F32) (i : Nat) (v' : F32) :
    validateF32 fmt v i = .ok v' ↔ v' = v ∧ v.Positive := by
  unfold validateF32
  split
  · rename_i h; rw [F32.lt_zero_iff] at h; simp [h, eq_comm]
  · rename_i h; rw [F32.lt_zero_iff] at h; simp [h]

/-- splitting four comma-free pieces -/
theorem split4 (s a b c d : Str) :
    split ',' s = [a, b, c, d] ↔
    s = a ++ lit "," ++ b ++ lit "," ++ c ++ lit "," ++ d ∧ ',' ∉ a ∧ ',' ∉ b ∧ ',' ∉ c ∧ ',' ∉ d := by
  have hj : join ',' [a, b, c, d] = a ++ lit "," ++ b ++ lit "," ++ c ++ lit "," ++ d := by
    simp [join]
  constructor
  · intro h
    refine ⟨?_, ?_, ?_, ?_, ?_⟩
    · rw [← hj, ← h, join_split]
    all_goals exact split_pieces ',' s _ (by rw [h]; simp)
  · rintro ⟨rfl, h1, h2, h3, h4⟩
    rw [← hj]
    exact split_join ',' a _ (by simp; exact ⟨h1, h2, h3, h4⟩)

theorem lit_comma_mem (a b c d : Str) : ',' ∈ a ++ lit "," ++ b ++ lit "," ++ c ++ lit "," ++ d := by
  simp

theorem parseRegion_iff (fmt : F32 → Str) (s : Str) (r : Region) (hlen : s.length ≤ 65000) :
    parseRegion fmt s = .ok r ↔ RegionText s r := by
  unfold parseRegion
  split
  · rename_i h; subst h
    simp only [Except.ok.injEq]
    constructor
    · rintro rfl; exact .full
    · intro h
      generalize hs : lit "full" = s at h
      cases h with
      | full => rfl
      | square => simp at hs
      | absolute tx ty tw th =>
        have := lit_comma_mem tx ty tw th; rw [← hs] at this; simp at this
      | percentage tx ty tw th =>
        have := lit_comma_mem (lit "pct:" ++ tx) ty tw th
        rw [← hs] at this; simp at this
  · rename_i hnf
    split
    · rename_i h; subst h
      simp only [Except.ok.injEq]
      constructor
      · rintro rfl; exact .square
      · intro h
        generalize hs : lit "square" = s at h
        cases h with
        | full => simp at hs
        | square => rfl
        | absolute tx ty tw th =>
          have := lit_comma_mem tx ty tw th; rw [← hs] at this; simp at this
        | percentage tx ty tw th =>
          have := lit_comma_mem (lit "pct:" ++ tx) ty tw th
          rw [← hs] at this; simp at this
    · rename_i hns
      split
      · rename_i input hin
        rw [stripPrefix_eq_some] at hin
        subst hin
        have hl : input.length ≤ 65000 := by
          simp only [List.length_append] at hlen; omega
        constructor
        · intro h
          cases hp : parseRegionSelectors parseF32 (validateF32 fmt) input with
          | error e => rw [hp] at h; simp at h
          | ok vs =>
            obtain ⟨a, b, c, d, a0, b0, c0, d0, a', b', c', d', hs, ha, hav, hb, hbv, hc, hcv, hd, hdv, rfl⟩ :=
              (parseRegionSelectors_ok ..).1 hp
            rw [hp] at h; simp only [Except.ok.injEq] at h; subst h
            obtain ⟨e, h1, h2, h3, h4⟩ := (split4 ..).1 hs
            subst e
            simp only [List.length_append] at hl
            rw [validateF32_ok] at hav hbv hcv hdv
            obtain ⟨rfl, hav⟩ := hav
            obtain ⟨rfl, hbv⟩ := hbv
            obtain ⟨rfl, hcv⟩ := hcv
            obtain ⟨rfl, hdv⟩ := hdv
            rw [parseF32_iff _ _ (by omega)] at ha hb hc hd
            have := RegionText.percentage a b c d _ _ _ _ ha hb hc hd hav hbv hcv hdv
            simpa using this
        · intro h
          generalize hs : lit "pct:" ++ input = s at h
          cases h with
          | full => simp at hs
          | square => simp at hs
          | absolute tx ty tw th x y w h h1 =>
            exfalso
            have hp : 'p' ∈ tx ++ lit "," ++ ty ++ lit "," ++ tw ++ lit "," ++ th := by
              rw [← hs]; simp
            obtain ⟨ds, h2, h3, h4, _⟩ := h1
            rcases h2 with rfl | rfl
            · cases tx with
              | nil => simp at h3
              | cons q qs =>
                simp at hs; rw [← hs.1] at h4
                have := h4 'p' (by simp); rw [isDigit_iff] at this; simp at this
            · simp at hs
          | percentage tx ty tw th x y w h hx hy hw hh px py pw ph =>
            have hs' : input = tx ++ lit "," ++ ty ++ lit "," ++ tw ++ lit "," ++ th := by
              simpa using hs
            have hsp := (split4 input tx ty tw th).2
              ⟨hs', hx.noComma, hy.noComma, hw.noComma, hh.noComma⟩
            have hl' := hl
            rw [hs'] at hl'
            simp only [List.length_append] at hl'
            have := (parseRegionSelectors_ok parseF32 (validateF32 fmt) input [x, y, w, h]).2
              ⟨tx, ty, tw, th, x, y, w, h, x, y, w, h, hsp,
               (parseF32_iff _ _ (by omega)).2 hx, (validateF32_ok ..).2 ⟨rfl, px⟩,
               (parseF32_iff _ _ (by omega)).2 hy, (validateF32_ok ..).2 ⟨rfl, py⟩,
               (parseF32_iff _ _ (by omega)).2 hw, (validateF32_ok ..).2 ⟨rfl, pw⟩,
               (parseF32_iff _ _ (by omega)).2 hh, (validateF32_ok ..).2 ⟨rfl, ph⟩, rfl⟩
            rw [this]
      · rename_i hin
        rw [stripPrefix_eq_none] at hin
        constructor
        · intro h
          cases hp : parseRegionSelectors parseU32 validateU32 s with
          | error e => rw [hp] at h; simp at h
          | ok vs =>
            obtain ⟨a, b, c, d, a0, b0, c0, d0, a', b', c', d', hs, ha, hav, hb, hbv, hc, hcv, hd, hdv, rfl⟩ :=
              (parseRegionSelectors_ok ..).1 hp
            rw [hp] at h; simp only [Except.ok.injEq] at h; subst h
            obtain ⟨e, h1, h2, h3, h4⟩ := (split4 ..).1 hs
            subst e
            rw [validateU32_ok] at hav hbv hcv hdv
            obtain ⟨rfl, hav⟩ := hav
            obtain ⟨rfl, hbv⟩ := hbv
            obtain ⟨rfl, hcv⟩ := hcv
            obtain ⟨rfl, hdv⟩ := hdv
            rw [parseU32_iff] at ha hb hc hd
            exact RegionText.absolute a b c d _ _ _ _ ha hb hc hd (by omega) (by omega)
        · intro h
          cases h with
          | full => exact absurd rfl hnf
          | square => exact absurd rfl hns
          | absolute tx ty tw th x y w h hx hy hw hh pw ph =>
            have hsp := (split4 _ tx ty tw th).2
              ⟨rfl, hx.noSep, hy.noSep, hw.noSep, hh.noSep⟩
            have := (parseRegionSelectors_ok parseU32 validateU32 _ [x, y, w, h]).2
              ⟨tx, ty, tw, th, x, y, w, h, x, y, w, h, hsp,
               (parseU32_iff _ _).2 hx, (validateU32_ok ..).2 ⟨rfl, by omega⟩,
               (parseU32_iff _ _).2 hy, (validateU32_ok ..).2 ⟨rfl, by omega⟩,
               (parseU32_iff _ _).2 hw, (validateU32_ok ..).2 ⟨rfl, by omega⟩,
               (parseU32_iff _ _).2 hh, (validateU32_ok ..).2 ⟨rfl, by omega⟩, rfl⟩
            rw [this]
          | percentage tx ty tw th =>
            exact absurd (by simp) (hin (tx ++ lit "," ++ ty ++ lit "," ++ tw ++ lit "," ++ th))

/-! ### size -/

theorem parseScalePx_ok (t : Str) (n : Nat) : parseScalePx t = .ok n ↔ U32Text t n ∧ 0 < n := by
  unfold parseScalePx
  cases h : parseU32 t with
  | none =>
    simp only [reduceCtorEq, false_iff, not_and]
    intro hu; rw [← parseU32_iff, h] at hu; simp at hu
  | some m =>
    have hm := (parseU32_iff t m).1 h
    simp only
    split
    · rename_i h0; subst h0
      simp only [reduceCtorEq, false_iff, not_and]
      intro hu; have := hu.unique hm; omega
    · simp only [Except.ok.injEq]
      constructor
      · rintro rfl; exact ⟨hm, by omega⟩
      · rintro ⟨hu, _⟩; exact hm.unique hu

theorem parseOptPx_ok (t : Str) (o : Option Nat) :
    parseOptPx t = .ok o ↔ (t = [] ∧ o = none) ∨ (∃ n, o = some n ∧ U32Text t n ∧ 0 < n) := by
  unfold parseOptPx
  cases t with
  | nil =>
    simp only [List.isEmpty_nil, if_true, Except.ok.injEq, true_and]
    constructor
    · rintro rfl; exact Or.inl rfl
    · rintro (h | ⟨n, _, h, _⟩)
      · exact h.symm
      · exact absurd rfl h.ne_nil
  | cons c cs =>
    simp only [List.isEmpty_cons, Bool.false_eq_true, if_false, reduceCtorEq, false_and, false_or]
    cases h : parseScalePx (c :: cs) with
    | error e =>
      simp only [reduceCtorEq, false_iff]
      rintro ⟨n, _, h1, h2⟩
      rw [(parseScalePx_ok _ n).2 ⟨h1, h2⟩] at h; simp at h
    | ok m =>
      have := (parseScalePx_ok _ m).1 h
      simp only [Except.ok.injEq]
      constructor
      · rintro rfl; exact ⟨m, rfl, this⟩
      · rintro ⟨n, rfl, h1, _⟩; rw [this.1.unique h1]

theorem U32Text.head {t : Str} {n : Nat} (h : U32Text t n) :
    ∃ c r, t = c :: r ∧ (IsDigit c ∨ c = '+') := by
  obtain ⟨ds, h1, h2, h3, _⟩ := h
  rcases h1 with rfl | rfl
  · cases t with
    | nil => simp at h2
    | cons c r => exact ⟨c, r, rfl, Or.inl (h3 c (by simp))⟩
  · exact ⟨'+', ds, rfl, Or.inr rfl⟩

theorem stripChar_cases (c : Char) (s : Str) :
    (∃ r, s = c :: r ∧ stripChar c s = (true, r)) ∨
    ((∀ r, s ≠ c :: r) ∧ stripChar c s = (false, s)) := by
  cases s with
  | nil => right; simp [stripChar]
  | cons x xs =>
    by_cases h : x = c
    · subst h; left; exact ⟨xs, rfl, by simp [stripChar]⟩
    · right; constructor
      · intro r e; simp at e; exact h e.1
      · simp [stripChar, h]

theorem head_not (c : Char) (hc : ¬ IsDigit c) (hp : c ≠ '+') {t : Str} {n : Nat} (h : U32Text t n) (x r : Str) :
    t ++ x ≠ c :: r := by
  obtain ⟨c', r', rfl, h1⟩ := h.head
  intro e; simp at e
  rcases h1 with h1 | h1
  · rw [e.1] at h1; exact hc h1
  · rw [e.1] at h1; exact hp h1

/-- px part: everything but `max` and `pct:` -/
theorem parseSizePx_ok (up : Bool) (s : Str) (z : Size) (h1 : s ≠ lit "max")
    (h2 : ∀ r, s ≠ lit "pct:" ++ r) :
    parseSizePx up s = .ok z ↔ z.upscale = up ∧ ScaleText up s z.scale := by
  have nb : ¬ IsDigit '!' := by rw [isDigit_iff]; decide
  have nc : ¬ IsDigit ',' := by rw [isDigit_iff]; decide
  unfold parseSizePx
  rcases stripChar_cases '!' s with ⟨r, rfl, hr⟩ | ⟨hn, hr⟩
  · rw [hr]; simp only
    constructor
    · intro h
      split at h
      · simp at h
      · cases hs : splitOnce ',' r with
        | none => rw [hs] at h; simp at h
        | some p =>
          obtain ⟨a, b⟩ := p
          rw [hs] at h; simp only [if_true] at h
          obtain ⟨rfl, hna⟩ := (splitOnce_eq_some ..).1 hs
          cases ha : parseScalePx a with
          | error e => rw [ha] at h; simp at h
          | ok w =>
            rw [ha] at h; simp only at h
            cases hb : parseScalePx b with
            | error e => rw [hb] at h; simp at h
            | ok hh =>
              rw [hb] at h; simp only [Except.ok.injEq] at h
              subst h
              obtain ⟨a1, a2⟩ := (parseScalePx_ok ..).1 ha
              obtain ⟨b1, b2⟩ := (parseScalePx_ok ..).1 hb
              refine ⟨rfl, ?_⟩
              have := ScaleText.aspect (upscale := up) a b w hh a1 b1 a2 b2
              simpa using this
    · rintro ⟨rfl, h⟩
      obtain ⟨sc, up⟩ := z
      simp only at h ⊢
      generalize hs : '!' :: r = s at h
      cases h with
      | max => simp at hs
      | percentage t p => simp at hs
      | width t w hu => exact absurd hs.symm (head_not '!' nb (by decide) hu _ _)
      | height t h' => simp at hs
      | both tw th w h' hu => 
        rw [List.append_assoc] at hs
        exact absurd hs.symm (head_not '!' nb (by decide) hu _ _)
      | aspect tw th w h' hw hh pw ph =>
        have hr' : r = tw ++ lit "," ++ th := by simpa using hs
        subst hr'
        have hne : tw ++ lit "," ++ th ≠ lit "," := by
          intro e
          obtain ⟨c, q, rfl, _⟩ := hw.head
          have := congrArg List.length e
          simp at this
        rw [if_neg hne]
        have hsp : splitOnce ',' (tw ++ lit "," ++ th) = some (tw, th) := by
          rw [splitOnce_eq_some]; exact ⟨by simp, hw.noSep⟩
        rw [hsp]
        simp only [if_true, (parseScalePx_ok ..).2 ⟨hw, pw⟩, (parseScalePx_ok ..).2 ⟨hh, ph⟩]
  · rw [hr]; simp only
    constructor
    · intro h
      split at h
      · simp at h
      · rename_i hcomma
        cases hs : splitOnce ',' s with
        | none => rw [hs] at h; simp at h
        | some p =>
          obtain ⟨a, b⟩ := p
          rw [hs] at h; simp only [Bool.false_eq_true, if_false] at h
          obtain ⟨rfl, hna⟩ := (splitOnce_eq_some ..).1 hs
          cases ha : parseOptPx a with
          | error e => rw [ha] at h; simp at h
          | ok w =>
            rw [ha] at h; simp only at h
            cases hb : parseOptPx b with
            | error e => rw [hb] at h; simp at h
            | ok hh =>
              rw [hb] at h; simp only [Except.ok.injEq] at h
              subst h
              refine ⟨rfl, ?_⟩
              rcases (parseOptPx_ok ..).1 ha with ⟨rfl, rfl⟩ | ⟨w', rfl, a1, a2⟩
              · rcases (parseOptPx_ok ..).1 hb with ⟨rfl, rfl⟩ | ⟨h', rfl, b1, b2⟩
                · simp at hcomma
                · exact .height b h' b1 b2
              · rcases (parseOptPx_ok ..).1 hb with ⟨rfl, rfl⟩ | ⟨h', rfl, b1, b2⟩
                · exact .width a w' a1 a2
                · have := ScaleText.both (upscale := up) a b w' h' a1 b1 a2 b2
                  simpa using this
    · rintro ⟨rfl, h⟩
      obtain ⟨sc, up⟩ := z
      simp only at h ⊢
      cases h with
      | max => exact absurd rfl h1
      | percentage t p => exact absurd rfl (h2 t)
      | width t w hu pw =>
        have hne : t ++ lit "," ≠ lit "," := by
          intro e
          obtain ⟨c, q, rfl, _⟩ := hu.head
          have := congrArg List.length e
          simp at this
        rw [if_neg hne]
        have hsp : splitOnce ',' (t ++ lit ",") = some (t, []) := by
          rw [splitOnce_eq_some]; exact ⟨by simp, hu.noSep⟩
        rw [hsp]
        simp only [Bool.false_eq_true, if_false, (parseOptPx_ok t (some w)).2 (Or.inr ⟨w, rfl, hu, pw⟩),
          (parseOptPx_ok [] none).2 (Or.inl ⟨rfl, rfl⟩)]
      | height t h' hu ph =>
        have hne : lit "," ++ t ≠ lit "," := by
          intro e
          obtain ⟨c, q, rfl, _⟩ := hu.head
          have := congrArg List.length e
          simp at this
        rw [if_neg hne]
        have hsp : splitOnce ',' (lit "," ++ t) = some ([], t) := by
          rw [splitOnce_eq_some]; exact ⟨by simp, by simp⟩
        rw [hsp]
        simp only [Bool.false_eq_true, if_false, (parseOptPx_ok t (some h')).2 (Or.inr ⟨h', rfl, hu, ph⟩),
          (parseOptPx_ok [] none).2 (Or.inl ⟨rfl, rfl⟩)]
      | both tw th w h' hw hh pw ph =>
        have hne : tw ++ lit "," ++ th ≠ lit "," := by
          intro e
          obtain ⟨c, q, rfl, _⟩ := hw.head
          have := congrArg List.length e
          simp at this
        rw [if_neg hne]
        have hsp : splitOnce ',' (tw ++ lit "," ++ th) = some (tw, th) := by
          rw [splitOnce_eq_some]; exact ⟨by simp, hw.noSep⟩
        rw [hsp]
        simp only [Bool.false_eq_true, if_false, (parseOptPx_ok tw (some w)).2 (Or.inr ⟨w, rfl, hw, pw⟩),
          (parseOptPx_ok th (some h')).2 (Or.inr ⟨h', rfl, hh, ph⟩)]
      | aspect tw th w h' => exact absurd rfl (hn (tw ++ lit "," ++ th))

theorem parseScalePercent_ok (up : Bool) (t : Str) (z : Size) (hlen : t.length ≤ 65000) :
    parseScalePercent t up = .ok z ↔
    z.upscale = up ∧ ∃ p, z.scale = .percentage p ∧ FloatText t p ∧ p.Positive ∧ (up = true ∨ p.Within 100) := by
  unfold parseScalePercent
  cases h : parseF32 t with
  | none =>
    simp only [reduceCtorEq, false_iff]
    rintro ⟨_, p, _, hf, _⟩
    rw [← parseF32_iff _ _ hlen, h] at hf; simp at hf
  | some f =>
    have hf := (parseF32_iff t f hlen).1 h
    simp only
    split
    · rename_i hc
      simp only [Bool.and_eq_true, Bool.or_eq_true] at hc
      rw [F32.lt_zero_iff] at hc
      rw [F32.pos_le100_iff f hc.1] at hc
      simp only [Except.ok.injEq]
      constructor
      · rintro rfl; exact ⟨rfl, f, rfl, hf, hc.1, hc.2.symm⟩
      · rintro ⟨rfl, p, hs, hp, _⟩
        rw [← parseF32_iff _ _ hlen, h] at hp; simp at hp; subst hp
        cases z; simp_all
    · rename_i hc
      simp only [reduceCtorEq, false_iff]
      rintro ⟨_, p, _, hp, hpos, hw⟩
      rw [← parseF32_iff _ _ hlen, h] at hp; simp at hp; subst hp
      apply hc
      simp only [Bool.and_eq_true, Bool.or_eq_true]
      rw [F32.lt_zero_iff, F32.pos_le100_iff f hpos]
      exact ⟨hpos, hw.symm⟩

/-- everything after the `^` -/
theorem parseSizeBody_ok (up : Bool) (s : Str) (z : Size) (hlen : s.length ≤ 65000) :
    (if s = lit "max" then Except.ok (⟨.max, up⟩ : Size)
     else match stripPrefix (lit "pct:") s with
      | some p => parseScalePercent p up
      | none => parseSizePx up s) = .ok z ↔ z.upscale = up ∧ ScaleText up s z.scale := by
  split
  · rename_i h; subst h
    simp only [Except.ok.injEq]
    constructor
    · rintro rfl; exact ⟨rfl, .max⟩
    · rintro ⟨rfl, h⟩
      obtain ⟨sc, up⟩ := z
      simp only at h ⊢
      generalize hs : lit "max" = s at h
      cases h with
      | max => rfl
      | percentage t p => simp at hs
      | width t w hu => exact absurd (hs.symm) (head_not 'm' (by rw [isDigit_iff]; decide) (by decide) hu _ _)
      | height t h => simp at hs
      | both tw th w h hu =>
        rw [List.append_assoc] at hs
        exact absurd (hs.symm) (head_not 'm' (by rw [isDigit_iff]; decide) (by decide) hu _ _)
      | aspect tw th => simp at hs
  · rename_i hmax
    split
    · rename_i p hp
      rw [stripPrefix_eq_some] at hp; subst hp
      rw [parseScalePercent_ok up p z (by simp only [List.length_append] at hlen; omega)]
      constructor
      · rintro ⟨rfl, f, hs, hf, hpos, hw⟩
        exact ⟨rfl, by rw [hs]; exact .percentage p f hf hpos hw⟩
      · rintro ⟨rfl, h⟩
        refine ⟨rfl, ?_⟩
        generalize hs : lit "pct:" ++ p = s at h
        generalize hz : z.scale = sc at h
        cases h with
        | max => simp at hs
        | percentage t f hf hpos hw =>
          have : p = t := by simpa using hs
          subst this
          exact ⟨f, rfl, hf, hpos, hw⟩
        | width t w hu =>
          exact absurd (hs.symm) (head_not 'p' (by rw [isDigit_iff]; decide) (by decide) hu _ _)
        | height t h => simp at hs
        | both tw th w h hu =>
          rw [List.append_assoc] at hs
          exact absurd (hs.symm) (head_not 'p' (by rw [isDigit_iff]; decide) (by decide) hu _ _)
        | aspect tw th => simp at hs
    · rename_i hp
      rw [stripPrefix_eq_none] at hp
      exact parseSizePx_ok up s z hmax hp

theorem ScaleText.noCaret {up : Bool} {s : Str} {sc : Scale} (h : ScaleText up s sc) (r : Str) :
    s ≠ '^' :: r := by
  have nd : ¬ IsDigit '^' := by rw [isDigit_iff]; decide
  cases h with
  | max => simp
  | percentage t p => simp
  | width t w hu => exact head_not '^' nd (by decide) hu _ _
  | height t h => simp
  | both tw th w h hu => rw [List.append_assoc]; exact head_not '^' nd (by decide) hu _ _
  | aspect tw th => simp

theorem parseSize_iff (s : Str) (z : Size) (hlen : s.length ≤ 65000) :
    parseSize s = .ok z ↔ SizeText s z := by
  unfold parseSize
  rcases stripChar_cases '^' s with ⟨r, rfl, hr⟩ | ⟨hn, hr⟩
  · rw [hr]
    refine (parseSizeBody_ok true r z (by simp only [List.length_cons] at hlen; omega)).trans ?_
    constructor
    · rintro ⟨hu, hsc⟩
      obtain ⟨sc, up⟩ := z
      simp only at hu hsc; subst hu
      exact .upscaled r sc hsc
    · intro h
      generalize hs : '^' :: r = s at h
      cases h with
      | plain _ sc hsc => exact absurd hs.symm (hsc.noCaret r)
      | upscaled t sc hsc =>
        have : r = t := by simpa using hs
        subst this; exact ⟨rfl, hsc⟩
  · rw [hr]
    refine (parseSizeBody_ok false s z hlen).trans ?_
    constructor
    · rintro ⟨hu, hsc⟩
      obtain ⟨sc, up⟩ := z
      simp only at hu hsc; subst hu
      exact .plain s sc hsc
    · intro h
      cases h with
      | plain _ sc hsc => exact ⟨rfl, hsc⟩
      | upscaled t sc hsc => exact absurd rfl (hn t)

theorem parseRotation_iff (s : Str) (r : Rotation) (hlen : s.length ≤ 65000) :
    parseRotation s = .ok r ↔ RotationText s r := by
  have body : ∀ (m : Bool) (t : Str), t.length ≤ 65000 →
      ((match parseF32 t with
        | none => Except.error (ParseError.rotationAngleUnparsable t)
        | some degrees =>
          if F32.le F32.zero degrees && F32.le degrees F32.threeSixty then .ok (⟨degrees, m⟩ : Rotation)
          else .error (.rotationOutOfBounds t)) = .ok r ↔
        r.mirror = m ∧ FloatText t r.degrees ∧ r.degrees.Within 360) := by
    intro m t hl
    cases h : parseF32 t with
    | none =>
      simp only [reduceCtorEq, false_iff]
      rintro ⟨_, hf, _⟩
      rw [← parseF32_iff _ _ hl, h] at hf; simp at hf
    | some f =>
      simp only
      split
      · rename_i hc; rw [F32.within360_iff] at hc
        simp only [Except.ok.injEq]
        constructor
        · rintro rfl; exact ⟨rfl, (parseF32_iff t f hl).1 h, hc⟩
        · rintro ⟨rfl, hp, _⟩
          rw [← parseF32_iff _ _ hl, h] at hp; simp at hp; subst hp; rfl
      · rename_i hc; rw [F32.within360_iff] at hc
        simp only [reduceCtorEq, false_iff]
        rintro ⟨_, hp, hw⟩
        rw [← parseF32_iff _ _ hl, h] at hp; simp at hp; subst hp; exact hc hw
  unfold parseRotation
  rcases stripChar_cases '!' s with ⟨t, rfl, hr⟩ | ⟨hn, hr⟩
  · rw [hr]
    refine (body true t (by simp only [List.length_cons] at hlen; omega)).trans ?_
    constructor
    · rintro ⟨hm, hf, hw⟩
      obtain ⟨d, m⟩ := r
      simp only at hm hf hw; subst hm
      exact .mirrored t d hf hw
    · intro h
      generalize hs : '!' :: t = s at h
      cases h with
      | plain _ d hf hw => exact absurd (hs ▸ List.mem_cons_self : '!' ∈ s) hf.noBang
      | mirrored t' d hf hw =>
        have : t = t' := by simpa using hs
        subst this; exact ⟨rfl, hf, hw⟩
  · rw [hr]
    refine (body false s hlen).trans ?_
    constructor
    · rintro ⟨hm, hf, hw⟩
      obtain ⟨d, m⟩ := r
      simp only at hm hf hw; subst hm
      exact .plain s d hf hw
    · intro h
      cases h with
      | plain _ d hf hw => exact ⟨rfl, hf, hw⟩
      | mirrored t d hf hw => exact absurd rfl (hn t)

theorem parseQuality_iff (s : Str) (q : Quality) : parseQuality s = .ok q ↔ s = qualityName q := by
  unfold parseQuality
  constructor
  · intro h
    repeat' split at h
    all_goals first
      | (simp at h; subst h; assumption)
      | simp at h
  · rintro rfl; cases q <;> rfl

theorem parseFormat_iff (s : Str) (q : Format) : parseFormat s = .ok q ↔ s = formatName q := by
  unfold parseFormat
  constructor
  · intro h
    repeat' split at h
    all_goals first
      | (simp at h; subst h; assumption)
      | simp at h
  · rintro rfl; cases q <;> rfl

end Laya

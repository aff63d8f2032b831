import Verif.Laya.Http
import Verif.Laya.HttpSpec
import Verif.Laya.ParseLemmas
/-! Helper lemmas for path decoding. -/
namespace Laya
open F32

theorem U32Text.noSlash {t : Str} {n : Nat} (h : U32Text t n) : '/' ∉ t :=
  h.noComma '/' (by rw [isDigit_iff]; decide) (by decide)

theorem RegionText.noSlash {t : Str} {r : Region} (h : RegionText t r) : '/' ∉ t := by
  cases h with
  | full => simp
  | square => simp
  | absolute tx ty tw th x y w h h1 h2 h3 h4 =>
    simp [h1.noSlash, h2.noSlash, h3.noSlash, h4.noSlash]
  | percentage tx ty tw th x y w h h1 h2 h3 h4 =>
    simp [h1.noSlash, h2.noSlash, h3.noSlash, h4.noSlash]

theorem ScaleText.noSlash {u : Bool} {t : Str} {s : Scale} (h : ScaleText u t s) : '/' ∉ t := by
  cases h with
  | max => simp
  | percentage t p h => simp [h.noSlash]
  | width t w h => simp [h.noSlash]
  | height t w h => simp [h.noSlash]
  | both a b _ _ h1 h2 => simp [h1.noSlash, h2.noSlash]
  | aspect a b _ _ h1 h2 => simp [h1.noSlash, h2.noSlash]

theorem SizeText.noSlash {t : Str} {s : Size} (h : SizeText t s) : '/' ∉ t := by
  cases h with
  | plain _ _ h => exact h.noSlash
  | upscaled t sc h => simp [h.noSlash]

theorem RotationText.noSlash {t : Str} {r : Rotation} (h : RotationText t r) : '/' ∉ t := by
  cases h with
  | plain _ _ h => exact h.noSlash
  | mirrored t _ h => simp [h.noSlash]

theorem qualityName_chars (q : Quality) : '/' ∉ qualityName q ∧ '.' ∉ qualityName q := by
  cases q <;> simp [qualityName]

theorem formatName_chars (q : Format) : '/' ∉ formatName q := by
  cases q <;> simp [formatName]

theorem decodeSegments_ok (fmt : F32 → Str) (l : List Str) (r : ImageRequest) :
    decodeSegments fmt l = .ok r ↔
    ∃ s1 s2 s3 s4 s5 rest q f, l = s1 :: s2 :: s3 :: s4 :: s5 :: rest ∧
      urlDecode s1 = some r.identifier ∧ parseRegion fmt s2 = .ok r.region ∧
      parseSize s3 = .ok r.size ∧ parseRotation s4 = .ok r.rotation ∧
      splitOnce '.' s5 = some (q, f) ∧ parseQuality q = .ok r.quality ∧ parseFormat f = .ok r.format := by
  constructor
  · intro h
    unfold decodeSegments at h
    repeat' split at h
    all_goals first
      | (simp at h; done)
      | skip
    simp only [Except.ok.injEq] at h
    subst h
    exact ⟨_, _, _, _, _, _, _, _, rfl, by assumption, by assumption, by assumption, by assumption,
      by assumption, by assumption, by assumption⟩
  · rintro ⟨s1, s2, s3, s4, s5, rest, q, f, rfl, h1, h2, h3, h4, h5, h6, h7⟩
    simp only [decodeSegments, h1, h2, h3, h4, h5, h6, h7]

theorem decode_debug_ok (fmt : F32 → Str) (path : Str) (r : ImageRequest) :
    decodeImageRequest true fmt path = .ok r ↔
    ∃ l, split '/' path = [] :: l ∧ decodeSegments fmt l = .ok r := by
  simp only [decodeImageRequest, if_true]
  constructor
  · intro h
    split at h
    · rename_i rest hs
      split at h
      · simp at h
      · rename_i r' hr; simp at h; subst h; exact ⟨rest, hs, hr⟩
    · simp at h
  · rintro ⟨l, hs, hr⟩
    rw [hs]; simp [hr]

theorem join_cons (c : Char) (a : Str) (l : List Str) :
    join c (a :: l) = a ++ (if l = [] then [] else c :: join c l) := by
  cases l <;> simp [join]

theorem mem_split_length (c : Char) (s p : Str) (h : p ∈ split c s) : p.length ≤ s.length := by
  induction s generalizing p with
  | nil => simp [split] at h; simp [h]
  | cons x xs ih =>
    simp only [split] at h
    split at h
    · rcases List.mem_cons.1 h with rfl | h
      · simp
      · have := ih p h; simp; omega
    · cases hs : split c xs with
      | nil => exact absurd hs (split_ne_nil _ _)
      | cons q qs =>
        rw [hs] at h ih
        rcases List.mem_cons.1 h with rfl | h
        · have := ih q (by simp); simp; omega
        · have := ih p (by simp [h]); simp; omega

/-- the segments of the template -/
theorem split_template (tid trg tsz trt q tail : Str) (h1 : '/' ∉ tid) (h2 : '/' ∉ trg)
    (h3 : '/' ∉ tsz) (h4 : '/' ∉ trt) (h5 : '/' ∉ q) (ht : tail = [] ∨ ∃ t, tail = '/' :: t) :
    ∃ rest, split '/' (lit "/" ++ tid ++ lit "/" ++ trg ++ lit "/" ++ tsz ++ lit "/" ++ trt ++ lit "/" ++
      q ++ tail) = [] :: tid :: trg :: tsz :: trt :: q :: rest := by
  obtain ⟨rest, hsp⟩ : ∃ rest, split '/' (q ++ tail) = q :: rest := by
    rcases ht with rfl | ⟨t, rfl⟩
    · exact ⟨[], by simp [split_no '/' q h5]⟩
    · exact ⟨_, split_append '/' q t h5⟩
  refine ⟨rest, ?_⟩
  have e : lit "/" ++ tid ++ lit "/" ++ trg ++ lit "/" ++ tsz ++ lit "/" ++ trt ++ lit "/" ++ q ++ tail
      = [] ++ '/' :: (tid ++ '/' :: (trg ++ '/' :: (tsz ++ '/' :: (trt ++ '/' :: (q ++ tail))))) := by
    simp
  rw [e, split_append _ _ _ (by simp), split_append _ _ _ h1, split_append _ _ _ h2,
    split_append _ _ _ h3, split_append _ _ _ h4, hsp]

theorem PathText.decodes (fmt : F32 → Str) (path : Str) (r : ImageRequest)
    (hlen : ∀ p ∈ (split '/' path).drop 2, p.length ≤ 65000) (h : PathText path r) :
    decodeImageRequest true fmt path = .ok r := by
  obtain ⟨tid, trg, tsz, trt, tail, rfl, h1, h2, h3, h4, h5, h6⟩ := h
  obtain ⟨rest, hs⟩ := split_template tid trg tsz trt (qualityName r.quality ++ lit "." ++ formatName r.format)
    tail h1 h3.noSlash h4.noSlash h5.noSlash
    (by simp [(qualityName_chars _).1, formatName_chars]) h6
  rw [decode_debug_ok]
  simp only [← List.append_assoc] at hs
  rw [hs] at hlen ⊢
  refine ⟨_, rfl, ?_⟩
  rw [decodeSegments_ok]
  refine ⟨tid, trg, tsz, trt, _, rest, qualityName r.quality, formatName r.format, rfl,
    (urlDecode_iff _ _).2 h2, (parseRegion_iff _ _ _ (hlen _ (by simp))).2 h3,
    (parseSize_iff _ _ (hlen _ (by simp))).2 h4, (parseRotation_iff _ _ (hlen _ (by simp))).2 h5, ?_,
    (parseQuality_iff _ _).2 rfl, (parseFormat_iff _ _).2 rfl⟩
  rw [splitOnce_eq_some]
  exact ⟨by simp, (qualityName_chars _).2⟩

theorem decodes.pathText (fmt : F32 → Str) (path : Str) (r : ImageRequest)
    (hlen : path.length ≤ 65000) (h : decodeImageRequest true fmt path = .ok r) : PathText path r := by
  obtain ⟨l, hs, hd⟩ := (decode_debug_ok fmt path r).1 h
  obtain ⟨s1, s2, s3, s4, s5, rest, q, f, rfl, h1, h2, h3, h4, h5, h6, h7⟩ := (decodeSegments_ok fmt l r).1 hd
  have hl : ∀ p ∈ split '/' path, p.length ≤ 65000 := fun p hp =>
    Nat.le_trans (mem_split_length '/' path p hp) hlen
  rw [hs] at hl
  have hpath := join_split '/' path
  rw [hs] at hpath
  obtain ⟨h5', _⟩ := (splitOnce_eq_some ..).1 h5
  rw [parseQuality_iff] at h6
  rw [parseFormat_iff] at h7
  refine ⟨s1, s2, s3, s4, (if rest = [] then [] else '/' :: join '/' rest), ?_, ?_, ?_, ?_, ?_, ?_, ?_⟩
  · rw [← hpath, ← h6, ← h7]
    simp [join_cons, h5']
  · exact split_pieces '/' path s1 (by rw [hs]; simp)
  · exact (urlDecode_iff _ _).1 h1
  · exact (parseRegion_iff _ _ _ (hl _ (by simp))).1 h2
  · exact (parseSize_iff _ _ (hl _ (by simp))).1 h3
  · exact (parseRotation_iff _ _ (hl _ (by simp))).1 h4
  · by_cases hr : rest = []
    · simp [hr]
    · right; simp [hr]

/-! ### all errors can be displayed -/

theorem selectorLoop_err {T : Type} (parse : Str → Option T) (validate : T → Nat → Except ParseError T)
    (input : Str) (hv : ∀ v i e, i < 4 → validate v i = .error e → e.display.isSome)
    (todo idx : Nat) (hidx : idx + todo ≤ 4) (ps : List Str) (e : ParseError)
    (h : selectorLoop parse validate input todo idx ps = .error e) : e.display.isSome := by
  induction todo generalizing idx ps with
  | zero => simp [selectorLoop] at h
  | succ n ih =>
    cases ps with
    | nil => simp [selectorLoop] at h; subst h; rfl
    | cons s rest =>
      simp only [selectorLoop] at h
      split at h
      · simp at h; subst h
        have : idx = 0 ∨ idx = 1 ∨ idx = 2 ∨ idx = 3 := by omega
        rcases this with rfl | rfl | rfl | rfl <;> rfl
      · rename_i v _
        split at h
        · rename_i e' he
          simp at h; subst h
          exact hv v idx _ (by omega) he
        · split at h
          · rename_i he
            simp at h; subst h
            exact ih (idx + 1) (by omega) rest he
          · simp at h

theorem parseRegionSelectors_err {T : Type} (parse : Str → Option T)
    (validate : T → Nat → Except ParseError T) (input : Str)
    (hv : ∀ v i e, i < 4 → validate v i = .error e → e.display.isSome) (e : ParseError)
    (h : parseRegionSelectors parse validate input = .error e) : e.display.isSome := by
  unfold parseRegionSelectors at h
  split at h
  · rename_i he; simp at h; subst h
    exact selectorLoop_err parse validate input hv 4 0 (by omega) _ _ he
  · simp at h; subst h; rfl
  · simp at h

theorem selectorName_isSome (i : Nat) (h : i < 4) : (selectorName i).isSome := by
  have : i = 0 ∨ i = 1 ∨ i = 2 ∨ i = 3 := by omega
  rcases this with rfl | rfl | rfl | rfl <;> rfl

theorem validateU32_err (v : Nat) (i : Nat) (e : ParseError) (hi : i < 4)
    (h : validateU32 v i = .error e) : e.display.isSome := by
  unfold validateU32 at h
  split at h
  · simp at h
  · simp at h; subst h; simp [ParseError.display, selectorName_isSome i hi]

theorem validateF32_err (fmt : F32 → Str) (v : F32) (i : Nat) (e : ParseError) (hi : i < 4)
    (h : validateF32 fmt v i = .error e) : e.display.isSome := by
  unfold validateF32 at h
  split at h
  · simp at h
  · simp at h; subst h; simp [ParseError.display, selectorName_isSome i hi]

theorem parseRegion_err (fmt : F32 → Str) (s : Str) (e : ParseError) (h : parseRegion fmt s = .error e) :
    e.display.isSome := by
  unfold parseRegion at h
  split at h
  · simp at h
  · split at h
    · simp at h
    · split at h
      · split at h
        · rename_i he; simp at h; subst h
          exact parseRegionSelectors_err _ _ _ (validateF32_err fmt) _ he
        · simp at h
        · simp at h; subst h; rfl
      · split at h
        · rename_i he; simp at h; subst h
          exact parseRegionSelectors_err _ _ _ validateU32_err _ he
        · simp at h
        · simp at h; subst h; rfl

theorem parseScalePx_err (s : Str) (e : ParseError) (h : parseScalePx s = .error e) :
    e.display.isSome := by
  unfold parseScalePx at h
  repeat' split at h
  all_goals (simp at h; try (subst h; rfl))

theorem parseOptPx_err (s : Str) (e : ParseError) (h : parseOptPx s = .error e) :
    e.display.isSome := by
  unfold parseOptPx at h
  split at h
  · simp at h
  · split at h
    · rename_i he; simp at h; subst h; exact parseScalePx_err _ _ he
    · simp at h

theorem parseSize_err (s : Str) (e : ParseError) (h : parseSize s = .error e) : e.display.isSome := by
  unfold parseSize at h
  simp only at h
  split at h
  · simp at h
  · split at h
    · unfold parseScalePercent at h
      repeat' split at h
      all_goals (simp at h; try (subst h; rfl))
    · unfold parseSizePx at h
      simp only at h
      split at h
      · simp at h; subst h; rfl
      · split at h
        · simp at h; subst h; rfl
        · split at h
          · split at h
            · rename_i he; simp at h; subst h; exact parseScalePx_err _ _ he
            · split at h
              · rename_i he; simp at h; subst h; exact parseScalePx_err _ _ he
              · simp at h
          · split at h
            · rename_i he; simp at h; subst h; exact parseOptPx_err _ _ he
            · split at h
              · rename_i he; simp at h; subst h; exact parseOptPx_err _ _ he
              · simp at h

theorem parseRotation_err (s : Str) (e : ParseError) (h : parseRotation s = .error e) :
    e.display.isSome := by
  unfold parseRotation at h
  simp only at h
  repeat' split at h
  all_goals (simp at h; try (subst h; rfl))

theorem parseQuality_err (s : Str) (e : ParseError) (h : parseQuality s = .error e) :
    e.display.isSome := by
  unfold parseQuality at h
  repeat' split at h
  all_goals (simp at h; try (subst h; rfl))

theorem parseFormat_err (s : Str) (e : ParseError) (h : parseFormat s = .error e) :
    e.display.isSome := by
  unfold parseFormat at h
  repeat' split at h
  all_goals (simp at h; try (subst h; rfl))

theorem decodeSegments_err (fmt : F32 → Str) (l : List Str) (e : ImageRequestError)
    (h : decodeSegments fmt l = .error e) : e.display.isSome := by
  unfold decodeSegments at h
  repeat' split at h
  all_goals first
    | (simp at h; done)
    | (simp only [Except.error.injEq] at h; subst h; first
        | rfl
        | (rename_i he; first
            | exact parseRegion_err _ _ _ he
            | exact parseSize_err _ _ he
            | exact parseRotation_err _ _ he
            | exact parseQuality_err _ _ he
            | exact parseFormat_err _ _ he))

/-! ### numerals for every value -/

theorem toDigits_digits (n : Nat) : ∀ c ∈ Nat.toDigits 10 n, IsDigit c := by
  intro c hc
  have := Nat.isDigit_of_mem_toDigits (by omega) (by omega) hc
  unfold Char.isDigit at this
  simp only [ge_iff_le, Bool.and_eq_true, decide_eq_true_eq] at this
  rw [isDigit_iff]
  have h1 : c.toNat = c.val.toNat := rfl
  rw [h1]
  simp only [UInt32.le_iff_toNat_le] at this
  exact this

theorem decVal_toDigits (n : Nat) : decVal (Nat.toDigits 10 n) = n := by
  have := @Nat.ofDigitChars_ten_toDigits n
  rw [Nat.ofDigitChars_eq_foldl] at this
  exact this

theorem u32Text_fmt (n : Nat) (h : n < 2 ^ 32) : U32Text (fmtU32 n) n :=
  ⟨_, Or.inl rfl, Nat.toDigits_ne_nil, toDigits_digits n, decVal_toDigits n, h⟩

theorem nearest_self (k : Nat) : Nearest (mag k) k := by
  intro j hj
  left
  rw [sub_self, abs_zero, abs_pos, sub_ne_zero]
  rcases Nat.lt_or_gt_of_ne hj with h | h
  · exact (mag_strictMono h).ne'
  · exact (mag_strictMono h).ne

theorem units_bound (k : Nat) (h : k < infBits) : units k < 10 ^ 100 := by
  refine Nat.lt_of_lt_of_le (units_strictMono h) ?_
  decide +kernel

/-- Every non-NaN f32 (sign `neg`, pattern `k`) has a text, of fewer than 300 characters. -/
theorem floatText_exists (neg : Bool) (k : Nat) (h : k ≤ infBits) :
    ∃ t, FloatText t (.num neg k) ∧ t.length ≤ 300 := by
  have hsg : ∃ sg : Str, (sg = [] ∨ sg = ['+'] ∨ sg = ['-']) ∧ decide (sg = ['-']) = neg ∧ sg.length ≤ 1 := by
    cases neg
    · exact ⟨[], by simp, by simp, by simp⟩
    · exact ⟨['-'], by simp, by simp, by simp⟩
  obtain ⟨sg, h1, h2, h3⟩ := hsg
  rcases Nat.lt_or_ge k infBits with hk | hk
  · let m := units k * 5 ^ 149
    have hu : UnsignedText (Nat.toDigits 10 m ++ lit "e-149") (.exact ((decVal (Nat.toDigits 10 m) : ℚ) * 10 ^ (-149 : Int))) :=
      .int _ _ _ Nat.toDigits_ne_nil (toDigits_digits m)
        (.minus 'e' (lit "149") (Or.inl rfl) (by simp) (by simp [isDigit_iff]))
    have hx : ((decVal (Nat.toDigits 10 m) : ℚ) * 10 ^ (-149 : Int)) = mag k := by
      rw [decVal_toDigits]
      unfold mag
      show ((units k * 5 ^ 149 : Nat) : ℚ) * _ = _
      rw [Nat.cast_mul, zpow_neg, zpow_ofNat, ← div_eq_mul_inv,
        show ((5 ^ 149 : Nat) : ℚ) = 5 ^ 149 by rw [Nat.cast_pow]; rfl,
        show (10 : ℚ) ^ 149 = 2 ^ 149 * 5 ^ 149 by rw [← mul_pow]; norm_num,
        mul_div_mul_right _ _ (by positivity)]
    rw [hx] at hu
    refine ⟨_, h2 ▸ FloatText.exact _ sg _ k h1 hu ⟨k, nearest_self k, by omega⟩, ?_⟩
    have hm : m < 10 ^ 250 := by
      have a := units_bound k hk
      have b : (5 : Nat) ^ 149 ≤ 10 ^ 149 := Nat.pow_le_pow_left (by omega) _
      calc m = units k * 5 ^ 149 := rfl
        _ ≤ units k * 10 ^ 149 := Nat.mul_le_mul_left _ b
        _ < 10 ^ 100 * 10 ^ 149 := Nat.mul_lt_mul_of_pos_right a (by positivity)
        _ = 10 ^ 249 := by rw [← Nat.pow_add]
        _ ≤ 10 ^ 250 := Nat.pow_le_pow_right (by omega) (by omega)
    have := (Nat.length_toDigits_le_iff (b := 10) (n := m) (k := 250) (by omega) (by omega)).2 hm
    have e : (lit "e-149").length = 5 := by decide
    simp only [List.length_append, e]
    omega
  · have : k = infBits := by omega
    subst this
    refine ⟨_, h2 ▸ FloatText.inf (lit "inf") sg h1 (.inf _ (Or.inl (by decide))), ?_⟩
    have e : (lit "inf").length = 3 := by decide
    simp only [List.length_append, e]; omega

end Laya

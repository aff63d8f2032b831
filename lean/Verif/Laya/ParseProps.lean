import Verif.Laya.ParseErrLemmas
import Verif.Laya.HttpLemmas
/-!
# Property theorems about the parameter parsers (C01–C07, C19, C20)

Texts of at most 65000 characters: the bound exists only because `f32::from_str` stops accumulating
exponent digits at `0x10000`; integer-only statements carry no bound.
-/
namespace Laya

/-- **C01.** A region parses to `r` exactly when the IIIF region grammar says the text denotes `r`. -/
theorem C01_region_grammar (fmt : F32 → Str) (s : Str) (hlen : s.length ≤ 65000) (r : Region) :
    parseRegion fmt s = .ok r ↔ RegionText s r :=
  parseRegion_iff fmt s r hlen

example : RegionText (lit "+10,20,4294967295,7") (.absolute 10 20 4294967295 7) :=
  .absolute (lit "+10") (lit "20") (lit "4294967295") (lit "7") _ _ _ _
    ((parseU32_iff _ _).1 (by decide)) ((parseU32_iff _ _).1 (by decide))
    ((parseU32_iff _ _).1 (by decide)) ((parseU32_iff _ _).1 (by decide)) (by decide) (by decide)
example (fmt : F32 → Str) : parseRegion fmt (lit "1,2,3,4294967296")
    = .error (.regionSelectorUnparsable (lit "4294967296") 3) := by rfl

/-- **C02.** A region that parses denotes a non-empty area: pixel width and height are at least 1 and
all numbers fit `u32`; percentages are all greater than zero (in particular none is NaN). -/
theorem C02_region_valid (fmt : F32 → Str) (s : Str) (hlen : s.length ≤ 65000) (r : Region)
    (h : parseRegion fmt s = .ok r) :
    match r with
    | .full => True
    | .square => True
    | .absolute x y w h => x < 2 ^ 32 ∧ y < 2 ^ 32 ∧ 1 ≤ w ∧ w < 2 ^ 32 ∧ 1 ≤ h ∧ h < 2 ^ 32
    | .percentage x y w h => x.Positive ∧ y.Positive ∧ w.Positive ∧ h.Positive := by
  rw [parseRegion_iff fmt s r hlen] at h
  cases h with
  | full => trivial
  | square => trivial
  | absolute tx ty tw th x y w h hx hy hw hh pw ph =>
    obtain ⟨_, _, _, _, _, hx⟩ := hx
    obtain ⟨_, _, _, _, _, hy⟩ := hy
    obtain ⟨_, _, _, _, _, hw⟩ := hw
    obtain ⟨_, _, _, _, _, hh⟩ := hh
    exact ⟨hx, hy, pw, hw, ph, hh⟩
  | percentage tx ty tw th x y w h _ _ _ _ px py pw ph => exact ⟨px, py, pw, ph⟩

example (fmt : F32 → Str) : parseRegion fmt (lit "0,0,1,1") = .ok (.absolute 0 0 1 1) := by rfl

/-- **C03.** A size parses to `z` exactly when the IIIF size grammar says the text denotes `z`. -/
theorem C03_size_grammar (s : Str) (hlen : s.length ≤ 65000) (z : Size) :
    parseSize s = .ok z ↔ SizeText s z :=
  parseSize_iff s z hlen

example : SizeText (lit "^!640,480") ⟨.aspectPreserving 640 480, true⟩ :=
  .upscaled _ _ (.aspect (lit "640") (lit "480") _ _ ((parseU32_iff _ _).1 (by decide))
    ((parseU32_iff _ _).1 (by decide)) (by decide) (by decide))
example : parseSize (lit "!,480") = .error (.sizeDimensionUnparsable []) := by rfl

/-- **C04.** A size that parses is satisfiable: percentages are > 0 and at most 100 unless upscaling
was requested, pixel dimensions are at least 1, and a fixed size names at least one dimension. -/
theorem C04_size_valid (s : Str) (hlen : s.length ≤ 65000) (z : Size) (h : parseSize s = .ok z) :
    match z.scale with
    | .max => True
    | .percentage p => p.Positive ∧ (z.upscale = true ∨ p.Within 100)
    | .fixed w h => (w.isSome ∨ h.isSome) ∧ (∀ n, w = some n → 1 ≤ n ∧ n < 2 ^ 32) ∧
        (∀ n, h = some n → 1 ≤ n ∧ n < 2 ^ 32)
    | .aspectPreserving w h => 1 ≤ w ∧ w < 2 ^ 32 ∧ 1 ≤ h ∧ h < 2 ^ 32 := by
  rw [parseSize_iff s z hlen] at h
  have lt : ∀ {t n}, U32Text t n → n < 2 ^ 32 := fun ⟨_, _, _, _, _, h⟩ => h
  have main : ∀ (up : Bool) (t : Str) (sc : Scale), ScaleText up t sc →
      match sc with
      | .max => True
      | .percentage p => p.Positive ∧ (up = true ∨ p.Within 100)
      | .fixed w h => (w.isSome ∨ h.isSome) ∧ (∀ n, w = some n → 1 ≤ n ∧ n < 2 ^ 32) ∧
          (∀ n, h = some n → 1 ≤ n ∧ n < 2 ^ 32)
      | .aspectPreserving w h => 1 ≤ w ∧ w < 2 ^ 32 ∧ 1 ≤ h ∧ h < 2 ^ 32 := by
    intro up t sc h
    cases h with
    | max => trivial
    | percentage t p _ hp hw => exact ⟨hp, hw⟩
    | width t w hu pw =>
      exact ⟨by simp, by rintro n ⟨⟩; exact ⟨pw, lt hu⟩, by simp⟩
    | height t h hu ph =>
      exact ⟨by simp, by simp, by rintro n ⟨⟩; exact ⟨ph, lt hu⟩⟩
    | both a b w h h1 h2 pw ph =>
      exact ⟨by simp, by rintro n ⟨⟩; exact ⟨pw, lt h1⟩, by rintro n ⟨⟩; exact ⟨ph, lt h2⟩⟩
    | aspect a b w h h1 h2 pw ph => exact ⟨pw, lt h1, ph, lt h2⟩
  cases h with
  | plain _ sc h => exact main false _ sc h
  | upscaled t sc h => exact main true _ sc h

example : parseSize (lit "pct:100") = .ok ⟨.percentage F32.hundred, false⟩ := by decide +kernel
example : parseSize (lit "pct:101") = .error (.sizePercentageOutOfBounds (lit "101")) := by decide +kernel
example : parseSize (lit ",") = .error (.sizeMissingDimensions (lit ",")) := by rfl

/-- **C05.** A rotation parses to `r` exactly when the text is an optional `!` and a float denoting a
finite angle in `[0, 360]`; the mirror flag is exactly the `!`. -/
theorem C05_rotation_grammar (s : Str) (hlen : s.length ≤ 65000) (r : Rotation) :
    parseRotation s = .ok r ↔ RotationText s r :=
  parseRotation_iff s r hlen

example : parseRotation (lit "!360") = .ok ⟨F32.threeSixty, true⟩ := by decide +kernel
example : parseRotation (lit "nan") = .error (.rotationOutOfBounds (lit "nan")) := by rfl
example : parseRotation (lit "360.00002") = .error (.rotationOutOfBounds (lit "360.00002")) := by decide +kernel

/-- **C06.** A quality name is accepted exactly when it is the name of that quality. -/
theorem C06_quality_names (s : Str) (q : Quality) : parseQuality s = .ok q ↔ s = qualityName q :=
  parseQuality_iff s q

/-- **C06.** A format name is accepted exactly when it is the name of that format. -/
theorem C06_format_names (s : Str) (f : Format) : parseFormat s = .ok f ↔ s = formatName f :=
  parseFormat_iff s f

/-- **C06.** Any other text is rejected, and the error carries the text. -/
theorem C06_other_rejected (s : Str) :
    ((∀ q, s ≠ qualityName q) → parseQuality s = .error (.unrecognisedQuality s)) ∧
    ((∀ f, s ≠ formatName f) → parseFormat s = .error (.unrecognisedFormat s)) := by
  constructor
  · intro h
    have h1 := h .color; have h2 := h .gray; have h3 := h .bitonal; have h4 := h .default
    simp only [qualityName] at h1 h2 h3 h4
    simp only [parseQuality, h1, h2, h3, h4, if_false]
  · intro h
    have h1 := h .jpg; have h2 := h .tif; have h3 := h .png; have h4 := h .gif
    have h5 := h .jp2; have h6 := h .pdf; have h7 := h .webp
    simp only [formatName] at h1 h2 h3 h4 h5 h6 h7
    simp only [parseFormat, h1, h2, h3, h4, h5, h6, h7, if_false]

/-- **C06.** Distinct formats have distinct media types, and each is the registered one. -/
theorem C06_mime (f g : Format) : (f.mime = g.mime → f = g) ∧
    f.mime = (match f with
      | .jpg => lit "image/jpeg" | .tif => lit "image/tiff" | .png => lit "image/png"
      | .gif => lit "image/gif" | .jp2 => lit "image/jp2" | .pdf => lit "application/pdf"
      | .webp => lit "image/webp") := by
  constructor
  · cases f <;> cases g <;> first | (intro _; rfl) | (intro h; exact absurd h (by decide))
  · cases f <;> rfl

example : parseFormat (lit "JPG") = .error (.unrecognisedFormat (lit "JPG")) := by rfl

/-- A pixel selector text is acceptable at position `i`: a `u32`, non-zero for width and height. -/
def PxOk (i : Nat) (t : Str) : Prop := ∃ n, U32Text t n ∧ (i ≤ 1 ∨ 0 < n)

theorem good_px (i : Nat) (t : Str) : Good parseU32 validateU32 i t ↔ PxOk i t := by
  unfold Good PxOk
  constructor
  · rintro ⟨v0, v, h1, h2⟩
    rw [validateU32_ok] at h2
    exact ⟨v0, (parseU32_iff _ _).1 h1, h2.2⟩
  · rintro ⟨n, h1, h2⟩
    exact ⟨n, n, (parseU32_iff _ _).2 h1, (validateU32_ok ..).2 ⟨rfl, h2⟩⟩

/-- **C07.** Pixel regions: the error names the first bad selector (its index and, if it is not a
number, its text); if the first four are fine but there are not exactly four, the error carries the
whole region text. Together with C01 this determines the result for every pixel region text. -/
theorem C07_pixel_region_error (fmt : F32 → Str) (pieces : List Str) (s : Str)
    (hp : ∀ p ∈ pieces, ',' ∉ p) (hne : pieces ≠ []) (hs : s = join ',' pieces)
    (h1 : s ≠ lit "full") (h2 : s ≠ lit "square") (h3 : ∀ r, s ≠ lit "pct:" ++ r) :
    (∀ i t, i < 4 → pieces[i]? = some t → (∀ j u, j < i → pieces[j]? = some u → PxOk j u) →
      ((¬ ∃ n, U32Text t n) → parseRegion fmt s = .error (.regionSelectorUnparsable t i)) ∧
      (2 ≤ i → U32Text t 0 → parseRegion fmt s = .error (.regionSelectorOutOfBounds (lit "0") i))) ∧
    ((∀ j u, j < 4 → pieces[j]? = some u → PxOk j u) → pieces.length ≠ 4 →
      parseRegion fmt s = .error (.regionSelectorCount s)) := by
  have hsplit : split ',' s = pieces := by
    obtain ⟨a, l, rfl⟩ := List.exists_cons_of_ne_nil hne
    rw [hs]; exact split_join ',' a l hp
  have red : ∀ e, parseRegionSelectors parseU32 validateU32 s = .error e → parseRegion fmt s = .error e := by
    intro e he
    unfold parseRegion
    rw [if_neg h1, if_neg h2, (stripPrefix_eq_none _ _).2 h3]
    simp only [he]
  constructor
  · intro i t hi ht hg
    have hg' : ∀ j u, j < i → pieces[j]? = some u → Good parseU32 validateU32 j u :=
      fun j u hj hu => (good_px j u).2 (hg j u hj hu)
    constructor
    · intro hno
      refine red _ (selectors_bad parseU32 validateU32 s pieces hsplit i hi t ht hg' _ (Or.inl ⟨?_, rfl⟩))
      cases hq : parseU32 t with
      | none => rfl
      | some n => exact absurd ⟨n, (parseU32_iff t n).1 hq⟩ hno
    · intro h2i h0
      refine red _ (selectors_bad parseU32 validateU32 s pieces hsplit i hi t ht hg' _
        (Or.inr ⟨0, (parseU32_iff _ _).2 h0, ?_⟩))
      unfold validateU32
      rw [if_neg (by omega)]
      rfl
  · intro hg hl
    exact red _ (selectors_count parseU32 validateU32 s pieces hsplit
      (fun j u hj hu => (good_px j u).2 (hg j u hj hu)) hl)

example (fmt : F32 → Str) : parseRegion fmt (lit "1,x,0,z") = .error (.regionSelectorUnparsable (lit "x") 1) := by rfl
example (fmt : F32 → Str) : parseRegion fmt (lit "1,2,0,z") = .error (.regionSelectorOutOfBounds (lit "0") 2) := by rfl
example (fmt : F32 → Str) : parseRegion fmt (lit "1,2,3") = .error (.regionSelectorCount (lit "1,2,3")) := by rfl

/-- A percentage selector text is acceptable: a float greater than zero. -/
def PctOk (t : Str) : Prop := ∃ f, FloatText t f ∧ f.Positive

theorem good_pct (fmt : F32 → Str) (i : Nat) (t : Str) (hl : t.length ≤ 65000) :
    Good parseF32 (validateF32 fmt) i t ↔ PctOk t := by
  unfold Good PctOk
  constructor
  · rintro ⟨v0, v, h1, h2⟩
    rw [validateF32_ok] at h2
    exact ⟨v0, (parseF32_iff _ _ hl).1 h1, h2.2⟩
  · rintro ⟨n, h1, h2⟩
    exact ⟨n, n, (parseF32_iff _ _ hl).2 h1, (validateF32_ok ..).2 ⟨rfl, h2⟩⟩

/-- **C07.** Percentage regions: likewise. -/
theorem C07_pct_region_error (fmt : F32 → Str) (pieces : List Str) (s : Str)
    (hp : ∀ p ∈ pieces, ',' ∉ p ∧ p.length ≤ 65000) (hne : pieces ≠ []) (hs : s = join ',' pieces) :
    (∀ i t, i < 4 → pieces[i]? = some t → (∀ j u, j < i → pieces[j]? = some u → PctOk u) →
      ((¬ ∃ f, FloatText t f) →
        parseRegion fmt (lit "pct:" ++ s) = .error (.regionSelectorUnparsable t i)) ∧
      (∀ f, FloatText t f → ¬ f.Positive →
        parseRegion fmt (lit "pct:" ++ s) = .error (.regionPercentageOutOfBounds (fmt f) i))) ∧
    ((∀ j u, j < 4 → pieces[j]? = some u → PctOk u) → pieces.length ≠ 4 →
      parseRegion fmt (lit "pct:" ++ s) = .error (.regionSelectorCount s)) := by
  have hsplit : split ',' s = pieces := by
    obtain ⟨a, l, rfl⟩ := List.exists_cons_of_ne_nil hne
    rw [hs]; exact split_join ',' a l (fun p h => (hp p h).1)
  have red : ∀ e, parseRegionSelectors parseF32 (validateF32 fmt) s = .error e →
      parseRegion fmt (lit "pct:" ++ s) = .error e := by
    intro e he
    unfold parseRegion
    rw [if_neg (by simp), if_neg (by simp), (stripPrefix_eq_some _ _ _).2 rfl]
    simp only [he]
  have hmem : ∀ (j : Nat) (u : Str), pieces[j]? = some u → u.length ≤ 65000 := by
    intro j u hu
    exact (hp u (List.mem_of_getElem? hu)).2
  constructor
  · intro i t hi ht hg
    have hg' : ∀ j u, j < i → pieces[j]? = some u → Good parseF32 (validateF32 fmt) j u :=
      fun j u hj hu => (good_pct fmt j u (hmem j u hu)).2 (hg j u hj hu)
    constructor
    · intro hno
      refine red _ (selectors_bad _ _ s pieces hsplit i hi t ht hg' _ (Or.inl ⟨?_, rfl⟩))
      cases hq : parseF32 t with
      | none => rfl
      | some n => exact absurd ⟨n, (parseF32_iff t n (hmem i t ht)).1 hq⟩ hno
    · intro f hf hnp
      refine red _ (selectors_bad _ _ s pieces hsplit i hi t ht hg' _
        (Or.inr ⟨f, (parseF32_iff _ _ (hmem i t ht)).2 hf, ?_⟩))
      unfold validateF32
      rw [if_neg (by rw [F32.lt_zero_iff]; exact hnp)]
  · intro hg hl
    exact red _ (selectors_count _ _ s pieces hsplit
      (fun j u hj hu => (good_pct fmt j u (hmem j u hu)).2 (hg j u hj hu)) hl)

example : parseRegion (fun _ => lit "?") (lit "pct:1,2,-3,x")
    = .error (.regionPercentageOutOfBounds (lit "?") 2) := by decide +kernel

/-- **C02**, a consequence users meet: a percentage region whose `x` is zero is refused although IIIF
allows it, and that selector is reported. -/
theorem C02_pct_origin_rejected (fmt : F32 → Str) :
    parseRegion fmt (lit "pct:0,0,50,50") = .error (.regionPercentageOutOfBounds (fmt F32.zero) 0) := by
  have h := (C07_pct_region_error fmt [lit "0", lit "0", lit "50", lit "50"] (lit "0,0,50,50")
    (by simp) (by simp) (by decide)).1 0 (lit "0") (by decide) rfl (by intro j u hj; omega)
  exact h.2 F32.zero ((parseF32_iff _ _ (by simp)).1 (by decide +kernel))
    (by rw [← F32.lt_zero_iff]; decide)

/-- **C07.** Rendering an error produced by any of the parsers never panics. -/
theorem C07_errors_render (fmt : F32 → Str) (s : Str) (e : ParseError)
    (h : parseRegion fmt s = .error e ∨ parseSize s = .error e ∨ parseRotation s = .error e ∨
      parseQuality s = .error e ∨ parseFormat s = .error e) : e.display ≠ none := by
  have : e.display.isSome := by
    rcases h with h | h | h | h | h
    · exact parseRegion_err fmt s e h
    · exact parseSize_err s e h
    · exact parseRotation_err s e h
    · exact parseQuality_err s e h
    · exact parseFormat_err s e h
  intro hc; rw [hc] at this; simp at this

/-- the panic is really there for an index no parser produces -/
example : (ParseError.regionSelectorUnparsable [] 4).display = none := by rfl

/-- **C19.** A float text is accepted exactly when it follows the grammar, and its value is the
IEEE-754 single nearest to the decimal it denotes, ties to even, overflowing to infinity. -/
theorem C19_f32_text (t : Str) (hlen : t.length ≤ 65000) (f : F32) :
    parseF32 t = some f ↔ FloatText t f :=
  parseF32_iff t f hlen

/-- **C19.** The value a float text denotes is unique. -/
theorem C19_f32_unique (t : Str) (hlen : t.length ≤ 65000) (f g : F32)
    (hf : FloatText t f) (hg : FloatText t g) : f = g := by
  rw [← parseF32_iff t _ hlen] at hf hg
  rw [hf] at hg; exact Option.some.inj hg

/-- **C19.** Every non-NaN `f32` is the value of some text. -/
theorem C19_f32_onto (neg : Bool) (k : Nat) (h : k ≤ F32.infBits) :
    ∃ t, parseF32 t = some (.num neg k) := by
  obtain ⟨t, h1, h2⟩ := floatText_exists neg k h
  exact ⟨t, (parseF32_iff t _ (by omega)).2 h1⟩

example : parseF32 (lit "16777217") = some (.num false 0x4B800000) := by decide +kernel
example : parseF32 (lit "1e-46") = some F32.zero := by decide +kernel
example : parseF32 (lit "3.4028236e38") = some (.num false F32.infBits) := by decide +kernel
example : parseF32 (lit ".") = none := by decide +kernel

/-- **C20.** A pixel number is accepted exactly when it is an optional `+` and decimal digits denoting
a number below `2^32`, and yields that number. -/
theorem C20_u32_text (t : Str) (n : Nat) : parseU32 t = some n ↔ U32Text t n := parseU32_iff t n

/-- **C20.** Digits denoting `2^32` or more are refused, never wrapped. -/
theorem C20_no_wrap (ds : Str) (hne : ds ≠ []) (hd : ∀ c ∈ ds, IsDigit c) :
    parseU32 ds = if decVal ds < 2 ^ 32 then some (decVal ds) else none := by
  split
  · rename_i h
    exact (parseU32_iff _ _).2 ⟨ds, Or.inl rfl, hne, hd, rfl, h⟩
  · rename_i h
    cases hp : parseU32 ds with
    | none => rfl
    | some n =>
      obtain ⟨ds', h1, h2, h3, h4, h5⟩ := (parseU32_iff _ _).1 hp
      rcases h1 with rfl | rfl
      · exact absurd (h4 ▸ h5) h
      · exact absurd (hd '+' (by simp)) not_digit_plus

example : parseU32 (lit "4294967295") = some 4294967295 ∧ parseU32 (lit "4294967296") = none := by decide

end Laya

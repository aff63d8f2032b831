import Verif.Laya.HttpSpec
import Verif.Laya.HttpLemmas
/-!
# Property theorems about request decoding and dispatch (C08–C15, C21)
-/
namespace Laya

/-! ## Helpers -/

theorem split_append' (c : Char) (a b : Str) : split c (a ++ c :: b) = split c a ++ split c b := by
  induction a with
  | nil => simp [split]
  | cons x xs ih =>
    simp only [List.cons_append, split]
    split
    · rw [ih]; rfl
    · rw [ih]
      cases h : split c xs with
      | nil => exact absurd h (split_ne_nil c xs)
      | cons a l => rfl

theorem split_length (c : Char) (s : Str) : (split c s).length = s.count c + 1 := by
  induction s with
  | nil => rfl
  | cons x xs ih =>
    simp only [split]
    split
    · rename_i h; subst h; simp [ih]
    · rename_i h
      rw [List.count_cons_of_ne (by simpa using h), ← ih]
      cases hs : split c xs with
      | nil => exact absurd hs (split_ne_nil c xs)
      | cons a l => rfl

theorem components_append (a b : Str) : components (a ++ '/' :: b) = components a ++ components b := by
  unfold components
  rw [split_append', List.filter_append]

theorem decodeSegments_append (fmt : F32 → Str) (l m : List Str) (h : 5 ≤ l.length) :
    decodeSegments fmt (l ++ m) = decodeSegments fmt l := by
  match l, h with
  | a :: b :: c :: d :: e :: r, _ => simp only [List.cons_append, decodeSegments]

/-- Upper-case hex digit. -/
def hexDigit (n : Nat) : Char := if n < 10 then Char.ofNat (48 + n) else Char.ofNat (55 + n)

/-- Percent-encode every byte of an identifier (RFC 3986 §2.1). -/
def encodeId (s : Str) : Str :=
  (utf8 s).flatMap fun b => ['%', hexDigit (b.toNat / 16), hexDigit (b.toNat % 16)]

theorem hexDigit_facts : ∀ n : Fin 16,
    (String.utf8EncodeChar (hexDigit n.val)).map UInt8.toNat = [(hexDigit n.val).toNat] ∧
    (((hexDigit n.val).toNat = 48 + n.val ∧ n.val < 10) ∨ ((hexDigit n.val).toNat = 55 + n.val ∧ 10 ≤ n.val)) ∧
    hexDigit n.val ≠ '/' := by decide +kernel

theorem hexDigit_utf8 (n : Nat) (h : n < 16) :
    ∃ b : UInt8, String.utf8EncodeChar (hexDigit n) = [b] ∧ IsHex b n := by
  obtain ⟨h1, h2, _⟩ := hexDigit_facts ⟨n, h⟩
  simp only at h1 h2
  match hb : String.utf8EncodeChar (hexDigit n) with
  | [] => rw [hb] at h1; simp at h1
  | [b] =>
    rw [hb] at h1; simp only [List.map_cons, List.map_nil, List.cons.injEq, and_true] at h1
    exact ⟨b, rfl, by unfold IsHex; rw [h1]; omega⟩
  | _ :: _ :: _ => rw [hb] at h1; simp at h1

theorem utf8_append (a b : Str) : utf8 (a ++ b) = utf8 a ++ utf8 b := by simp [utf8]

theorem encodeId_pct (s : Str) : PctText (utf8 (encodeId s)) (utf8 s) := by
  unfold encodeId
  induction utf8 s with
  | nil => exact .nil
  | cons b r ih =>
    have hb := b.toNat_lt
    obtain ⟨x, hx, hx'⟩ := hexDigit_utf8 (b.toNat / 16) (by omega)
    obtain ⟨y, hy, hy'⟩ := hexDigit_utf8 (b.toNat % 16) (by omega)
    rw [List.flatMap_cons, utf8_append]
    have : utf8 ['%', hexDigit (b.toNat / 16), hexDigit (b.toNat % 16)] = [37, x, y] := by
      simp only [utf8, List.flatMap_cons, List.flatMap_nil, hx, hy]; rfl
    rw [this]
    exact .escape 37 x y b _ _ _ _ rfl hx' hy' (by omega) ih

theorem encodeId_noSlash (s : Str) : '/' ∉ encodeId s := by
  unfold encodeId
  rw [List.mem_flatMap]
  rintro ⟨b, _, h⟩
  have hb := b.toNat_lt
  have h1 := (hexDigit_facts ⟨b.toNat / 16, by omega⟩).2.2
  have h2 := (hexDigit_facts ⟨b.toNat % 16, by omega⟩).2.2
  simp at h h1 h2
  rcases h with h | h
  · exact h1 h.symm
  · exact h2 h.symm

/-! ## C08 -/

/-- The value is one an `f32` can hold (the model's `num` allows larger patterns). -/
def F32.Real : F32 → Prop
  | .nan => True
  | .num _ k => k ≤ F32.infBits

/-- Requests that mean something: non-empty pixel areas in `u32` range, positive percentages, at most
100% without upscaling, a named dimension, an angle in [0, 360]. -/
def ValidRequest (r : ImageRequest) : Prop :=
  (match r.region with
    | .full => True
    | .square => True
    | .absolute x y w h => x < 2 ^ 32 ∧ y < 2 ^ 32 ∧ (0 < w ∧ w < 2 ^ 32) ∧ (0 < h ∧ h < 2 ^ 32)
    | .percentage x y w h => ∀ f ∈ [x, y, w, h], f.Positive ∧ f.Real) ∧
  (match r.size.scale with
    | .max => True
    | .percentage p => p.Positive ∧ p.Real ∧ (r.size.upscale = true ∨ p.Within 100)
    | .fixed w h => (w ≠ none ∨ h ≠ none) ∧ ∀ n, (w = some n ∨ h = some n) → 0 < n ∧ n < 2 ^ 32
    | .aspectPreserving w h => (0 < w ∧ w < 2 ^ 32) ∧ (0 < h ∧ h < 2 ^ 32)) ∧
  r.rotation.degrees.Within 360

theorem positive_text (f : F32) (h : f.Positive) (hr : f.Real) : ∃ t, FloatText t f ∧ t.length ≤ 300 := by
  obtain ⟨k, rfl, _⟩ := h
  exact floatText_exists false k hr

theorem within_text (f : F32) (c : ℚ) (h : f.Within c) : ∃ t, FloatText t f ∧ t.length ≤ 300 := by
  obtain ⟨neg, k, rfl, hk, _⟩ := h
  exact floatText_exists neg k hk.le

theorem fmtU32_length (n : Nat) (h : n < 2 ^ 32) : (fmtU32 n).length ≤ 10 := by
  unfold fmtU32
  rw [Nat.length_toDigits_le_iff (by omega) (by omega)]
  omega

theorem region_text_exists (r : Region)
    (h : match r with
      | .full => True
      | .square => True
      | .absolute x y w h => x < 2 ^ 32 ∧ y < 2 ^ 32 ∧ (0 < w ∧ w < 2 ^ 32) ∧ (0 < h ∧ h < 2 ^ 32)
      | .percentage x y w h => ∀ f ∈ [x, y, w, h], f.Positive ∧ f.Real) :
    ∃ t, RegionText t r ∧ t.length ≤ 2000 := by
  cases r with
  | full => exact ⟨_, .full, by decide⟩
  | square => exact ⟨_, .square, by decide⟩
  | absolute x y w h' =>
    obtain ⟨hx, hy, hw, hh⟩ := h
    refine ⟨_, .absolute _ _ _ _ x y w h' (u32Text_fmt x hx) (u32Text_fmt y hy) (u32Text_fmt w hw.2)
      (u32Text_fmt h' hh.2) hw.1 hh.1, ?_⟩
    have := fmtU32_length x hx
    have := fmtU32_length y hy
    have := fmtU32_length w hw.2
    have := fmtU32_length h' hh.2
    simp only [List.length_append]
    have : (lit ",").length = 1 := rfl
    omega
  | percentage x y w h' =>
    simp only [List.mem_cons, List.not_mem_nil, or_false, forall_eq_or_imp, forall_eq] at h
    obtain ⟨hx, hy, hw, hh⟩ := h
    obtain ⟨tx, hx1, hx2⟩ := positive_text x hx.1 hx.2
    obtain ⟨ty, hy1, hy2⟩ := positive_text y hy.1 hy.2
    obtain ⟨tw, hw1, hw2⟩ := positive_text w hw.1 hw.2
    obtain ⟨th, hh1, hh2⟩ := positive_text h' hh.1 hh.2
    refine ⟨_, .percentage tx ty tw th x y w h' hx1 hy1 hw1 hh1 hx.1 hy.1 hw.1 hh.1, ?_⟩
    simp only [List.length_append]
    have : (lit ",").length = 1 := rfl
    have : (lit "pct:").length = 4 := rfl
    omega

theorem scale_text_exists (up : Bool) (s : Scale)
    (h : match s with
      | .max => True
      | .percentage p => p.Positive ∧ p.Real ∧ (up = true ∨ p.Within 100)
      | .fixed w h => (w ≠ none ∨ h ≠ none) ∧ ∀ n, (w = some n ∨ h = some n) → 0 < n ∧ n < 2 ^ 32
      | .aspectPreserving w h => (0 < w ∧ w < 2 ^ 32) ∧ (0 < h ∧ h < 2 ^ 32)) :
    ∃ t, ScaleText up t s ∧ t.length ≤ 2000 := by
  have hc : (lit ",").length = 1 := rfl
  cases s with
  | max => exact ⟨_, .max, by decide⟩
  | percentage p =>
    obtain ⟨h1, h2, h3⟩ := h
    obtain ⟨t, ht, hl⟩ := positive_text p h1 h2
    refine ⟨_, .percentage t p ht h1 h3, ?_⟩
    simp only [List.length_append]
    have : (lit "pct:").length = 4 := rfl
    omega
  | fixed w h' =>
    obtain ⟨h1, h2⟩ := h
    cases w with
    | none =>
      cases h' with
      | none => simp at h1
      | some b =>
        have hb := h2 b (Or.inr rfl)
        have := fmtU32_length b hb.2
        exact ⟨_, .height _ b (u32Text_fmt b hb.2) hb.1, by simp only [List.length_append]; omega⟩
    | some a =>
      have ha := h2 a (Or.inl rfl)
      have := fmtU32_length a ha.2
      cases h' with
      | none => exact ⟨_, .width _ a (u32Text_fmt a ha.2) ha.1, by simp only [List.length_append]; omega⟩
      | some b =>
        have hb := h2 b (Or.inr rfl)
        have := fmtU32_length b hb.2
        exact ⟨_, .both _ _ a b (u32Text_fmt a ha.2) (u32Text_fmt b hb.2) ha.1 hb.1, by
          simp only [List.length_append]; omega⟩
  | aspectPreserving a b =>
    obtain ⟨ha, hb⟩ := h
    have := fmtU32_length a ha.2
    have := fmtU32_length b hb.2
    refine ⟨_, .aspect _ _ a b (u32Text_fmt a ha.2) (u32Text_fmt b hb.2) ha.1 hb.1, ?_⟩
    simp only [List.length_append]
    have : (lit "!").length = 1 := rfl
    omega

theorem size_text_exists (z : Size)
    (h : match z.scale with
      | .max => True
      | .percentage p => p.Positive ∧ p.Real ∧ (z.upscale = true ∨ p.Within 100)
      | .fixed w h => (w ≠ none ∨ h ≠ none) ∧ ∀ n, (w = some n ∨ h = some n) → 0 < n ∧ n < 2 ^ 32
      | .aspectPreserving w h => (0 < w ∧ w < 2 ^ 32) ∧ (0 < h ∧ h < 2 ^ 32)) :
    ∃ t, SizeText t z ∧ t.length ≤ 2001 := by
  obtain ⟨sc, up⟩ := z
  obtain ⟨t, h1, h2⟩ := scale_text_exists up sc h
  cases up with
  | false => exact ⟨t, .plain t sc h1, by omega⟩
  | true =>
    refine ⟨_, .upscaled t sc h1, ?_⟩
    simp only [List.length_append]
    have : (lit "^").length = 1 := rfl
    omega

/-- **C08.** Every meaningful request, whatever its identifier, has a path: the fully percent-encoded
identifier followed by texts denoting its parameters; and that path decodes to that very request. -/
theorem C08_url_round_trip (fmt : F32 → Str) (r : ImageRequest) (hr : ValidRequest r) :
    ∃ trg tsz trt, RegionText trg r.region ∧ SizeText tsz r.size ∧ RotationText trt r.rotation ∧
      decodeImageRequest true fmt (lit "/" ++ encodeId r.identifier ++ lit "/" ++ trg ++ lit "/" ++ tsz ++
        lit "/" ++ trt ++ lit "/" ++ qualityName r.quality ++ lit "." ++ formatName r.format) = .ok r := by
  obtain ⟨h1, h2, h3⟩ := hr
  obtain ⟨trg, hrg, lrg⟩ := region_text_exists r.region h1
  obtain ⟨tsz, hsz, lsz⟩ := size_text_exists r.size h2
  obtain ⟨trt, hrt, lrt⟩ : ∃ t, RotationText t r.rotation ∧ t.length ≤ 301 := by
    obtain ⟨t, ht, hl⟩ := within_text _ _ h3
    cases hm : r.rotation with
    | mk d m =>
      rw [hm] at ht h3
      cases m with
      | false => exact ⟨t, .plain t d ht h3, by omega⟩
      | true =>
        refine ⟨_, .mirrored t d ht h3, ?_⟩
        simp only [List.length_append]
        have : (lit "!").length = 1 := rfl
        omega
  refine ⟨trg, tsz, trt, hrg, hsz, hrt, ?_⟩
  have hq : '/' ∉ qualityName r.quality ++ lit "." ++ formatName r.format := by
    simp [(qualityName_chars r.quality).1, formatName_chars r.format]
  have hql : (qualityName r.quality ++ lit "." ++ formatName r.format).length ≤ 20 := by
    cases r.quality <;> cases r.format <;> decide
  have hpath : ∃ rest, split '/' (lit "/" ++ encodeId r.identifier ++ lit "/" ++ trg ++ lit "/" ++ tsz ++
        lit "/" ++ trt ++ lit "/" ++ (qualityName r.quality ++ lit "." ++ formatName r.format) ++ []) =
      [] :: encodeId r.identifier :: trg :: tsz :: trt ::
        (qualityName r.quality ++ lit "." ++ formatName r.format) :: rest :=
    split_template (encodeId r.identifier) trg tsz trt _ [] (encodeId_noSlash _) hrg.noSlash hsz.noSlash
      hrt.noSlash hq (Or.inl rfl)
  refine PathText.decodes fmt _ r ?_
    ⟨encodeId r.identifier, trg, tsz, trt, [], by simp, encodeId_noSlash _, encodeId_pct _, hrg, hsz, hrt,
      Or.inl rfl⟩
  intro p hp
  obtain ⟨rest, hsp⟩ := hpath
  have hrest : rest = [] := by
    have := congrArg List.length hsp
    rw [split_length] at this
    have hc : ∀ s : Str, '/' ∉ s → s.count '/' = 0 := fun s h => List.count_eq_zero.2 h
    simp only [List.count_append, List.append_nil, hc _ (encodeId_noSlash r.identifier), hc _ hrg.noSlash,
      hc _ hsz.noSlash, hc _ hrt.noSlash, hc _ (qualityName_chars r.quality).1, hc _ (formatName_chars r.format),
      List.length_cons] at this
    have e1 : (lit "/").count '/' = 1 := rfl
    have e2 : (lit ".").count '/' = 0 := rfl
    exact List.length_eq_zero_iff.1 (by omega)
  subst hrest
  simp only [List.append_nil, ← List.append_assoc] at hsp
  rw [hsp] at hp
  simp only [List.drop_succ_cons, List.drop_zero, List.mem_cons, List.not_mem_nil, or_false] at hp
  simp only [List.append_assoc] at hql
  rcases hp with rfl | rfl | rfl | rfl
  · omega
  · omega
  · omega
  · simp only [List.append_assoc]; omega

/-- **C08.** For every spelling: a path decodes to `r` exactly when it is a template path denoting `r`. -/
theorem C08_decode_iff (fmt : F32 → Str) (path : Str) (hlen : path.length ≤ 65000) (r : ImageRequest) :
    decodeImageRequest true fmt path = .ok r ↔ PathText path r :=
  ⟨decodes.pathText fmt path r hlen, PathText.decodes fmt path r (fun p hp =>
    Nat.le_trans (mem_split_length '/' path p (List.mem_of_mem_drop hp)) hlen)⟩

example : ValidRequest ⟨lit "a/?#[]@%z", .absolute 0 5 10 20, ⟨.fixed (some 3) none, true⟩,
    ⟨F32.threeSixty, true⟩, .gray, .png⟩ := by
  refine ⟨by simp, by simp, false, 0x43B40000, rfl, by decide, by simp, ?_⟩
  have : F32.units 0x43B40000 = 360 * 2 ^ 149 := by decide +kernel
  unfold F32.mag; rw [this]; rw [Nat.cast_mul, Nat.cast_pow, Nat.cast_ofNat, Nat.cast_ofNat, mul_div_cancel_right₀ _ (by positivity)]

example : decodeImageRequest true (fun _ => []) (lit "/a%2F%3F%23%5B%5D%40%25z/full/max/0/default.jpg") =
    .ok ⟨lit "a/?#[]@%z", .full, ⟨.max, false⟩, ⟨F32.zero, false⟩, .default, .jpg⟩ := by decide +kernel

/-! ## C09 -/

/-- **C09 is false of the code**: the release build does not consume the empty leading segment. -/
theorem C09_builds_disagree : ¬ ∀ (fmt : F32 → Str) (path : Str),
    decodeImageRequest true fmt path = decodeImageRequest false fmt path := by
  intro h
  have := h (fun _ => []) (lit "/abcd1234/full/max/0/default.jpg")
  revert this
  decide +kernel

/-- **C09**, what does hold: the release build decodes `path` as the debug build decodes `/path`. -/
theorem C09_release_shift_partial (fmt : F32 → Str) (path : Str) :
    decodeImageRequest false fmt path = decodeImageRequest true fmt (lit "/" ++ path) := by
  have : split '/' (lit "/" ++ path) = [] :: split '/' path := by
    show split '/' ('/' :: path) = _
    simp [split]
  simp only [decodeImageRequest, this]
  rfl

theorem comma_size {t : Str} {z : Size} (h : SizeText t z) : t.count ',' ≤ 1 := by
  have h0 : ∀ s : Str, ',' ∉ s → s.count ',' = 0 := fun s h => List.count_eq_zero.2 h
  have hd : ¬ IsDigit ',' := by rw [isDigit_iff]; decide
  have main : ∀ {u t sc}, ScaleText u t sc → t.count ',' ≤ 1 := by
    intro u t sc h
    have e1 : (lit ",").count ',' = 1 := rfl
    have e2 : (lit "!").count ',' = 0 := rfl
    have e3 : (lit "pct:").count ',' = 0 := rfl
    cases h with
    | max => decide
    | percentage t p h => simp only [List.count_append, h0 _ h.noComma, e3]; omega
    | width t w h => simp only [List.count_append, h0 _ (h.noComma ',' hd (by decide)), e1]; omega
    | height t w h => simp only [List.count_append, h0 _ (h.noComma ',' hd (by decide)), e1]; omega
    | both a b w h h1 h2 =>
      simp only [List.count_append, h0 _ (h1.noComma ',' hd (by decide)),
        h0 _ (h2.noComma ',' hd (by decide)), e1]; omega
    | aspect a b w h h1 h2 =>
      simp only [List.count_append, h0 _ (h1.noComma ',' hd (by decide)),
        h0 _ (h2.noComma ',' hd (by decide)), e1, e2]; omega
  cases h with
  | plain _ _ h => exact main h
  | upscaled t _ h =>
    have := main h
    have e : (lit "^").count ',' = 0 := rfl
    simp only [List.count_append, e]; omega

theorem region_not_size {t : Str} {r : Region} {z : Size} (hr : RegionText t r) (hz : SizeText t z)
    (hlen : t.length ≤ 65000) : False := by
  have hc := comma_size hz
  have e1 : (lit ",").count ',' = 1 := rfl
  cases hr with
  | full =>
    rw [← parseSize_iff _ _ hlen] at hz
    have : parseSize (lit "full") = .error (.sizeMissingComma (lit "full")) := by decide +kernel
    rw [this] at hz; simp at hz
  | square =>
    rw [← parseSize_iff _ _ hlen] at hz
    have : parseSize (lit "square") = .error (.sizeMissingComma (lit "square")) := by decide +kernel
    rw [this] at hz; simp at hz
  | absolute => simp only [List.count_append, e1] at hc; omega
  | percentage => simp only [List.count_append, e1] at hc; omega

/-- **C09**, how bad it is: every path the debug build accepts, the release build rejects. -/
theorem C09_release_rejects_partial (fmt : F32 → Str) (path : Str) (hlen : path.length ≤ 65000)
    (r : ImageRequest) (h : decodeImageRequest true fmt path = .ok r) :
    ∃ e, decodeImageRequest false fmt path = .error (.error (.parseError e)) := by
  obtain ⟨l, hs, hd⟩ := (decode_debug_ok fmt path r).1 h
  obtain ⟨s1, s2, s3, s4, s5, rest, q, f, rfl, h1, h2, h3, h4, h5, h6, h7⟩ := (decodeSegments_ok fmt l r).1 hd
  have hl : ∀ p ∈ split '/' path, p.length ≤ 65000 := fun p hp =>
    Nat.le_trans (mem_split_length '/' path p hp) hlen
  rw [hs] at hl
  have hs2 : s2.length ≤ 65000 := hl s2 (by simp)
  have hu : urlDecode [] = some [] := by decide +kernel
  simp only [decodeImageRequest, hs, decodeSegments, hu]
  cases h8 : parseRegion fmt s1 with
  | error e => exact ⟨e, rfl⟩
  | ok rg =>
    cases h9 : parseSize s2 with
    | error e => exact ⟨e, by simp⟩
    | ok z =>
      exact (region_not_size ((parseRegion_iff fmt _ _ hs2).1 h2) ((parseSize_iff _ _ hs2).1 h9) hs2).elim

example : decodeImageRequest true (fun _ => []) (lit "/abcd1234/full/max/0/default.jpg") =
    .ok ⟨lit "abcd1234", .full, ⟨.max, false⟩, ⟨F32.zero, false⟩, .default, .jpg⟩ := by decide +kernel
example : decodeImageRequest false (fun _ => []) (lit "/full/max/0/default.jpg") =
    .ok ⟨[], .full, ⟨.max, false⟩, ⟨F32.zero, false⟩, .default, .jpg⟩ := by decide +kernel

/-! ## C10, C21 -/

/-- **C10.** The identifier of an accepted path is exactly what its first segment percent-encodes, and
a first segment that percent-encodes no UTF-8 string is rejected as such. -/
theorem C10_identifier_exact (fmt : F32 → Str) (seg rest : Str) (hseg : '/' ∉ seg) :
    (∀ r, decodeImageRequest true fmt (lit "/" ++ seg ++ lit "/" ++ rest) = .ok r →
      PctText (utf8 seg) (utf8 r.identifier)) ∧
    ((¬ ∃ s, PctText (utf8 seg) (utf8 s)) →
      decodeImageRequest true fmt (lit "/" ++ seg ++ lit "/" ++ rest) =
        .error (.error (.uriNotUtf8 (lit "identifier")))) := by
  have hs : split '/' (lit "/" ++ seg ++ lit "/" ++ rest) = [] :: seg :: split '/' rest := by
    have : lit "/" ++ seg ++ lit "/" ++ rest = [] ++ '/' :: (seg ++ '/' :: rest) := by simp
    rw [this, split_append _ _ _ (by simp), split_append _ _ _ hseg]
  constructor
  · intro r h
    obtain ⟨l, hl, hd⟩ := (decode_debug_ok fmt _ r).1 h
    rw [hs] at hl
    obtain ⟨s1, _, _, _, _, _, _, _, rfl, h1, _⟩ := (decodeSegments_ok fmt l r).1 hd
    simp only [List.cons.injEq, true_and] at hl
    rw [hl.1]
    exact (urlDecode_iff _ _).1 h1
  · intro h
    have hn : urlDecode seg = none := by
      cases hu : urlDecode seg with
      | none => rfl
      | some s => exact absurd ⟨s, (urlDecode_iff _ _).1 hu⟩ h
    simp only [decodeImageRequest, hs, decodeSegments, hn, if_true]

/-- **C10.** Decoding inverts percent-encoding, for every identifier. -/
theorem C10_decode_encode (s : Str) : urlDecode (encodeId s) = some s :=
  (urlDecode_iff _ _).2 (encodeId_pct s)

/-- **C10.** A segment without `%` is its own identifier. -/
theorem C10_plain_segment (s : Str) (h : '%' ∉ s) : urlDecode s = some s := by
  rw [urlDecode_iff]
  have hchar : ∀ c : Char, c ≠ '%' → ∀ b ∈ String.utf8EncodeChar c, b.toNat ≠ '%'.toNat := by
    intro c hc b hb heq
    have hb37 : b = 37 := by rw [← UInt8.toNat_inj]; exact heq
    subst hb37
    simp only [String.utf8EncodeChar] at hb
    have key : ∀ n : Nat, (37 : UInt8) = n.toUInt8 → n % 256 = 37 := by
      intro n h
      have := congrArg UInt8.toNat h
      rw [Nat.toUInt8_eq, UInt8.toNat_ofNat'] at this
      simp at this
      omega
    split at hb
    · simp only [List.mem_singleton] at hb
      have := key _ hb
      apply hc
      have : c.val.toNat = '%'.val.toNat := by show _ = 37; omega
      exact Char.ext (UInt32.toNat_inj.1 this)
    · split at hb
      · simp only [List.mem_cons, List.not_mem_nil, or_false] at hb
        rcases hb with hb | hb <;> (have := key _ hb; omega)
      · split at hb
        · simp only [List.mem_cons, List.not_mem_nil, or_false] at hb
          rcases hb with hb | hb | hb <;> (have := key _ hb; omega)
        · simp only [List.mem_cons, List.not_mem_nil, or_false] at hb
          rcases hb with hb | hb | hb | hb <;> (have := key _ hb; omega)
  have : ∀ l : List UInt8, (∀ b ∈ l, b.toNat ≠ '%'.toNat) → PctText l l := by
    intro l
    induction l with
    | nil => intro _; exact .nil
    | cons b l ih => intro h; exact .raw b l l (h b (by simp)) (ih fun b hb => h b (by simp [hb]))
  refine this _ ?_
  intro b hb
  unfold utf8 at hb
  rw [List.mem_flatMap] at hb
  obtain ⟨c, hc, hb⟩ := hb
  exact hchar c (fun e => h (e ▸ hc)) b hb

example : urlDecode (lit "%ff") = none := by decide +kernel
example : urlDecode (lit "50%-%e2%82%ac") = some (lit "50%-€") := by decide +kernel

/-- **C21.** Two spellings of the same identifier give the same answer, whatever follows. -/
theorem C21_same_identifier (fmt : F32 → Str) (a b rest : Str) (raw : List UInt8)
    (ha : '/' ∉ a) (hb : '/' ∉ b) (h1 : PctText (utf8 a) raw) (h2 : PctText (utf8 b) raw) :
    decodeImageRequest true fmt (lit "/" ++ a ++ lit "/" ++ rest) =
    decodeImageRequest true fmt (lit "/" ++ b ++ lit "/" ++ rest) := by
  have hs : ∀ seg : Str, '/' ∉ seg →
      split '/' (lit "/" ++ seg ++ lit "/" ++ rest) = [] :: seg :: split '/' rest := by
    intro seg hseg
    have : lit "/" ++ seg ++ lit "/" ++ rest = [] ++ '/' :: (seg ++ '/' :: rest) := by simp
    rw [this, split_append _ _ _ (by simp), split_append _ _ _ hseg]
  have : urlDecode a = urlDecode b := by
    unfold urlDecode
    rw [(pctDecode_iff _ _).2 h1, (pctDecode_iff _ _).2 h2]
  simp only [decodeImageRequest, hs a ha, hs b hb, decodeSegments, this]
  rfl

example : PctText (utf8 (lit "%41/")) (utf8 (lit "A/")) ∧ PctText (utf8 (lit "A/")) (utf8 (lit "A/")) :=
  ⟨(urlDecode_iff _ _).1 (by decide +kernel), (urlDecode_iff _ _).1 (by decide +kernel)⟩

/-! ## C11, C12, C14 -/

/-- **C11 is false of the code**: any GET for `…info.json` panics. -/
theorem C11_info_json_panics (debug : Bool) (fmt : F32 → Str) (base : Str) (canOpen : Str → Bool) (p : Str) :
    (handleRequest debug fmt base canOpen true (p ++ lit "info.json")).response = none := by
  have : endsWith (lit "info.json") (p ++ lit "info.json") = true := by
    unfold endsWith; rw [List.isSuffixOf_iff_suffix]; exact ⟨p, rfl⟩
  unfold handleRequest
  rw [this]
  rfl

theorem decode_no_assert (debug : Bool) (fmt : F32 → Str) (path : Str)
    (h : startsWith (lit "/") path = true) : decodeImageRequest debug fmt path ≠ .error .assertFailed := by
  unfold startsWith at h
  rw [List.isPrefixOf_iff_prefix] at h
  obtain ⟨t, rfl⟩ := h
  have : split '/' (lit "/" ++ t) = [] :: split '/' t := by
    show split '/' ('/' :: t) = _
    simp [split]
  simp only [decodeImageRequest, this]
  cases debug
  · simp only [Bool.false_eq_true, if_false]
    cases decodeSegments fmt ([] :: split '/' t) <;> simp
  · simp only [if_true]
    cases decodeSegments fmt (split '/' t) <;> simp

theorem decode_err_display (debug : Bool) (fmt : F32 → Str) (path : Str) (e : ImageRequestError)
    (h : decodeImageRequest debug fmt path = .error (.error e)) : e.display.isSome := by
  have run : ∀ l, (match decodeSegments fmt l with
      | .error e => (.error (.error e) : Except DecodeFailure ImageRequest)
      | .ok r => .ok r) = .error (.error e) → e.display.isSome := by
    intro l hl
    cases hd : decodeSegments fmt l with
    | error e' => rw [hd] at hl; simp at hl; subst hl; exact decodeSegments_err fmt l _ hd
    | ok r => rw [hd] at hl; simp at hl
  unfold decodeImageRequest at h
  cases debug
  · exact run _ h
  · simp only [if_true] at h
    cases hs : split '/' path with
    | nil => exact absurd hs (split_ne_nil _ _)
    | cons a l =>
      rw [hs] at h
      cases a with
      | nil => exact run _ h
      | cons c a => simp at h

/-- The three ways a GET under the prefix (not for `info.json`) can end. -/
theorem imageRequest_cases (debug : Bool) (fmt : F32 → Str) (base : Str) (canOpen : Str → Bool) (path : Str)
    (h : startsWith (lit "/") path = true) :
    (∃ r, decodeImageRequest debug fmt path = .ok r ∧
      imageRequest debug fmt base canOpen path =
        ⟨[pathJoin base r.identifier],
          some (if canOpen (pathJoin base r.identifier) then (200, lit "OK") else (400, lit "io error"))⟩) ∨
    (∃ e msg, decodeImageRequest debug fmt path = .error (.error e) ∧ e.display = some msg ∧
      imageRequest debug fmt base canOpen path = ⟨[], some (400, msg)⟩) := by
  unfold imageRequest
  cases hd : decodeImageRequest debug fmt path with
  | error f =>
    cases f with
    | assertFailed => exact absurd hd (decode_no_assert debug fmt path h)
    | error e =>
      right
      have := decode_err_display debug fmt path e hd
      obtain ⟨msg, hm⟩ := Option.isSome_iff_exists.1 this
      exact ⟨e, msg, rfl, hm, by simp only [hm]⟩
  | ok r =>
    left
    refine ⟨r, rfl, ?_⟩
    simp only [resolve]
    cases canOpen (pathJoin base r.identifier) <;> simp

/-- **C11**, what does hold: every request other than a GET for `…info.json` gets a response, in both
builds, whatever the file system does. -/
theorem C11_answered_partial (debug : Bool) (fmt : F32 → Str) (base : Str) (canOpen : Str → Bool)
    (isGet : Bool) (path : Str) (h : ¬ (isGet = true ∧ ∃ p, path = p ++ lit "info.json")) :
    (handleRequest debug fmt base canOpen isGet path).response ≠ none := by
  unfold handleRequest
  split
  · rename_i hc
    rw [Bool.and_eq_true] at hc
    unfold endsWith at hc
    rw [List.isSuffixOf_iff_suffix] at hc
    obtain ⟨h1, t, h2⟩ := hc
    exact absurd ⟨h1, t, h2.symm⟩ h
  · split
    · rename_i hc
      rw [Bool.and_eq_true] at hc
      rcases imageRequest_cases debug fmt base canOpen path hc.2 with ⟨r, _, he⟩ | ⟨e, msg, _, _, he⟩
      · rw [he]; exact Option.some_ne_none _
      · rw [he]; exact Option.some_ne_none _
    · exact Option.some_ne_none _

example : ¬ (true = true ∧ ∃ p, lit "/a/full/max/0/default.jpg" = p ++ lit "info.json") := by
  rintro ⟨_, p, h⟩
  have := congrArg List.getLast? h
  rw [List.getLast?_append] at this
  have e1 : List.getLast? (lit "/a/full/max/0/default.jpg") = some 'g' := by decide
  have e2 : List.getLast? (lit "info.json") = some 'n' := by decide
  rw [e1, e2] at this
  exact absurd (Option.some.inj this) (by decide)

/-- A GET request under `/` that is not for `…info.json`. -/
def ImageGet (isGet : Bool) (path : Str) : Prop :=
  isGet = true ∧ (∃ p, path = '/' :: p) ∧ ¬ ∃ p, path = p ++ lit "info.json"

theorem imageGet_handle (debug : Bool) (fmt : F32 → Str) (base : Str) (canOpen : Str → Bool)
    (isGet : Bool) (path : Str) (h : ImageGet isGet path) :
    startsWith (lit "/") path = true ∧
    handleRequest debug fmt base canOpen isGet path = imageRequest debug fmt base canOpen path := by
  obtain ⟨h1, ⟨p, hp⟩, h3⟩ := h
  have hs : startsWith (lit "/") path = true := by
    subst hp; unfold startsWith; rw [List.isPrefixOf_iff_prefix]; exact ⟨p, rfl⟩
  have he : endsWith (lit "info.json") path = false := by
    rw [← Bool.not_eq_true]
    unfold endsWith
    rw [List.isSuffixOf_iff_suffix]
    rintro ⟨t, ht⟩
    exact h3 ⟨t, ht.symm⟩
  refine ⟨hs, ?_⟩
  unfold handleRequest
  rw [hs, he, h1]
  rfl

theorem not_imageGet (debug : Bool) (fmt : F32 → Str) (base : Str) (canOpen : Str → Bool)
    (isGet : Bool) (path : Str) (h : ¬ ImageGet isGet path) :
    handleRequest debug fmt base canOpen isGet path = ⟨[], none⟩ ∨
    handleRequest debug fmt base canOpen isGet path = ⟨[], some (404, lit "notfound")⟩ := by
  unfold handleRequest
  split
  · exact Or.inl rfl
  · rename_i h1
    split
    · rename_i h2
      rw [Bool.and_eq_true] at h1 h2
      exfalso; apply h
      refine ⟨h2.1, ?_, ?_⟩
      · have := h2.2
        unfold startsWith at this
        rw [List.isPrefixOf_iff_prefix] at this
        obtain ⟨t, rfl⟩ := this
        exact ⟨t, rfl⟩
      · rintro ⟨p, rfl⟩
        exact h1 ⟨h2.1, by unfold endsWith; rw [List.isSuffixOf_iff_suffix]; exact ⟨p, rfl⟩⟩
    · exact Or.inr rfl

/-- **C12.** 200 exactly for image GETs whose path decodes and whose file opens. -/
theorem C12_ok_iff (debug : Bool) (fmt : F32 → Str) (base : Str) (canOpen : Str → Bool)
    (isGet : Bool) (path : Str) :
    (∃ body, (handleRequest debug fmt base canOpen isGet path).response = some (200, body)) ↔
    ImageGet isGet path ∧ ∃ r, decodeImageRequest debug fmt path = .ok r ∧
      canOpen (pathJoin base r.identifier) = true := by
  by_cases hg : ImageGet isGet path
  · obtain ⟨hs, hh⟩ := imageGet_handle debug fmt base canOpen isGet path hg
    rw [hh]
    rcases imageRequest_cases debug fmt base canOpen path hs with ⟨r, hd, he⟩ | ⟨e, msg, hd, _, he⟩
    · rw [he, hd]
      cases hc : canOpen (pathJoin base r.identifier) <;> simp [hg, hc]
    · rw [he, hd]; simp
  · rcases not_imageGet debug fmt base canOpen isGet path hg with h | h <;> rw [h] <;> simp [hg]

/-- **C12.** 400 exactly for image GETs whose path does not decode (the body is the error's text) or
whose file does not open (the body is `io error`). -/
theorem C12_bad_request_iff (debug : Bool) (fmt : F32 → Str) (base : Str) (canOpen : Str → Bool)
    (isGet : Bool) (path body : Str) :
    (handleRequest debug fmt base canOpen isGet path).response = some (400, body) ↔
    ImageGet isGet path ∧
      ((∃ e, decodeImageRequest debug fmt path = .error (.error e) ∧ e.display = some body) ∨
       (∃ r, decodeImageRequest debug fmt path = .ok r ∧ canOpen (pathJoin base r.identifier) = false ∧
          body = lit "io error")) := by
  by_cases hg : ImageGet isGet path
  · obtain ⟨hs, hh⟩ := imageGet_handle debug fmt base canOpen isGet path hg
    rw [hh]
    rcases imageRequest_cases debug fmt base canOpen path hs with ⟨r, hd, he⟩ | ⟨e, msg, hd, hm, he⟩
    · rw [he, hd]
      obtain ⟨b, hb⟩ : ∃ b, b = lit "io error" := ⟨_, rfl⟩
      rw [← hb]
      have hbe : b = body ↔ body = b := eq_comm
      cases hc : canOpen (pathJoin base r.identifier) <;> simp [-lit, hg, hc, hbe]
    · rw [he, hd]; simp [-lit, hg, hm]
  · rcases not_imageGet debug fmt base canOpen isGet path hg with h | h <;> rw [h] <;> simp [hg]

/-- **C12.** 404 exactly for requests that are neither image GETs nor GETs for `…info.json`; the
handler answers nothing else than 200, 400 and 404. -/
theorem C12_not_found_iff (debug : Bool) (fmt : F32 → Str) (base : Str) (canOpen : Str → Bool)
    (isGet : Bool) (path : Str) :
    ((∃ body, (handleRequest debug fmt base canOpen isGet path).response = some (404, body)) ↔
      ¬ ImageGet isGet path ∧ ¬ (isGet = true ∧ ∃ p, path = p ++ lit "info.json")) ∧
    (∀ c body, (handleRequest debug fmt base canOpen isGet path).response = some (c, body) →
      c = 200 ∨ c = 400 ∨ c = 404) := by
  by_cases hg : ImageGet isGet path
  · obtain ⟨hs, hh⟩ := imageGet_handle debug fmt base canOpen isGet path hg
    rw [hh]
    rcases imageRequest_cases debug fmt base canOpen path hs with ⟨r, hd, he⟩ | ⟨e, msg, hd, hm, he⟩
    · rw [he]
      cases hc : canOpen (pathJoin base r.identifier) <;> simp [-lit, hg]
    · rw [he]; simp [-lit, hg]
  · by_cases hi : isGet = true ∧ ∃ p, path = p ++ lit "info.json"
    · obtain ⟨h1, p, rfl⟩ := hi
      subst h1
      rw [C11_info_json_panics]
      simp
    · have := C11_answered_partial debug fmt base canOpen isGet path hi
      rcases not_imageGet debug fmt base canOpen isGet path hg with h | h
      · rw [h] at this; simp at this
      · rw [h]; simp only [hg, hi, not_false_eq_true, and_self, iff_true]
        exact ⟨⟨_, rfl⟩, by rintro c body h; simp at h; omega⟩

example : (handleRequest true (fun _ => []) (lit "/srv") (fun _ => true) true
    (lit "/a/full/max/0/default.jpg")) = ⟨[lit "/srv/a"], some (200, lit "OK")⟩ := by decide +kernel
example : (handleRequest true (fun _ => []) (lit "/srv") (fun _ => true) true
    (lit "/a/full/max/0/default")) = ⟨[], some (400, lit "Request path missing format.")⟩ := by decide +kernel
example : (handleRequest true (fun _ => []) (lit "/srv") (fun _ => true) false
    (lit "/a/full/max/0/default.jpg")) = ⟨[], some (404, lit "notfound")⟩ := by decide +kernel

/-- **C14.** Requests that are not image GETs, or whose path does not decode, open nothing; any other
opens exactly one file, once: the identifier joined to the image directory. -/
theorem C14_files_opened (debug : Bool) (fmt : F32 → Str) (base : Str) (canOpen : Str → Bool)
    (isGet : Bool) (path : Str) :
    ((¬ ImageGet isGet path ∨ ∃ e, decodeImageRequest debug fmt path = .error e) →
      (handleRequest debug fmt base canOpen isGet path).opened = []) ∧
    (∀ r, ImageGet isGet path → decodeImageRequest debug fmt path = .ok r →
      (handleRequest debug fmt base canOpen isGet path).opened = [pathJoin base r.identifier]) := by
  by_cases hg : ImageGet isGet path
  · obtain ⟨hs, hh⟩ := imageGet_handle debug fmt base canOpen isGet path hg
    rw [hh]
    rcases imageRequest_cases debug fmt base canOpen path hs with ⟨r, hd, he⟩ | ⟨e, msg, hd, hm, he⟩
    · rw [he, hd]; simp [hg]
    · rw [he, hd]; simp [hg]
  · rcases not_imageGet debug fmt base canOpen isGet path hg with h | h <;> rw [h] <;> simp [hg]

/-! ## C13 -/

theorem not_below_etc : ¬ Below (lit "/srv/images") (lit "/srv/images/../../etc/passwd") := by
  rintro ⟨_, rest, h, hn⟩
  have hc : components (lit "/srv/images/../../etc/passwd") =
      components (lit "/srv/images") ++ [lit "..", lit "..", lit "etc", lit "passwd"] := by decide +kernel
  rw [hc] at h
  have := List.append_cancel_left h
  subst this
  have := hn 1
  revert this
  decide +kernel

/-- **C13 is false of the code**: a well-formed request opens a file outside the image directory,
by `..` in the identifier or by an absolute identifier. -/
theorem C13_escapes :
    (∃ path f, (handleRequest true (fun _ => []) (lit "/srv/images") (fun _ => true) true path).opened = [f] ∧
      ¬ Below (lit "/srv/images") f) ∧
    (∃ path, (handleRequest true (fun _ => []) (lit "/srv/images") (fun _ => true) true path).opened
      = [lit "/etc/passwd"]) := by
  refine ⟨⟨lit "/..%2F..%2Fetc%2Fpasswd/full/max/0/default.jpg", lit "/srv/images/../../etc/passwd", ?_,
    not_below_etc⟩, ⟨lit "/%2Fetc%2Fpasswd/full/max/0/default.jpg", ?_⟩⟩
  · decide +kernel
  · decide +kernel

/-- **C13**, what does hold: for an identifier that does not start with `/`, the file lies at or below
the image directory exactly when the identifier's `..`s never outnumber the names before them. -/
theorem C13_relative_partial (base ident : Str) (h : ¬ ∃ t, ident = '/' :: t) :
    Below base (pathJoin base ident) ↔ neverClimbs (components ident) := by
  have hs : startsWith (lit "/") ident = false := by
    rw [← Bool.not_eq_true]; unfold startsWith; rw [List.isPrefixOf_iff_prefix]
    rintro ⟨t, rfl⟩; exact h ⟨t, rfl⟩
  have key : startsWith (lit "/") (pathJoin base ident) = startsWith (lit "/") base ∧
      components (pathJoin base ident) = components base ++ components ident := by
    unfold pathJoin
    rw [hs]
    simp only [Bool.false_eq_true, if_false]
    cases base with
    | nil => simp [components, split]; exact hs
    | cons b bs =>
      have hst : ∀ x : Str, startsWith (lit "/") (b :: bs ++ x) = startsWith (lit "/") (b :: bs) := by
        intro x; simp [startsWith, List.isPrefixOf]
      split
      · rename_i hc
        simp only [List.isEmpty_cons, Bool.false_or] at hc
        refine ⟨hst _, ?_⟩
        unfold endsWith at hc
        rw [List.isSuffixOf_iff_suffix] at hc
        obtain ⟨t, ht⟩ := hc
        have e : t ++ lit "/" = t ++ '/' :: [] := rfl
        rw [← ht, e]
        rw [components_append, List.append_assoc]
        have : t ++ ('/' :: [] ++ ident) = t ++ '/' :: ident := by simp
        rw [this, components_append]
        simp [components, split]
      · rw [List.append_assoc]
        refine ⟨hst _, ?_⟩
        have : b :: bs ++ (lit "/" ++ ident) = b :: bs ++ '/' :: ident := by simp
        rw [this, components_append]
  unfold Below
  rw [key.1, key.2]
  constructor
  · rintro ⟨_, rest, he, hn⟩
    rw [List.append_cancel_left he]; exact hn
  · intro hn; exact ⟨rfl, _, rfl, hn⟩

/-- **C13**, the other half: an identifier starting with `/` is opened as it stands, wherever it points. -/
theorem C13_absolute_partial (base t : Str) : pathJoin base ('/' :: t) = '/' :: t := by
  simp [pathJoin, startsWith, List.isPrefixOf]

example : neverClimbs (components (lit "a/../b/./c.jp2")) := by
  intro n
  have : components (lit "a/../b/./c.jp2") = [lit "a", lit "..", lit "b", lit "c.jp2"] := by decide +kernel
  rw [this]
  match n with
  | 0 => decide
  | 1 => decide
  | 2 => decide
  | 3 => decide
  | n + 4 => simp only [List.take_succ_cons, List.take_nil]; decide

/-! ## C15 -/

/-- **C15.** Once a path has its six segments, appending `/` and anything changes nothing: neither the
decoded request nor the error. -/
theorem C15_extra_segments_ignored (debug : Bool) (fmt : F32 → Str) (path extra : Str)
    (h : 5 ≤ path.count '/') :
    decodeImageRequest debug fmt (path ++ lit "/" ++ extra) = decodeImageRequest debug fmt path := by
  have hs : split '/' (path ++ lit "/" ++ extra) = split '/' path ++ split '/' extra := by
    rw [List.append_assoc]; exact split_append' '/' path extra
  have hl := split_length '/' path
  unfold decodeImageRequest
  rw [hs]
  cases debug
  · simp only [Bool.false_eq_true, if_false]
    rw [decodeSegments_append fmt _ _ (by omega)]
  · simp only [if_true]
    cases hp : split '/' path with
    | nil => rw [hp] at hl; simp at hl
    | cons a l =>
      rw [hp] at hl
      cases a with
      | nil =>
        simp only [List.cons_append]
        rw [decodeSegments_append fmt _ _ (by simp at hl; omega)]
      | cons c a => simp

example : (5 : Nat) ≤ (lit "/a/full/max/0/default.jpg").count '/' := by decide

end Laya

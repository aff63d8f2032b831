import Verif.Laya.Str
import Mathlib.Tactic.IntervalCases
/-!
# `urlencoding::decode` and UTF-8

Model of the external function called at `src/http.rs:64` (crate `urlencoding` 2.1): percent-decode
the bytes of the text, then require the result to be UTF-8.
-/
namespace Laya

/-- The UTF-8 bytes of a Rust string. -/
def utf8 (s : Str) : List UInt8 := s.flatMap String.utf8EncodeChar

/-- `String::from_utf8`. -/
def fromUtf8 (bs : List UInt8) : Option Str := (bs.toByteArray.utf8Decode?).map Array.toList

/-- `urlencoding`'s `from_hex_digit`. -/
def hexVal (b : UInt8) : Option UInt8 :=
  if 48 ≤ b ∧ b ≤ 57 then some (b - 48)
  else if 65 ≤ b ∧ b ≤ 70 then some (b - 55)
  else if 97 ≤ b ∧ b ≤ 102 then some (b - 87)
  else none

/-- `urlencoding::decode_binary`: `%` followed by two hex digits is one byte; any other `%` is kept. -/
def pctDecode : List UInt8 → List UInt8
  | [] => []
  | [a] => [a]
  | [a, b] => [a, b]
  | a :: b :: c :: rest =>
    if a = 37 then
      match hexVal b, hexVal c with
      | some x, some y => (x * 16 + y) :: pctDecode rest
      | _, _ => a :: pctDecode (b :: c :: rest)
    else a :: pctDecode (b :: c :: rest)

/-- `urlencoding::decode`. -/
def urlDecode (s : Str) : Option Str := fromUtf8 (pctDecode (utf8 s))

/-! ## Specification -/

/-- Hex digits, as a relation: `b` is the ASCII code of a hex digit of value `v`. -/
def IsHex (b : UInt8) (v : Nat) : Prop :=
  (b.toNat = 48 + v ∧ v < 10) ∨ (b.toNat = 55 + v ∧ 10 ≤ v ∧ v < 16) ∨ (b.toNat = 87 + v ∧ 10 ≤ v ∧ v < 16)

/-- `PctText enc raw`: the bytes `enc` percent-encode the bytes `raw`. A byte may stand for itself; `%`
stands for itself only where it does not start an escape. -/
inductive PctText : List UInt8 → List UInt8 → Prop
  | nil : PctText [] []
  | raw (b : UInt8) (e r : List UInt8) : b.toNat ≠ '%'.toNat → PctText e r → PctText (b :: e) (b :: r)
  | escape (p h l v : UInt8) (hv lv : Nat) (e r : List UInt8) : p.toNat = '%'.toNat → IsHex h hv → IsHex l lv →
      v.toNat = 16 * hv + lv → PctText e r → PctText (p :: h :: l :: e) (v :: r)
  | percent (p : UInt8) (e r : List UInt8) : p.toNat = '%'.toNat →
      (¬ ∃ h l e' hv lv, e = h :: l :: e' ∧ IsHex h hv ∧ IsHex l lv) →
      PctText e r → PctText (p :: e) (p :: r)

/-! ## Lemmas -/

theorem toByteArray_inj {a b : List UInt8} (h : a.toByteArray = b.toByteArray) : a = b := by
  have := congrArg ByteArray.data h
  simpa using this

theorem fromUtf8_iff (bs : List UInt8) (s : Str) : fromUtf8 bs = some s ↔ bs = utf8 s := by
  have key : ∀ m : List Char, (utf8 m).toByteArray.utf8Decode? = some m.toArray := fun m =>
    List.utf8Decode?_utf8Encode (l := m)
  constructor
  · intro h
    unfold fromUtf8 at h
    cases hd : bs.toByteArray.utf8Decode? with
    | none => rw [hd] at h; simp at h
    | some cs =>
      have hv : bs.toByteArray.IsValidUTF8 := ByteArray.isSome_utf8Decode?_iff.1 (by rw [hd]; rfl)
      obtain ⟨m, hm⟩ := hv
      have hm' : bs = utf8 m := toByteArray_inj hm
      rw [hm', key] at hd
      rw [hm'] at h ⊢
      rw [key] at h
      simp at h
      rw [h]
  · rintro rfl
    unfold fromUtf8
    rw [key]; simp

theorem utf8_inj {a b : Str} (h : utf8 a = utf8 b) : a = b := by
  have h1 := (fromUtf8_iff (utf8 a) a).2 rfl
  have h2 := (fromUtf8_iff (utf8 b) b).2 rfl
  rw [h, h2] at h1; exact (Option.some.inj h1).symm

theorem hexVal_some (b v : UInt8) : hexVal b = some v ↔ IsHex b v.toNat := by
  have hb := b.toNat_lt
  have hv := v.toNat_lt
  unfold hexVal IsHex
  simp only [UInt8.le_iff_toNat_le, UInt8.reduceToNat]
  have sub : ∀ k : UInt8, k.toNat ≤ b.toNat → (b - k = v ↔ b.toNat = k.toNat + v.toNat) := by
    intro k hk
    rw [← UInt8.toNat_inj, UInt8.toNat_sub_of_le _ _ (by rw [UInt8.le_iff_toNat_le]; exact hk)]
    omega
  split
  · rw [Option.some.injEq, sub 48 (by simp; omega)]; simp; omega
  · split
    · rw [Option.some.injEq, sub 55 (by simp; omega)]; simp; omega
    · split
      · rw [Option.some.injEq, sub 87 (by simp; omega)]; simp; omega
      · simp; omega

theorem hexVal_none (b : UInt8) : hexVal b = none ↔ ∀ v, ¬ IsHex b v := by
  constructor
  · intro h v hv
    have hlt : v < 16 := by unfold IsHex at hv; omega
    have := (hexVal_some b (UInt8.ofNat v)).2 (by rw [UInt8.toNat_ofNat_of_lt' (by show v < 256; omega)]; exact hv)
    rw [h] at this; simp at this
  · intro h
    cases hh : hexVal b with
    | none => rfl
    | some v => exact absurd ((hexVal_some b v).1 hh) (h _)

theorem IsHex.unique {b : UInt8} {v w : Nat} (h : IsHex b v) (h' : IsHex b w) : v = w := by
  unfold IsHex at h h'; omega

theorem pctDecode_spec (e : List UInt8) : PctText e (pctDecode e) := by
  have p37 : ∀ b : UInt8, b = 37 ↔ b.toNat = '%'.toNat := by
    intro b; rw [← UInt8.toNat_inj]; rfl
  have short : ∀ (b : UInt8) (e r : List UInt8), e.length < 2 → PctText e r → PctText (b :: e) (b :: r) := by
    intro b e r hl h
    by_cases hb : b.toNat = '%'.toNat
    · refine .percent b e r hb ?_ h
      rintro ⟨h, l, e', _, _, rfl, _⟩; simp only [List.length_cons] at hl; omega
    · exact .raw b e r hb h
  fun_induction pctDecode e with
  | case1 => exact .nil
  | case2 a => exact short a [] [] (by simp) .nil
  | case3 a b => exact short a [b] [b] (by simp) (short b [] [] (by simp) .nil)
  | case4 b c rest x y hy hx ih =>
    have h1 := (hexVal_some b x).1 hx
    have h2 := (hexVal_some c y).1 hy
    refine .escape 37 b c _ x.toNat y.toNat rest _ rfl h1 h2 ?_ ih
    unfold IsHex at h1 h2
    rw [UInt8.toNat_add, UInt8.toNat_mul]
    show (x.toNat * 16 % 256 + y.toNat) % 256 = _
    omega
  | case5 b c rest hno ih =>
    refine .percent 37 _ _ rfl ?_ ih
    rintro ⟨h, l, e', hv, lv, heq, h1, h2⟩
    simp at heq
    obtain ⟨rfl, rfl, rfl⟩ := heq
    cases hx : hexVal b with
    | none => exact (hexVal_none b).1 hx _ h1
    | some x =>
      cases hy : hexVal c with
      | none => exact (hexVal_none c).1 hy _ h2
      | some y => exact hno x y hx hy
  | case6 a b c rest ha ih =>
    exact .raw a _ _ (fun h => ha ((p37 a).2 h)) ih

theorem PctText.unique {e r r' : List UInt8} (h : PctText e r) (h' : PctText e r') : r = r' := by
  induction h generalizing r' with
  | nil => cases h'; rfl
  | raw b e r hb _ ih =>
    cases h' with
    | raw _ _ r' _ h2 => rw [ih h2]
    | escape _ h l v hv lv e' r' hp => exact absurd hp hb
    | percent _ _ r' hp => exact absurd hp hb
  | escape p h l v hv lv e r hp h1 h2 h3 _ ih =>
    cases h' with
    | raw _ _ r' hb => exact absurd hp hb
    | escape _ _ _ v' hv' lv' _ r' _ g1 g2 g3 g4 =>
      rw [ih g4]
      have e1 := h1.unique g1
      have e2 := h2.unique g2
      subst e1; subst e2
      have : v = v' := UInt8.toNat_inj.1 (by rw [h3, g3])
      rw [this]
    | percent _ _ r' _ hno => exact absurd ⟨h, l, e, hv, lv, rfl, h1, h2⟩ hno
  | percent p e r hp hno _ ih =>
    cases h' with
    | raw _ _ r' hb => exact absurd hp hb
    | escape _ h l v' hv' lv' e' r' _ g1 g2 => exact absurd ⟨h, l, e', hv', lv', rfl, g1, g2⟩ hno
    | percent _ _ r' _ _ h2 => rw [ih h2]

theorem pctDecode_iff (e r : List UInt8) : pctDecode e = r ↔ PctText e r :=
  ⟨fun h => h ▸ pctDecode_spec e, fun h => (pctDecode_spec e).unique h⟩

theorem urlDecode_iff (t s : Str) : urlDecode t = some s ↔ PctText (utf8 t) (utf8 s) := by
  unfold urlDecode
  rw [fromUtf8_iff, pctDecode_iff]

end Laya

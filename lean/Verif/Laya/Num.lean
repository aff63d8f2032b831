import Verif.Laya.Str
import Mathlib.Tactic.NormNum
/-!
# `str::parse::<u32>()`

Model of the Rust standard library's `u32::from_str` (radix 10), the parser the code calls at
`src/iiif/parse.rs:43` (with `T = u32`) and `src/iiif/parse.rs:154`.
-/
namespace Laya

/-- `char::to_digit(10)` on the bytes of the text: the value of an ASCII digit. -/
def digit? (c : Char) : Option Nat :=
  if 48 ≤ c.toNat ∧ c.toNat ≤ 57 then some (c.toNat - 48) else none

/-- The digit loop of `u32::from_str_radix(_, 10)`: checked multiply by ten, checked add.
`none` is `Err(PosOverflow)` or `Err(InvalidDigit)`; the code discards which (`map_err(|_| …)`). -/
def u32Loop (acc : Nat) : Str → Option Nat
  | [] => some acc
  | c :: cs =>
    match digit? c with
    | none => none
    | some d => if acc * 10 + d < 2 ^ 32 then u32Loop (acc * 10 + d) cs else none

/-- `str::parse::<u32>()` as called at `src/iiif/parse.rs:43,154`. Empty input and a lone sign are
errors, one leading `+` is skipped, `-` is not a digit. -/
def parseU32 : Str → Option Nat
  | [] => none
  | ['+'] => none
  | '+' :: cs => u32Loop 0 cs
  | cs => u32Loop 0 cs

/-! ## Specification -/

/-- An ASCII decimal digit. -/
def IsDigit (c : Char) : Prop := '0' ≤ c ∧ c ≤ '9'

/-- The number a string of decimal digits denotes. -/
def decVal (ds : Str) : Nat := ds.foldl (fun n c => 10 * n + (c.toNat - '0'.toNat)) 0

/-- `t` is a decimal numeral (optional `+`, at least one digit) denoting `n`, and `n` fits in 32 bits. -/
def U32Text (t : Str) (n : Nat) : Prop :=
  ∃ ds, (t = ds ∨ t = '+' :: ds) ∧ ds ≠ [] ∧ (∀ c ∈ ds, IsDigit c) ∧ decVal ds = n ∧ n < 2 ^ 32

/-! ## Lemmas -/

theorem isDigit_iff (c : Char) : IsDigit c ↔ 48 ≤ c.toNat ∧ c.toNat ≤ 57 := by
  unfold IsDigit
  simp only [Char.le_def, UInt32.le_iff_toNat_le]
  exact Iff.rfl

theorem digit?_some (c : Char) (d : Nat) : digit? c = some d ↔ IsDigit c ∧ d = c.toNat - '0'.toNat := by
  rw [isDigit_iff]; unfold digit?
  have : '0'.toNat = 48 := rfl
  rw [this]
  split <;> simp_all [eq_comm]

theorem digit?_none (c : Char) : digit? c = none ↔ ¬ IsDigit c := by
  rw [isDigit_iff]; unfold digit?
  split <;> simp_all

/-- value of digits after a prefix value -/
def decFrom (a : Nat) (ds : Str) : Nat := ds.foldl (fun n c => 10 * n + (c.toNat - '0'.toNat)) a

theorem decFrom_ge (a : Nat) (ds : Str) : a ≤ decFrom a ds := by
  induction ds generalizing a with
  | nil => simp [decFrom]
  | cons c cs ih =>
    simp only [decFrom, List.foldl_cons]
    exact Nat.le_trans (by omega) (ih _)

theorem decFrom_eq (a : Nat) (ds : Str) : decFrom a ds = a * 10 ^ ds.length + decVal ds := by
  induction ds generalizing a with
  | nil => simp [decFrom, decVal]
  | cons c cs ih =>
    have h0 : decVal (c :: cs) = decFrom (c.toNat - '0'.toNat) cs := by simp [decVal, decFrom]
    have h1 : decFrom a (c :: cs) = decFrom (10 * a + (c.toNat - '0'.toNat)) cs := by
      simp only [decFrom, List.foldl_cons]
    rw [h0, h1, ih, ih, List.length_cons, Nat.pow_succ, Nat.add_mul, Nat.add_assoc,
      Nat.mul_comm 10 a, Nat.mul_assoc, Nat.mul_comm 10]

theorem decVal_append (a b : Str) : decVal (a ++ b) = decVal a * 10 ^ b.length + decVal b := by
  have : decVal (a ++ b) = decFrom (decVal a) b := by simp [decVal, decFrom]
  rw [this, decFrom_eq]

theorem decVal_lt (ds : Str) (h : ∀ c ∈ ds, IsDigit c) : decVal ds < 10 ^ ds.length := by
  induction ds with
  | nil => simp [decVal]
  | cons c cs ih =>
    have h0 : decVal (c :: cs) = decFrom (c.toNat - '0'.toNat) cs := by simp [decVal, decFrom]
    have hc := (isDigit_iff c).1 (h c (by simp))
    have h48 : '0'.toNat = 48 := rfl
    rw [h0, decFrom_eq, h48, List.length_cons, Nat.pow_succ]
    have := ih (fun c hc => h c (by simp [hc]))
    have : (c.toNat - 48) * 10 ^ cs.length ≤ 9 * 10 ^ cs.length := Nat.mul_le_mul_right _ (by omega)
    omega

theorem u32Loop_some (acc : Nat) (s : Str) (n : Nat) (hacc : acc < 2 ^ 32) :
    u32Loop acc s = some n ↔ (∀ c ∈ s, IsDigit c) ∧ decFrom acc s = n ∧ n < 2 ^ 32 := by
  induction s generalizing acc with
  | nil => simp [u32Loop, decFrom]; intro h; omega
  | cons c cs ih =>
    simp only [u32Loop, List.mem_cons, forall_eq_or_imp]
    have hd : decFrom acc (c :: cs) = decFrom (10 * acc + (c.toNat - '0'.toNat)) cs := by
      simp only [decFrom, List.foldl_cons]
    cases hc : digit? c with
    | none => simp only [reduceCtorEq, false_iff]; rw [digit?_none] at hc; tauto
    | some d =>
      obtain ⟨h1, h2⟩ := (digit?_some c d).1 hc
      simp only
      split
      · rename_i hlt
        rw [ih _ hlt, hd, Nat.mul_comm 10, ← h2]
        tauto
      · rename_i hge
        simp only [reduceCtorEq, false_iff]
        rintro ⟨_, h3, h4⟩
        rw [hd] at h3
        have := decFrom_ge (10 * acc + (c.toNat - '0'.toNat)) cs
        omega

theorem parseU32_iff (t : Str) (n : Nat) : parseU32 t = some n ↔ U32Text t n := by
  have key : ∀ cs : Str, u32Loop 0 cs = some n ↔ (∀ c ∈ cs, IsDigit c) ∧ decVal cs = n ∧ n < 2 ^ 32 :=
    fun cs => u32Loop_some 0 cs n (by norm_num)
  unfold U32Text
  unfold parseU32
  split
  · simp
  · simp only [reduceCtorEq, false_iff]
    rintro ⟨ds, h | h, hne, hd, _⟩
    · subst h; have := hd '+' (by simp); rw [isDigit_iff] at this; simp at this
    · simp at h; exact hne h
  · rename_i cs hne
    rw [key]
    constructor
    · rintro ⟨h1, h2⟩; exact ⟨cs, Or.inr rfl, by rintro rfl; simp at hne, h1, h2⟩
    · rintro ⟨ds, h | h, hne', hd, h2⟩
      · subst h; have := hd '+' (by simp); rw [isDigit_iff] at this; simp at this
      · simp at h; subst h; exact ⟨hd, h2⟩
  · rename_i h1 h2 h3
    rw [key]
    constructor
    · rintro ⟨h4, h5⟩; exact ⟨t, Or.inl rfl, h1, h4, h5⟩
    · rintro ⟨ds, h | h, hne', hd, h2⟩
      · subst h; exact ⟨hd, h2⟩
      · exact absurd h (h3 ds)

theorem U32Text.unique {t : Str} {n m : Nat} (h : U32Text t n) (h' : U32Text t m) : n = m := by
  rw [← parseU32_iff] at h h'; rw [h] at h'; exact Option.some.inj h'

theorem U32Text.noComma {t : Str} {n : Nat} (h : U32Text t n) (c : Char) (hc : ¬ IsDigit c) (hp : c ≠ '+') :
    c ∉ t := by
  obtain ⟨ds, h, _, hd, _⟩ := h
  rcases h with rfl | rfl
  · intro hm; exact hc (hd c hm)
  · simp only [List.mem_cons, not_or]; exact ⟨hp, fun hm => hc (hd c hm)⟩

theorem U32Text.ne_nil {t : Str} {n : Nat} (h : U32Text t n) : t ≠ [] := by
  obtain ⟨ds, h, hne, _⟩ := h
  rcases h with rfl | rfl <;> simp [hne]

end Laya

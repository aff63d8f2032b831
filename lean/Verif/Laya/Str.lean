import Mathlib.Tactic.Tauto
import Mathlib.Tactic.ByContra
/-!
# Rust string operations used by laya

Rust's `&str` / `String` is modelled as `List Char` (the sequence of Unicode scalar values).
Every delimiter used by the code is a single ASCII character or an ASCII literal, so the byte
slicing `&s[1..]` after `s.starts_with('^')` is the tail of the list.
-/
namespace Laya

abbrev Str := List Char

/-- A string literal of the Rust source. -/
@[simp] abbrev lit (s : String) : Str := s.toList

/-- `str::split(c)` (used at `src/iiif/parse.rs:35`, `src/http.rs:57`), collected: the pieces between
occurrences of `c`. Always at least one piece. -/
def split (c : Char) : Str → List Str
  | [] => [[]]
  | x :: xs =>
    if x = c then [] :: split c xs
    else match split c xs with
      | [] => [[x]]
      | p :: ps => (x :: p) :: ps

/-- `str::split_once(c)` (`src/iiif/parse.rs:109`, `src/http.rs:88`): split at the first `c`. -/
def splitOnce (c : Char) : Str → Option (Str × Str)
  | [] => none
  | x :: xs =>
    if x = c then some ([], xs)
    else match splitOnce c xs with
      | none => none
      | some (a, b) => some (x :: a, b)

/-- `str::strip_prefix(p)` (`src/iiif/parse.rs:19,97`). -/
def stripPrefix : Str → Str → Option Str
  | [], s => some s
  | _ :: _, [] => none
  | p :: ps, x :: xs => if p = x then stripPrefix ps xs else none

/-- `str::starts_with(char)` followed by `&s[1..]` when it holds
(`src/iiif/parse.rs:94-95,102-103,164-165`): whether the character was there, and the rest. -/
def stripChar (c : Char) : Str → Bool × Str
  | [] => (false, [])
  | x :: xs => if x = c then (true, xs) else (false, x :: xs)

/-- `str::ends_with(p)` (`src/http.rs:28`). -/
def endsWith (p s : Str) : Bool := p.isSuffixOf s

/-- `str::starts_with(p)` for a literal (`src/http.rs:29`). -/
def startsWith (p s : Str) : Bool := p.isPrefixOf s

/-! ## Lemmas -/

theorem split_ne_nil (c : Char) (s : Str) : split c s ≠ [] := by
  cases s with
  | nil => simp [split]
  | cons x xs =>
    simp only [split]
    split
    · simp
    · split <;> simp

theorem split_no (c : Char) (s : Str) (h : c ∉ s) : split c s = [s] := by
  induction s with
  | nil => rfl
  | cons x xs ih =>
    simp only [List.mem_cons, not_or] at h
    simp only [split, ih h.2, if_neg (Ne.symm h.1)]

theorem split_append (c : Char) (a b : Str) (h : c ∉ a) :
    split c (a ++ c :: b) = a :: split c b := by
  induction a with
  | nil => simp [split]
  | cons x xs ih =>
    simp only [List.mem_cons, not_or] at h
    simp only [List.cons_append, split, ih h.2, if_neg (Ne.symm h.1)]

/-- The pieces joined back with `c`. -/
def join (c : Char) : List Str → Str
  | [] => []
  | [a] => a
  | a :: b :: r => a ++ c :: join c (b :: r)

theorem join_split (c : Char) (s : Str) : join c (split c s) = s := by
  induction s with
  | nil => rfl
  | cons x xs ih =>
    simp only [split]
    split
    · rename_i h; subst h
      cases hs : split x xs with
      | nil => exact absurd hs (split_ne_nil _ _)
      | cons p ps => rw [hs] at ih; simp [join, ih]
    · cases hs : split c xs with
      | nil => exact absurd hs (split_ne_nil _ _)
      | cons p ps =>
        rw [hs] at ih
        cases ps with
        | nil => simp only [join] at ih ⊢; rw [ih]
        | cons q qs => simp only [join, List.cons_append] at ih ⊢; rw [ih]

theorem split_pieces (c : Char) (s p : Str) (h : p ∈ split c s) : c ∉ p := by
  induction s generalizing p with
  | nil => simp [split] at h; simp [h]
  | cons x xs ih =>
    simp only [split] at h
    split at h
    · rcases List.mem_cons.1 h with h | h
      · simp [h]
      · exact ih p h
    · rename_i hx
      cases hs : split c xs with
      | nil => exact absurd hs (split_ne_nil _ _)
      | cons q qs =>
        rw [hs] at h ih
        rcases List.mem_cons.1 h with h | h
        · subst h
          simp only [List.mem_cons, not_or]
          exact ⟨fun e => hx e.symm, ih q (by simp)⟩
        · exact ih p (by simp [h])

theorem split_join (c : Char) (a : Str) (l : List Str) (h : ∀ p ∈ a :: l, c ∉ p) :
    split c (join c (a :: l)) = a :: l := by
  induction l generalizing a with
  | nil => simp only [join]; exact split_no c a (h a (by simp))
  | cons b r ih =>
    simp only [join]
    rw [split_append c a _ (h a (by simp)), ih b (fun p hp => h p (by simp at hp ⊢; tauto))]

theorem splitOnce_eq_some (c : Char) (s a b : Str) :
    splitOnce c s = some (a, b) ↔ s = a ++ c :: b ∧ c ∉ a := by
  induction s generalizing a b with
  | nil => simp [splitOnce]
  | cons x xs ih =>
    simp only [splitOnce]
    split
    · rename_i h; subst h
      constructor
      · intro h; simp at h; obtain ⟨h1, h2⟩ := h; subst h1; subst h2; simp
      · rintro ⟨h1, h2⟩
        cases a with
        | nil => simp at h1 ⊢; exact h1
        | cons y ys => simp at h1 h2; exact absurd h1.1 h2.1
    · rename_i hx
      cases hs : splitOnce c xs with
      | none =>
        simp only [reduceCtorEq, false_iff]
        rintro ⟨h1, h2⟩
        cases a with
        | nil => simp at h1; exact hx h1.1
        | cons y ys =>
          simp at h1 h2
          have := (ih ys b).2 ⟨h1.2, h2.2⟩
          rw [hs] at this; exact absurd this (by simp)
      | some q =>
        obtain ⟨u, v⟩ := q
        have hu := (ih u v).1 hs
        simp only [Option.some.injEq, Prod.mk.injEq]
        constructor
        · rintro ⟨h1, h2⟩; subst h1; subst h2
          refine ⟨by simp [hu.1], ?_⟩
          simp only [List.mem_cons, not_or]; exact ⟨fun e => hx e.symm, hu.2⟩
        · rintro ⟨h1, h2⟩
          cases a with
          | nil => simp at h1; exact absurd h1.1 hx
          | cons y ys =>
            simp at h1 h2
            have := (ih ys b).2 ⟨h1.2, h2.2⟩
            rw [hs] at this; simp at this
            simp [h1.1, this.1, this.2]

theorem splitOnce_eq_none (c : Char) (s : Str) : splitOnce c s = none ↔ c ∉ s := by
  induction s with
  | nil => simp [splitOnce]
  | cons x xs ih =>
    simp only [splitOnce]
    split
    · rename_i h; simp [h]
    · rename_i hx
      cases hs : splitOnce c xs with
      | none => simp only [true_iff, List.mem_cons, not_or]; exact ⟨fun e => hx e.symm, ih.1 hs⟩
      | some q =>
        simp only [reduceCtorEq, false_iff, List.mem_cons, not_or, not_and_or, not_not]
        right
        by_contra hc; rw [ih.2 hc] at hs; simp at hs

theorem stripPrefix_eq_some (p s r : Str) : stripPrefix p s = some r ↔ s = p ++ r := by
  induction p generalizing s with
  | nil => simp [stripPrefix]
  | cons a p ih =>
    cases s with
    | nil => simp [stripPrefix]
    | cons x xs =>
      simp only [stripPrefix]
      split
      · rename_i h; subst h; simp [ih]
      · rename_i h; simp; intro e; exact absurd e.symm h

theorem stripPrefix_eq_none (p s : Str) : stripPrefix p s = none ↔ ∀ r, s ≠ p ++ r := by
  constructor
  · intro h r e; rw [(stripPrefix_eq_some p s r).2 e] at h; simp at h
  · intro h
    cases hs : stripPrefix p s with
    | none => rfl
    | some r => exact absurd ((stripPrefix_eq_some p s r).1 hs) (h r)

end Laya

import Verif.Jp2.T1Round
import Verif.Jp2.T1Std
import Mathlib.Tactic.IntervalCases
/-!
# The flag words represent the state of the standard's coder
-/
namespace Jp2.T1
open Std (Block)

/-! ## What `opj_t1_update_flags` does to a cell -/

theorem orAt_getD {F F' : List Word} {i : Nat} {v : Word} (h : orAt F i v = some F') :
    F'.length = F.length ∧ ∀ g, F'.getD g 0 = F.getD g 0 ||| (if g = i then v else 0) := by
  obtain ⟨h1, h2⟩ := orAt_iff.mp h
  subst h2
  refine ⟨List.length_set, fun g => ?_⟩
  rw [getD_set]
  by_cases hg : i = g
  · subst hg
    rw [if_pos ⟨rfl, h1⟩, if_pos rfl]
  · rw [if_neg (fun hh => hg hh.1), if_neg (fun hh => hg hh.symm)]
    simp

theorem orAt_some {F : List Word} {i : Nat} {v : Word} (h : i < F.length) : ∃ F', orAt F i v = some F' := by
  unfold orAt
  rw [List.getElem?_eq_getElem h]
  exact ⟨_, rfl⟩

theorem clrAt_getD {F F' : List Word} {i : Nat} {v : Word} (h : clrAt F i v = some F') :
    F'.length = F.length ∧ ∀ g, F'.getD g 0 = if g = i then F.getD g 0 &&& ~~~v else F.getD g 0 := by
  obtain ⟨h1, h2⟩ := clrAt_iff.mp h
  subst h2
  refine ⟨List.length_set, fun g => ?_⟩
  rw [getD_set]
  by_cases hg : i = g
  · subst hg
    rw [if_pos ⟨rfl, h1⟩, if_pos rfl]
  · rw [if_neg (fun hh => hg hh.1), if_neg (fun hh => hg hh.symm)]

theorem clrAt_some {F : List Word} {i : Nat} {v : Word} (h : i < F.length) : ∃ F', clrAt F i v = some F' := by
  unfold clrAt
  rw [List.getElem?_eq_getElem h]
  exact ⟨_, rfl⟩

/-- What is added to cell `g`. -/
def added (stride f ci s : Nat) (vsc : Bool) (g : Nat) : Word :=
  (if g = f - 1 then 0x20#32 <<< (3 * ci) else 0) ||| (if g = f then ((BitVec.ofNat 32 s <<< 19) ||| 0x10#32) <<< (3 * ci) else 0) |||
  (if g = f + 1 then 0x8#32 <<< (3 * ci) else 0) |||
  (if ci = 0 ∧ vsc = false then
    (if g = f - stride then (BitVec.ofNat 32 s <<< 31) ||| 0x10000#32 else 0) ||| (if g = f - stride - 1 then 0x20000#32 else 0) |||
    (if g = f - stride + 1 then 0x8000#32 else 0) else 0) |||
  (if ci = 3 then
    (if g = f + stride then (BitVec.ofNat 32 s <<< 18) ||| 0x2#32 else 0) ||| (if g = f + stride - 1 then 0x4#32 else 0) |||
    (if g = f + stride + 1 then 0x1#32 else 0) else 0)

theorem updateFlags_added {stride f ci s : Nat} {vsc : Bool} {F : List Word} (h1 : stride + 1 ≤ f) (h2 : f + stride + 1 < F.length) :
    ∃ F', updateFlags stride f ci s vsc F = some F' ∧ F'.length = F.length ∧ ∀ g, F'.getD g 0 = F.getD g 0 ||| added stride f ci s vsc g := by
  unfold updateFlags
  rw [if_neg (by omega)]
  obtain ⟨F1, e1⟩ := orAt_some (F := F) (i := f - 1) (v := 0x20#32 <<< (3 * ci)) (by omega)
  obtain ⟨l1, g1⟩ := orAt_getD e1
  obtain ⟨F2, e2⟩ := orAt_some (F := F1) (i := f) (v := ((BitVec.ofNat 32 s <<< 19) ||| 0x10#32) <<< (3 * ci)) (by omega)
  obtain ⟨l2, g2⟩ := orAt_getD e2
  obtain ⟨F3, e3⟩ := orAt_some (F := F2) (i := f + 1) (v := 0x8#32 <<< (3 * ci)) (by omega)
  obtain ⟨l3, g3⟩ := orAt_getD e3
  rw [e1, Option.bind_some, e2, Option.bind_some, e3, Option.bind_some]
  have north : ∃ F4, (if ci = 0 ∧ vsc = false then
      if f < stride + 1 then none else
      (orAt F3 (f - stride) ((BitVec.ofNat 32 s <<< 31) ||| 0x10000#32)).bind fun F =>
      (orAt F (f - stride - 1) 0x20000#32).bind fun F => orAt F (f - stride + 1) 0x8000#32
      else some F3) = some F4 ∧ F4.length = F3.length ∧ ∀ g, F4.getD g 0 = F3.getD g 0 ||| (if ci = 0 ∧ vsc = false then
    (if g = f - stride then (BitVec.ofNat 32 s <<< 31) ||| 0x10000#32 else 0) ||| (if g = f - stride - 1 then 0x20000#32 else 0) |||
    (if g = f - stride + 1 then 0x8000#32 else 0) else 0) := by
    by_cases hc : ci = 0 ∧ vsc = false
    · simp only [if_pos hc]
      rw [if_neg (by omega)]
      obtain ⟨A1, a1⟩ := orAt_some (F := F3) (i := f - stride) (v := (BitVec.ofNat 32 s <<< 31) ||| 0x10000#32) (by omega)
      obtain ⟨m1, b1⟩ := orAt_getD a1
      obtain ⟨A2, a2⟩ := orAt_some (F := A1) (i := f - stride - 1) (v := 0x20000#32) (by omega)
      obtain ⟨m2, b2⟩ := orAt_getD a2
      obtain ⟨A3, a3⟩ := orAt_some (F := A2) (i := f - stride + 1) (v := 0x8000#32) (by omega)
      obtain ⟨m3, b3⟩ := orAt_getD a3
      refine ⟨A3, by rw [a1, Option.bind_some, a2, Option.bind_some, a3], by omega, fun g => ?_⟩
      rw [b3, b2, b1]
      simp only [BitVec.or_assoc]
    · simp only [if_neg hc]
      exact ⟨F3, rfl, rfl, fun g => by simp⟩
  obtain ⟨F4, e4, l4, g4⟩ := north
  have south : ∃ F5, (if ci = 3 then
    (orAt F4 (f + stride) ((BitVec.ofNat 32 s <<< 18) ||| 0x2#32)).bind fun F =>
    (orAt F (f + stride - 1) 0x4#32).bind fun F => orAt F (f + stride + 1) 0x1#32
      else some F4) = some F5 ∧ F5.length = F4.length ∧ ∀ g, F5.getD g 0 = F4.getD g 0 ||| (if ci = 3 then
    (if g = f + stride then (BitVec.ofNat 32 s <<< 18) ||| 0x2#32 else 0) ||| (if g = f + stride - 1 then 0x4#32 else 0) |||
    (if g = f + stride + 1 then 0x1#32 else 0) else 0) := by
    by_cases hc : ci = 3
    · simp only [if_pos hc]
      obtain ⟨A1, a1⟩ := orAt_some (F := F4) (i := f + stride) (v := (BitVec.ofNat 32 s <<< 18) ||| 0x2#32) (by omega)
      obtain ⟨m1, b1⟩ := orAt_getD a1
      obtain ⟨A2, a2⟩ := orAt_some (F := A1) (i := f + stride - 1) (v := 0x4#32) (by omega)
      obtain ⟨m2, b2⟩ := orAt_getD a2
      obtain ⟨A3, a3⟩ := orAt_some (F := A2) (i := f + stride + 1) (v := 0x1#32) (by omega)
      obtain ⟨m3, b3⟩ := orAt_getD a3
      refine ⟨A3, by rw [a1, Option.bind_some, a2, Option.bind_some, a3], by omega, fun g => ?_⟩
      rw [b3, b2, b1]
      simp only [BitVec.or_assoc]
    · simp only [if_neg hc]
      exact ⟨F4, rfl, rfl, fun g => by simp⟩
  obtain ⟨F5, e5, l5, g5⟩ := south
  refine ⟨F5, by rw [e4, Option.bind_some, e5], by omega, fun g => ?_⟩
  rw [g5, g4, g3, g2, g1]
  unfold added
  simp only [BitVec.or_assoc]

/-! ## Representation -/

/-- Significance with a border around the block: rows and columns counted from 1. -/
def padded (B : Block) (s : Std.St) (Y X : Nat) : Bool := decide (1 ≤ Y ∧ Y ≤ B.h ∧ 1 ≤ X ∧ X ≤ B.w) && s.sig (Y - 1) (X - 1)

theorem near_padded (B : Block) (s : Std.St) (y x i j : Nat) :
    Std.near B s y x i j = (padded B s (y + i) (x + j) && !(B.causal && i == 2 && y % 4 == 3)) := by
  unfold Std.near padded
  generalize (decide (1 ≤ y + i ∧ y + i ≤ B.h ∧ 1 ≤ x + j ∧ x + j ≤ B.w)) = a
  generalize s.sig (y + i - 1) (x + j - 1) = b
  generalize (B.causal && i == 2 && y % 4 == 3) = c
  cases a <;> cases b <;> cases c <;> rfl

/-- The word of stripe `k`, column `X` counted from 1. -/
def wd (F : List Word) (w k X : Nat) : Word := F.getD ((k + 1) * (w + 2) + X) 0

structure Rep (B : Block) (s : Std.St) (F : List Word) : Prop where
  len : F.length = ((B.h + 3) / 4 + 2) * (B.w + 2)
  sg : ∀ k < (B.h + 3) / 4, ∀ X, 1 ≤ X → X ≤ B.w → ∀ j < 6, ∀ c < 3,
    (wd F B.w k X).getLsbD (3 * j + c) = (padded B s (4 * k + j) (X + c - 1) && !(B.causal && j == 5))
  own : ∀ k < (B.h + 3) / 4, ∀ X ≤ B.w + 1, ∀ j < 4, (wd F B.w k X).getLsbD (19 + 3 * j) = (padded B s (4 * k + j + 1) X && B.neg (4 * k + j) (X - 1))
  no : ∀ k < (B.h + 3) / 4, ∀ X, 1 ≤ X → X ≤ B.w → (wd F B.w k X).getLsbD 18 = (padded B s (4 * k) X && B.neg (4 * k - 1) (X - 1))
  so : ∀ k < (B.h + 3) / 4, ∀ X, 1 ≤ X → X ≤ B.w → (wd F B.w k X).getLsbD 31 = (padded B s (4 * k + 5) X && B.neg (4 * k + 4) (X - 1) && !B.causal)
  mu : ∀ k < (B.h + 3) / 4, ∀ X, 1 ≤ X → X ≤ B.w → ∀ j < 4, (wd F B.w k X).getLsbD (20 + 3 * j) = s.ref (4 * k + j) (X - 1)
  pi : ∀ k < (B.h + 3) / 4, ∀ X, 1 ≤ X → X ≤ B.w → ∀ j < 4, 4 * k + j < B.h → (wd F B.w k X).getLsbD (21 + 3 * j) = s.vis (4 * k + j) (X - 1)
  rs : ∀ y x, s.ref y x = true → s.sig y x = true

theorem cell_wd (w y x : Nat) : cell w y x = (y / 4 + 1) * (w + 2) + (x + 1) := by
  unfold cell
  rw [Nat.add_mul]
  omega

/-- The cells around a cell. -/
theorem cell_cases {w k X k' X' : Nat} (hX1 : 1 ≤ X) (hX : X ≤ w) (hX' : X' ≤ w + 1) :
    ((k' + 1) * (w + 2) + X' = (k + 1) * (w + 2) + X - 1 ↔ k' = k ∧ X' + 1 = X) ∧
    ((k' + 1) * (w + 2) + X' = (k + 1) * (w + 2) + X ↔ k' = k ∧ X' = X) ∧
    ((k' + 1) * (w + 2) + X' = (k + 1) * (w + 2) + X + 1 ↔ k' = k ∧ X' = X + 1) ∧
    ((k' + 1) * (w + 2) + X' = (k + 1) * (w + 2) + X - (w + 2) ↔ k' + 1 = k ∧ X' = X) ∧
    ((k' + 1) * (w + 2) + X' = (k + 1) * (w + 2) + X - (w + 2) - 1 ↔ k' + 1 = k ∧ X' + 1 = X) ∧
    ((k' + 1) * (w + 2) + X' = (k + 1) * (w + 2) + X - (w + 2) + 1 ↔ k' + 1 = k ∧ X' = X + 1) ∧
    ((k' + 1) * (w + 2) + X' = (k + 1) * (w + 2) + X + (w + 2) ↔ k' = k + 1 ∧ X' = X) ∧
    ((k' + 1) * (w + 2) + X' = (k + 1) * (w + 2) + X + (w + 2) - 1 ↔ k' = k + 1 ∧ X' + 1 = X) ∧
    ((k' + 1) * (w + 2) + X' = (k + 1) * (w + 2) + X + (w + 2) + 1 ↔ k' = k + 1 ∧ X' = X + 1) := by
  have key : ∀ a (b : Nat) c, c ≤ w + 1 → ((k' + 1) * (w + 2) + X' = a * (w + 2) + c ↔ k' + 1 = a ∧ X' = c) := by
    intro a b c hc
    constructor
    · intro h
      exact pair_inj h (by omega) (by omega)
    · rintro ⟨rfl, rfl⟩; rfl
  have e1 : (k + 1) * (w + 2) = k * (w + 2) + (w + 2) := by rw [Nat.add_mul, Nat.one_mul]
  have e2 : (k + 2) * (w + 2) = (k + 1) * (w + 2) + (w + 2) := by rw [Nat.add_mul, Nat.add_mul]; omega
  refine ⟨?_, ?_, ?_, ?_, ?_, ?_, ?_, ?_, ?_⟩
  · rw [show (k + 1) * (w + 2) + X - 1 = (k + 1) * (w + 2) + (X - 1) by omega, key _ 0 _ (by omega)]; omega
  · rw [key _ 0 _ (by omega)]; omega
  · rw [Nat.add_assoc, key _ 0 _ (by omega)]; omega
  · rw [show (k + 1) * (w + 2) + X - (w + 2) = k * (w + 2) + X by omega, key _ 0 _ (by omega)]
  · rw [show (k + 1) * (w + 2) + X - (w + 2) - 1 = k * (w + 2) + (X - 1) by omega, key _ 0 _ (by omega)]; omega
  · rw [show (k + 1) * (w + 2) + X - (w + 2) + 1 = k * (w + 2) + (X + 1) by omega, key _ 0 _ (by omega)]
  · rw [show (k + 1) * (w + 2) + X + (w + 2) = (k + 2) * (w + 2) + X by omega, key _ 0 _ (by omega)]; omega
  · rw [show (k + 1) * (w + 2) + X + (w + 2) - 1 = (k + 2) * (w + 2) + (X - 1) by omega, key _ 0 _ (by omega)]; omega
  · rw [show (k + 1) * (w + 2) + X + (w + 2) + 1 = (k + 2) * (w + 2) + (X + 1) by omega, key _ 0 _ (by omega)]; omega

theorem ite_bit {p : Prop} [Decidable p] (v : Word) (b : Nat) : (if p then v else 0).getLsbD b = (decide p && v.getLsbD b) := by
  by_cases hp : p
  · rw [if_pos hp, decide_eq_true hp, Bool.true_and]
  · rw [if_neg hp, decide_eq_false hp, Bool.false_and]; simp

/-- Bits of `added`, given those of its parts. -/
theorem added_bit {w k X k' X' ci s b : Nat} {vsc : Bool} (hX1 : 1 ≤ X) (hX : X ≤ w) (hX' : X' ≤ w + 1) :
    (added (w + 2) ((k + 1) * (w + 2) + X) ci s vsc ((k' + 1) * (w + 2) + X')).getLsbD b =
      ((decide (k' = k ∧ X' + 1 = X) && (0x20#32 <<< (3 * ci)).getLsbD b) ||
      (decide (k' = k ∧ X' = X) && (((BitVec.ofNat 32 s <<< 19) ||| 0x10#32) <<< (3 * ci)).getLsbD b) ||
      (decide (k' = k ∧ X' = X + 1) && (0x8#32 <<< (3 * ci)).getLsbD b) ||
      (decide (ci = 0 ∧ vsc = false) && (
        (decide (k' + 1 = k ∧ X' = X) && ((BitVec.ofNat 32 s <<< 31) ||| 0x10000#32).getLsbD b) ||
        (decide (k' + 1 = k ∧ X' + 1 = X) && (0x20000#32).getLsbD b) ||
        (decide (k' + 1 = k ∧ X' = X + 1) && (0x8000#32).getLsbD b))) ||
      (decide (ci = 3) && (
        (decide (k' = k + 1 ∧ X' = X) && ((BitVec.ofNat 32 s <<< 18) ||| 0x2#32).getLsbD b) ||
        (decide (k' = k + 1 ∧ X' + 1 = X) && (0x4#32).getLsbD b) ||
        (decide (k' = k + 1 ∧ X' = X + 1) && (0x1#32).getLsbD b)))) := by
  obtain ⟨c1, c2, c3, c4, c5, c6, c7, c8, c9⟩ := cell_cases (w := w) (k := k) (X := X) (k' := k') (X' := X') hX1 hX hX'
  unfold added
  simp only [BitVec.getLsbD_or, ite_bit, c1, c2, c3, c4, c5, c6, c7, c8, c9]

set_option synthInstance.maxSize 2000 in
set_option synthInstance.maxHeartbeats 400000 in
theorem parts_sg : ∀ ci < 4, ∀ s < 2, ∀ j < 6, ∀ c < 3,
    (0x20#32 <<< (3 * ci)).getLsbD (3 * j + c) = decide (j = ci + 1 ∧ c = 2) ∧
    (((BitVec.ofNat 32 s <<< 19) ||| 0x10#32) <<< (3 * ci)).getLsbD (3 * j + c) = decide (j = ci + 1 ∧ c = 1) ∧
    (0x8#32 <<< (3 * ci)).getLsbD (3 * j + c) = decide (j = ci + 1 ∧ c = 0) ∧
    ((BitVec.ofNat 32 s <<< 31) ||| 0x10000#32).getLsbD (3 * j + c) = decide (j = 5 ∧ c = 1) ∧
    (0x20000#32).getLsbD (3 * j + c) = decide (j = 5 ∧ c = 2) ∧ (0x8000#32).getLsbD (3 * j + c) = decide (j = 5 ∧ c = 0) ∧
    ((BitVec.ofNat 32 s <<< 18) ||| 0x2#32).getLsbD (3 * j + c) = decide (j = 0 ∧ c = 1) ∧
    (0x4#32).getLsbD (3 * j + c) = decide (j = 0 ∧ c = 2) ∧ (0x1#32).getLsbD (3 * j + c) = decide (j = 0 ∧ c = 0) := by decide +kernel

set_option synthInstance.maxSize 2000 in
set_option synthInstance.maxHeartbeats 400000 in
theorem parts_own : ∀ ci < 4, ∀ s < 2, ∀ j < 4,
    (0x20#32 <<< (3 * ci)).getLsbD (19 + 3 * j) = false ∧
    (((BitVec.ofNat 32 s <<< 19) ||| 0x10#32) <<< (3 * ci)).getLsbD (19 + 3 * j) = decide (j = ci ∧ s = 1) ∧
    (0x8#32 <<< (3 * ci)).getLsbD (19 + 3 * j) = false ∧
    ((BitVec.ofNat 32 s <<< 31) ||| 0x10000#32).getLsbD (19 + 3 * j) = false ∧
    (0x20000#32).getLsbD (19 + 3 * j) = false ∧ (0x8000#32).getLsbD (19 + 3 * j) = false ∧
    ((BitVec.ofNat 32 s <<< 18) ||| 0x2#32).getLsbD (19 + 3 * j) = false ∧
    (0x4#32).getLsbD (19 + 3 * j) = false ∧ (0x1#32).getLsbD (19 + 3 * j) = false := by decide +kernel

set_option synthInstance.maxSize 2000 in
set_option synthInstance.maxHeartbeats 400000 in
/-- Neither the `MU` nor the `PI` bits. -/
theorem parts_mupi : ∀ ci < 4, ∀ s < 2, ∀ j < 4, ∀ a < 2,
    (0x20#32 <<< (3 * ci)).getLsbD (20 + a + 3 * j) = false ∧
    (((BitVec.ofNat 32 s <<< 19) ||| 0x10#32) <<< (3 * ci)).getLsbD (20 + a + 3 * j) = false ∧
    (0x8#32 <<< (3 * ci)).getLsbD (20 + a + 3 * j) = false ∧
    ((BitVec.ofNat 32 s <<< 31) ||| 0x10000#32).getLsbD (20 + a + 3 * j) = false ∧
    (0x20000#32).getLsbD (20 + a + 3 * j) = false ∧ (0x8000#32).getLsbD (20 + a + 3 * j) = false ∧
    ((BitVec.ofNat 32 s <<< 18) ||| 0x2#32).getLsbD (20 + a + 3 * j) = false ∧
    (0x4#32).getLsbD (20 + a + 3 * j) = false ∧ (0x1#32).getLsbD (20 + a + 3 * j) = false := by decide +kernel

set_option synthInstance.maxSize 2000 in
set_option synthInstance.maxHeartbeats 400000 in
theorem parts_no : ∀ ci < 4, ∀ s < 2,
    ((0x20#32 <<< (3 * ci)).getLsbD 18 = false ∧
    (((BitVec.ofNat 32 s <<< 19) ||| 0x10#32) <<< (3 * ci)).getLsbD 18 = false ∧
    (0x8#32 <<< (3 * ci)).getLsbD 18 = false ∧
    ((BitVec.ofNat 32 s <<< 31) ||| 0x10000#32).getLsbD 18 = false ∧
    (0x20000#32).getLsbD 18 = false ∧ (0x8000#32).getLsbD 18 = false ∧
    ((BitVec.ofNat 32 s <<< 18) ||| 0x2#32).getLsbD 18 = decide (s = 1) ∧
    (0x4#32).getLsbD 18 = false ∧ (0x1#32).getLsbD 18 = false) ∧
    ((0x20#32 <<< (3 * ci)).getLsbD 31 = false ∧
    (((BitVec.ofNat 32 s <<< 19) ||| 0x10#32) <<< (3 * ci)).getLsbD 31 = false ∧
    (0x8#32 <<< (3 * ci)).getLsbD 31 = false ∧
    ((BitVec.ofNat 32 s <<< 31) ||| 0x10000#32).getLsbD 31 = decide (s = 1) ∧
    (0x20000#32).getLsbD 31 = false ∧ (0x8000#32).getLsbD 31 = false ∧
    ((BitVec.ofNat 32 s <<< 18) ||| 0x2#32).getLsbD 31 = false ∧
    (0x4#32).getLsbD 31 = false ∧ (0x1#32).getLsbD 31 = false) := by decide +kernel

theorem padded_put {B : Block} {s : Std.St} {y x Y X : Nat} (hy : y < B.h) (hx : x < B.w) :
    padded B { s with sig := Std.put s.sig y x true } Y X = (padded B s Y X || decide (Y = y + 1 ∧ X = x + 1)) := by
  unfold padded Std.put
  dsimp only
  by_cases h : Y = y + 1 ∧ X = x + 1
  · obtain ⟨rfl, rfl⟩ := h
    simp
    omega
  · rw [decide_eq_false h, Bool.or_false]
    by_cases hin : 1 ≤ Y ∧ Y ≤ B.h ∧ 1 ≤ X ∧ X ≤ B.w
    · rw [if_neg (by omega)]
    · rw [decide_eq_false hin, Bool.false_and, Bool.false_and]

set_option maxHeartbeats 4000000 in
/-- Which neighbours see the change. -/
theorem sum_sg {k k' x X' y ci j c : Nat} {causal vsc : Bool} (hy : y = 4 * k + ci) (hi : ci < 4) (hj : j < 6) (hc : c < 3) (h1 : 1 ≤ X') (hv : ci = 0 → vsc = causal) :
    ((decide (k' = k ∧ X' + 1 = x + 1) && decide (j = ci + 1 ∧ c = 2)) || (decide (k' = k ∧ X' = x + 1) && decide (j = ci + 1 ∧ c = 1)) ||
      (decide (k' = k ∧ X' = x + 1 + 1) && decide (j = ci + 1 ∧ c = 0)) ||
      (decide (ci = 0 ∧ vsc = false) && ((decide (k' + 1 = k ∧ X' = x + 1) && decide (j = 5 ∧ c = 1)) ||
        (decide (k' + 1 = k ∧ X' + 1 = x + 1) && decide (j = 5 ∧ c = 2)) || (decide (k' + 1 = k ∧ X' = x + 1 + 1) && decide (j = 5 ∧ c = 0)))) ||
      (decide (ci = 3) && ((decide (k' = k + 1 ∧ X' = x + 1) && decide (j = 0 ∧ c = 1)) ||
        (decide (k' = k + 1 ∧ X' + 1 = x + 1) && decide (j = 0 ∧ c = 2)) || (decide (k' = k + 1 ∧ X' = x + 1 + 1) && decide (j = 0 ∧ c = 0))))) =
      (decide (4 * k' + j = y + 1 ∧ X' + c - 1 = x + 1) && !(causal && j == 5)) := by
  subst hy
  rw [Bool.eq_iff_iff]
  interval_cases ci
  · have := hv rfl
    subst this
    cases vsc <;> interval_cases j <;> interval_cases c <;> simp <;> omega
  all_goals
    clear hv
    cases causal <;> interval_cases j <;> interval_cases c <;> simp <;> omega

set_option maxHeartbeats 1000000 in
/-- A coefficient becomes significant. -/
theorem rep_update {B : Block} {s : Std.St} {F : List Word} (hR : Rep B s F) {y x sgn : Nat} {vsc : Bool} (hy : y < B.h) (hx : x < B.w) (hs : sgn = Std.one (B.neg y x))
    (hv : y % 4 = 0 → vsc = B.causal) :
    ∃ F', updateFlags (B.w + 2) (cell B.w y x) (y % 4) sgn vsc F = some F' ∧ Rep B { s with sig := Std.put s.sig y x true } F' := by
  have hk : y / 4 < (B.h + 3) / 4 := by omega
  have hlen := hR.len
  have hc := cell_wd B.w y x
  have hub : (y / 4 + 3) * (B.w + 2) ≤ ((B.h + 3) / 4 + 2) * (B.w + 2) := Nat.mul_le_mul_right _ (by omega)
  have e1 : (y / 4 + 1) * (B.w + 2) = y / 4 * (B.w + 2) + (B.w + 2) := by rw [Nat.add_mul, Nat.one_mul]
  have e3 : (y / 4 + 3) * (B.w + 2) = (y / 4 + 1) * (B.w + 2) + (B.w + 2) + (B.w + 2) := by rw [Nat.add_mul, Nat.add_mul]; omega
  obtain ⟨F', u1, u2, u3⟩ := updateFlags_added (stride := B.w + 2) (f := cell B.w y x) (ci := y % 4) (s := sgn) (vsc := vsc) (F := F) (by omega) (by omega)
  refine ⟨F', u1, ?_⟩
  have hs2 : sgn < 2 := by rw [hs]; unfold Std.one; split <;> omega
  have hs1 : (sgn = 1) ↔ B.neg y x = true := by rw [hs]; unfold Std.one; split <;> simp_all
  have hi : y % 4 < 4 := Nat.mod_lt _ (by omega)
  have word : ∀ k' X' b, X' ≤ B.w + 1 → (wd F' B.w k' X').getLsbD b = ((wd F B.w k' X').getLsbD b ||
      (added (B.w + 2) ((y / 4 + 1) * (B.w + 2) + (x + 1)) (y % 4) sgn vsc ((k' + 1) * (B.w + 2) + X')).getLsbD b) := by
    intro k' X' b _
    unfold wd
    rw [u3, hc, BitVec.getLsbD_or]
  have hdiv := Nat.div_add_mod y 4
  generalize hkk : y / 4 = k at *
  generalize hcc : y % 4 = ci at *
  refine ⟨by rw [u2, hlen], ?_, ?_, ?_, ?_, ?_, ?_, ?_⟩
  · intro k' hk' X' h1 h2 j hj c hc3
    rw [word k' X' _ (by omega), hR.sg k' hk' X' h1 h2 j hj c hc3, added_bit (by omega) (by omega) (by omega), padded_put hy hx]
    obtain ⟨p1, p2, p3, p4, p5, p6, p7, p8, p9⟩ := parts_sg ci hi sgn hs2 j hj c hc3
    rw [p1, p2, p3, p4, p5, p6, p7, p8, p9]
    rw [Bool.and_or_distrib_right]
    congr 1
    exact sum_sg (by omega) (by omega) hj hc3 (by omega) hv
  · intro k' hk' X' h2 j hj
    rw [word k' X' _ (by omega), hR.own k' hk' X' h2 j hj, added_bit (by omega) (by omega) (by omega), padded_put hy hx]
    obtain ⟨p1, p2, p3, p4, p5, p6, p7, p8, p9⟩ := parts_own ci hi sgn hs2 j hj
    rw [p1, p2, p3, p4, p5, p6, p7, p8, p9]
    simp only [Bool.and_false, Bool.or_false, Bool.false_or]
    rw [Bool.and_or_distrib_right]
    congr 1
    by_cases hh : 4 * k' + j + 1 = y + 1 ∧ X' = x + 1
    · have e1 : k' = k ∧ X' = x + 1 := by omega
      have e2 : j = ci := by omega
      rw [decide_eq_true hh, decide_eq_true e1, e2]
      have : 4 * k' + ci = y := by omega
      rw [this, hh.2, Nat.add_sub_cancel]
      simp [hs1]
    · rw [decide_eq_false hh, Bool.false_and]
      by_cases e1 : k' = k ∧ X' = x + 1
      · rw [decide_eq_true e1, decide_eq_false (by omega)]; rfl
      · rw [decide_eq_false e1]; rfl
  · intro k' hk' X' h1 h2
    rw [word k' X' _ (by omega), hR.no k' hk' X' h1 h2, added_bit (by omega) (by omega) (by omega), padded_put hy hx]
    obtain ⟨⟨p1, p2, p3, p4, p5, p6, p7, p8, p9⟩, _⟩ := parts_no ci hi sgn hs2
    rw [p1, p2, p3, p4, p5, p6, p7, p8, p9]
    simp only [Bool.and_false, Bool.or_false, Bool.false_or]
    rw [Bool.and_or_distrib_right]
    congr 1
    by_cases hh : 4 * k' = y + 1 ∧ X' = x + 1
    · rw [decide_eq_true hh, decide_eq_true (show ci = 3 by omega), decide_eq_true (show k' = k + 1 ∧ X' = x + 1 by omega), hh.1, hh.2]
      simp [hs1]
    · rw [decide_eq_false hh, Bool.false_and]
      by_cases e1 : ci = 3
      · rw [decide_eq_true e1, decide_eq_false (show ¬ (k' = k + 1 ∧ X' = x + 1) by omega)]; rfl
      · rw [decide_eq_false e1]; rfl
  · intro k' hk' X' h1 h2
    rw [word k' X' _ (by omega), hR.so k' hk' X' h1 h2, added_bit (by omega) (by omega) (by omega), padded_put hy hx]
    obtain ⟨_, ⟨p1, p2, p3, p4, p5, p6, p7, p8, p9⟩⟩ := parts_no ci hi sgn hs2
    rw [p1, p2, p3, p4, p5, p6, p7, p8, p9]
    simp only [Bool.and_false, Bool.or_false, Bool.false_or]
    rw [Bool.and_or_distrib_right, Bool.and_or_distrib_right]
    congr 1
    by_cases hh : 4 * k' + 5 = y + 1 ∧ X' = x + 1
    · have h0 : ci = 0 := by omega
      rw [decide_eq_true hh, decide_eq_true (show k' + 1 = k ∧ X' = x + 1 by omega), hh.2, show 4 * k' + 4 = y by omega, h0, hv h0]
      simp [hs1, Bool.and_comm]
    · rw [decide_eq_false hh, Bool.false_and, Bool.false_and]
      by_cases e1 : ci = 0
      · rw [decide_eq_false (show ¬ (k' + 1 = k ∧ X' = x + 1) by omega)]; simp
      · rw [decide_eq_false (show ¬ (ci = 0 ∧ vsc = false) from fun h => e1 h.1)]; rfl
  · intro k' hk' X' h1 h2 j hj
    rw [word k' X' _ (by omega), hR.mu k' hk' X' h1 h2 j hj, added_bit (by omega) (by omega) (by omega)]
    obtain ⟨p1, p2, p3, p4, p5, p6, p7, p8, p9⟩ := parts_mupi ci hi sgn hs2 j hj 0 (by omega)
    rw [Nat.add_zero] at *
    rw [p1, p2, p3, p4, p5, p6, p7, p8, p9]
    simp
  · intro k' hk' X' h1 h2 j hj hjh
    rw [word k' X' _ (by omega), hR.pi k' hk' X' h1 h2 j hj hjh, added_bit (by omega) (by omega) (by omega)]
    obtain ⟨p1, p2, p3, p4, p5, p6, p7, p8, p9⟩ := parts_mupi ci hi sgn hs2 j hj 1 (by omega)
    rw [p1, p2, p3, p4, p5, p6, p7, p8, p9]
    simp
  · intro y' x' h
    have := hR.rs y' x' h
    unfold Std.put
    dsimp only
    split
    · rfl
    · exact this

end Jp2.T1

import Verif.Jp2.T1
import Mathlib.Tactic.IntervalCases
/-!
# Flag words of the code-block coder: which bits each update touches
-/
namespace Jp2.T1

/-- The significance bit of row `c` of a flag word, and its "coded in this plane" bit. -/
def sgW (x : Word) (c : Nat) : Bool := x.getLsbD (4 + 3 * c)
def piW (x : Word) (c : Nat) : Bool := x.getLsbD (21 + 3 * c)

theorem orAt_iff {F F' : List Word} {i : Nat} {v : Word} :
    orAt F i v = some F' ↔ i < F.length ∧ F' = F.set i (F.getD i 0 ||| v) := by
  unfold orAt
  rw [Option.map_eq_some_iff]
  constructor
  · rintro ⟨x, hx, h⟩
    have := (List.getElem?_eq_some_iff.mp hx).1
    refine ⟨this, ?_⟩
    rw [← h, List.getD_eq_getElem?_getD, hx]; rfl
  · rintro ⟨h1, h2⟩
    refine ⟨F[i], List.getElem?_eq_getElem h1, ?_⟩
    rw [h2, List.getD_eq_getElem?_getD, List.getElem?_eq_getElem h1]; rfl

theorem clrAt_iff {F F' : List Word} {i : Nat} {v : Word} :
    clrAt F i v = some F' ↔ i < F.length ∧ F' = F.set i (F.getD i 0 &&& ~~~v) := by
  unfold clrAt
  rw [Option.map_eq_some_iff]
  constructor
  · rintro ⟨x, hx, h⟩
    have := (List.getElem?_eq_some_iff.mp hx).1
    refine ⟨this, ?_⟩
    rw [← h, List.getD_eq_getElem?_getD, hx]; rfl
  · rintro ⟨h1, h2⟩
    refine ⟨F[i], List.getElem?_eq_getElem h1, ?_⟩
    rw [h2, List.getD_eq_getElem?_getD, List.getElem?_eq_getElem h1]; rfl

theorem getD_set {α : Type} (F : List α) (i j : Nat) (a d : α) : (F.set i a).getD j d = if i = j ∧ i < F.length then a else F.getD j d := by
  rw [List.getD_eq_getElem?_getD, List.getD_eq_getElem?_getD, List.getElem?_set]
  by_cases h : i = j
  · subst h
    by_cases h2 : i < F.length
    · simp [h2]
    · simp [h2]
  · simp [h]

theorem get_getD {F : List Word} {i : Nat} {x : Word} (h : F[i]? = some x) : F.getD i 0 = x ∧ i < F.length := by
  refine ⟨?_, (List.getElem?_eq_some_iff.mp h).1⟩
  rw [List.getD_eq_getElem?_getD, h]; rfl

theorem get_of_lt {F : List Word} {i : Nat} (h : i < F.length) : F[i]? = some (F.getD i 0) := by
  rw [List.getD_eq_getElem?_getD, List.getElem?_eq_getElem h]; rfl

/-! ## Which tracked bits change -/

/-- The masks of `updateFlags` other than the cell's own touch no tracked bit. -/
structure Quiet (v : Word) : Prop where
  sg : ∀ c < 4, sgW v c = false
  pi : ∀ c < 4, piW v c = false

theorem quiet_or {x v : Word} (h : Quiet v) {c : Nat} (hc : c < 4) : sgW (x ||| v) c = sgW x c ∧ piW (x ||| v) c = piW x c := by
  have h1 := h.sg c hc
  have h2 := h.pi c hc
  unfold sgW piW at *
  rw [BitVec.getLsbD_or, BitVec.getLsbD_or, h1, h2, Bool.or_false, Bool.or_false]
  exact ⟨rfl, rfl⟩

theorem quiet_w : ∀ ci < 4, Quiet (0x20#32 <<< (3 * ci)) ∧ Quiet (0x8#32 <<< (3 * ci)) := by
  intro ci h
  interval_cases ci <;> exact ⟨⟨by decide, by decide⟩, ⟨by decide, by decide⟩⟩
theorem quiet_n : ∀ s < 2, Quiet ((BitVec.ofNat 32 s <<< 31) ||| 0x10000#32) ∧ Quiet 0x20000#32 ∧ Quiet 0x8000#32 := by
  intro s h
  interval_cases s <;> exact ⟨⟨by decide, by decide⟩, ⟨by decide, by decide⟩, ⟨by decide, by decide⟩⟩
theorem quiet_s : ∀ s < 2, Quiet ((BitVec.ofNat 32 s <<< 18) ||| 0x2#32) ∧ Quiet 0x4#32 ∧ Quiet 0x1#32 := by
  intro s h
  interval_cases s <;> exact ⟨⟨by decide, by decide⟩, ⟨by decide, by decide⟩, ⟨by decide, by decide⟩⟩

theorem own_or (x : Word) {s ci c : Nat} (hs : s < 2) (hi : ci < 4) (hc : c < 4) :
    sgW (x ||| (((BitVec.ofNat 32 s <<< 19) ||| 0x10#32) <<< (3 * ci))) c = (sgW x c || decide (c = ci)) ∧
    piW (x ||| (((BitVec.ofNat 32 s <<< 19) ||| 0x10#32) <<< (3 * ci))) c = piW x c := by
  have key : ∀ s < 2, ∀ ci < 4, ∀ c < 4, sgW (((BitVec.ofNat 32 s <<< 19) ||| 0x10#32) <<< (3 * ci)) c = decide (c = ci) ∧
    piW (((BitVec.ofNat 32 s <<< 19) ||| 0x10#32) <<< (3 * ci)) c = false := by decide
  obtain ⟨h1, h2⟩ := key s hs ci hi c hc
  unfold sgW piW at *
  rw [BitVec.getLsbD_or, BitVec.getLsbD_or, h1, h2, Bool.or_false]
  exact ⟨rfl, rfl⟩

theorem pi_or (x : Word) {ci c : Nat} (hi : ci < 4) (hc : c < 4) :
    sgW (x ||| (PI_THIS <<< (3 * ci))) c = sgW x c ∧ piW (x ||| (PI_THIS <<< (3 * ci))) c = (piW x c || decide (c = ci)) := by
  have key : ∀ ci < 4, ∀ c < 4, sgW (PI_THIS <<< (3 * ci)) c = false ∧ piW (PI_THIS <<< (3 * ci)) c = decide (c = ci) := by decide
  obtain ⟨h1, h2⟩ := key ci hi c hc
  unfold sgW piW at *
  rw [BitVec.getLsbD_or, BitVec.getLsbD_or, h1, h2, Bool.or_false]
  exact ⟨rfl, rfl⟩

theorem mu_or (x : Word) {ci c : Nat} (hi : ci < 4) (hc : c < 4) :
    sgW (x ||| (MU_THIS <<< (3 * ci))) c = sgW x c ∧ piW (x ||| (MU_THIS <<< (3 * ci))) c = piW x c := by
  have key : ∀ ci < 4, ∀ c < 4, sgW (MU_THIS <<< (3 * ci)) c = false ∧ piW (MU_THIS <<< (3 * ci)) c = false := by decide
  obtain ⟨h1, h2⟩ := key ci hi c hc
  unfold sgW piW at *
  rw [BitVec.getLsbD_or, BitVec.getLsbD_or, h1, h2, Bool.or_false, Bool.or_false]
  exact ⟨rfl, rfl⟩

theorem pi_clr (x : Word) {ci c : Nat} (hi : ci < 4) (hc : c < 4) :
    sgW (x &&& ~~~(PI_THIS <<< (3 * ci))) c = sgW x c ∧ piW (x &&& ~~~(PI_THIS <<< (3 * ci))) c = (piW x c && !decide (c = ci)) := by
  have key : ∀ ci < 4, ∀ c < 4, sgW (~~~(PI_THIS <<< (3 * ci))) c = true ∧ piW (~~~(PI_THIS <<< (3 * ci))) c = !decide (c = ci) := by decide
  obtain ⟨h1, h2⟩ := key ci hi c hc
  unfold sgW piW at *
  rw [BitVec.getLsbD_and, BitVec.getLsbD_and, h1, h2, Bool.and_true]
  exact ⟨rfl, rfl⟩

theorem all_clr (x : Word) {c : Nat} (hc : c < 4) : sgW (x &&& ~~~PI_ALL) c = sgW x c ∧ piW (x &&& ~~~PI_ALL) c = false := by
  have key : ∀ c < 4, sgW (~~~PI_ALL) c = true ∧ piW (~~~PI_ALL) c = false := by decide
  obtain ⟨h1, h2⟩ := key c hc
  unfold sgW piW at *
  rw [BitVec.getLsbD_and, BitVec.getLsbD_and, h1, h2, Bool.and_true, Bool.and_false]
  exact ⟨rfl, rfl⟩

/-- What the flags of all cells become. -/
theorem updateFlags_bits {stride f ci s : Nat} {vsc : Bool} {F F' : List Word} (hs : s < 2) (hi : ci < 4)
    (h : updateFlags stride f ci s vsc F = some F') :
    F'.length = F.length ∧ ∀ j, ∀ c < 4, sgW (F'.getD j 0) c = (sgW (F.getD j 0) c || decide (j = f ∧ c = ci)) ∧
      piW (F'.getD j 0) c = piW (F.getD j 0) c := by
  have quiet : ∀ {A B : List Word} {i : Nat} {v : Word}, Quiet v → orAt A i v = some B →
      B.length = A.length ∧ ∀ j, ∀ c < 4, sgW (B.getD j 0) c = sgW (A.getD j 0) c ∧ piW (B.getD j 0) c = piW (A.getD j 0) c := by
    intro A B i v hq hB
    obtain ⟨h1, h2⟩ := orAt_iff.mp hB
    subst h2
    refine ⟨List.length_set, fun j c hc => ?_⟩
    rw [getD_set]
    split
    · rename_i hij
      rw [← hij.1]
      exact quiet_or hq hc
    · exact ⟨rfl, rfl⟩
  unfold updateFlags at h
  split at h
  · simp at h
  rw [Option.bind_eq_some_iff] at h
  obtain ⟨F1, h1, h⟩ := h
  rw [Option.bind_eq_some_iff] at h
  obtain ⟨F2, h2, h⟩ := h
  rw [Option.bind_eq_some_iff] at h
  obtain ⟨F3, h3, h⟩ := h
  rw [Option.bind_eq_some_iff] at h
  obtain ⟨F4, h4, h⟩ := h
  have q1 := quiet (quiet_w ci hi).1 h1
  have q3 := quiet (quiet_w ci hi).2 h3
  have q4 : F4.length = F3.length ∧ ∀ j, ∀ c < 4, sgW (F4.getD j 0) c = sgW (F3.getD j 0) c ∧ piW (F4.getD j 0) c = piW (F3.getD j 0) c := by
    split at h4
    · split at h4
      · simp at h4
      · rw [Option.bind_eq_some_iff] at h4
        obtain ⟨A1, a1, h4⟩ := h4
        rw [Option.bind_eq_some_iff] at h4
        obtain ⟨A2, a2, a3⟩ := h4
        have r1 := quiet (quiet_n s hs).1 a1
        have r2 := quiet (quiet_n s hs).2.1 a2
        have r3 := quiet (quiet_n s hs).2.2 a3
        refine ⟨by rw [r3.1, r2.1, r1.1], fun j c hc => ?_⟩
        rw [(r3.2 j c hc).1, (r3.2 j c hc).2, (r2.2 j c hc).1, (r2.2 j c hc).2, (r1.2 j c hc).1, (r1.2 j c hc).2]
        exact ⟨rfl, rfl⟩
    · injection h4 with h4
      subst h4
      exact ⟨rfl, fun j c hc => ⟨rfl, rfl⟩⟩
  have q5 : F'.length = F4.length ∧ ∀ j, ∀ c < 4, sgW (F'.getD j 0) c = sgW (F4.getD j 0) c ∧ piW (F'.getD j 0) c = piW (F4.getD j 0) c := by
    split at h
    · rw [Option.bind_eq_some_iff] at h
      obtain ⟨A1, a1, h⟩ := h
      rw [Option.bind_eq_some_iff] at h
      obtain ⟨A2, a2, a3⟩ := h
      have r1 := quiet (quiet_s s hs).1 a1
      have r2 := quiet (quiet_s s hs).2.1 a2
      have r3 := quiet (quiet_s s hs).2.2 a3
      refine ⟨by rw [r3.1, r2.1, r1.1], fun j c hc => ?_⟩
      rw [(r3.2 j c hc).1, (r3.2 j c hc).2, (r2.2 j c hc).1, (r2.2 j c hc).2, (r1.2 j c hc).1, (r1.2 j c hc).2]
      exact ⟨rfl, rfl⟩
    · injection h with h
      subst h
      exact ⟨rfl, fun j c hc => ⟨rfl, rfl⟩⟩
  obtain ⟨hl2, h2⟩ := orAt_iff.mp h2
  refine ⟨by rw [q5.1, q4.1, q3.1, h2, List.length_set, q1.1], fun j c hc => ?_⟩
  rw [(q5.2 j c hc).1, (q5.2 j c hc).2, (q4.2 j c hc).1, (q4.2 j c hc).2, (q3.2 j c hc).1, (q3.2 j c hc).2,
    ← (q1.2 j c hc).1, ← (q1.2 j c hc).2, h2, getD_set]
  split
  · rename_i hij
    obtain ⟨rfl, _⟩ := hij
    have := own_or (F1.getD f 0) hs hi hc
    rw [this.1, this.2]
    exact ⟨by simp, rfl⟩
  · rename_i hij
    have : ¬ (j = f) := fun hh => hij ⟨hh.symm, hl2⟩
    simp [this]

/-! ## Flags that agree up to a mask -/

/-- Two flag arrays agree on the bits of `M j` in every cell `j`. -/
structure Eqv (M : Nat → Word) (F G : List Word) : Prop where
  len : G.length = F.length
  eq : ∀ j, F.getD j 0 &&& M j = G.getD j 0 &&& M j

theorem Eqv.set {M : Nat → Word} {F G : List Word} (h : Eqv M F G) (i : Nat) {x y : Word} (hxy : x &&& M i = y &&& M i) :
    Eqv M (F.set i x) (G.set i y) := by
  refine ⟨by rw [List.length_set, List.length_set, h.len], fun j => ?_⟩
  rw [getD_set, getD_set, h.len]
  split
  · rename_i hij
    rw [← hij.1]; exact hxy
  · exact h.eq j

theorem and_or_congr {x y v m : Word} (h : x &&& m = y &&& m) : (x ||| v) &&& m = (y ||| v) &&& m := by
  rw [BitVec.and_comm, BitVec.and_comm (y ||| v), BitVec.and_or_distrib_left, BitVec.and_or_distrib_left, BitVec.and_comm m x,
    BitVec.and_comm m y, h]

theorem and_and_congr {x y v m : Word} (h : x &&& m = y &&& m) : (x &&& v) &&& m = (y &&& v) &&& m := by
  rw [BitVec.and_assoc, BitVec.and_comm v m, ← BitVec.and_assoc, h, BitVec.and_assoc, BitVec.and_comm m v, ← BitVec.and_assoc]

theorem sub_mask {x y a m : Word} (h : x &&& m = y &&& m) (ha : a &&& m = a) : x &&& a = y &&& a := by
  rw [← ha, BitVec.and_comm a m, ← BitVec.and_assoc, h, BitVec.and_assoc]

theorem orAt_eqv {M : Nat → Word} {F F' G : List Word} {i : Nat} {v : Word} (h : Eqv M F G) (ho : orAt F i v = some F') :
    ∃ G', orAt G i v = some G' ∧ Eqv M F' G' := by
  obtain ⟨h1, h2⟩ := orAt_iff.mp ho
  refine ⟨_, orAt_iff.mpr ⟨by rw [h.len]; exact h1, rfl⟩, ?_⟩
  rw [h2]
  exact h.set i (and_or_congr (h.eq i))

theorem updateFlags_eqv {M : Nat → Word} {stride f ci s : Nat} {vsc : Bool} {F F' G : List Word} (hE : Eqv M F G)
    (h : updateFlags stride f ci s vsc F = some F') : ∃ G', updateFlags stride f ci s vsc G = some G' ∧ Eqv M F' G' := by
  unfold updateFlags at h ⊢
  split at h
  · simp at h
  rename_i hf
  rw [if_neg hf]
  rw [Option.bind_eq_some_iff] at h
  obtain ⟨F1, h1, h⟩ := h
  rw [Option.bind_eq_some_iff] at h
  obtain ⟨F2, h2, h⟩ := h
  rw [Option.bind_eq_some_iff] at h
  obtain ⟨F3, h3, h⟩ := h
  rw [Option.bind_eq_some_iff] at h
  obtain ⟨F4, h4, h⟩ := h
  obtain ⟨G1, g1, e1⟩ := orAt_eqv hE h1
  obtain ⟨G2, g2, e2⟩ := orAt_eqv e1 h2
  obtain ⟨G3, g3, e3⟩ := orAt_eqv e2 h3
  rw [g1, Option.bind_some, g2, Option.bind_some, g3, Option.bind_some]
  have k4 : ∃ G4, (if ci = 0 ∧ vsc = false then
    if f < stride + 1 then none else
    (orAt G3 (f - stride) ((BitVec.ofNat 32 s <<< 31) ||| 0x10000#32)).bind fun F =>
    (orAt F (f - stride - 1) 0x20000#32).bind fun F => orAt F (f - stride + 1) 0x8000#32
    else some G3) = some G4 ∧ Eqv M F4 G4 := by
    split at h4
    · split at h4
      · simp at h4
      · rename_i hc hfs
        rw [Option.bind_eq_some_iff] at h4
        obtain ⟨A1, a1, h4⟩ := h4
        rw [Option.bind_eq_some_iff] at h4
        obtain ⟨A2, a2, a3⟩ := h4
        obtain ⟨B1, b1, e1⟩ := orAt_eqv e3 a1
        obtain ⟨B2, b2, e2⟩ := orAt_eqv e1 a2
        obtain ⟨B3, b3, e3⟩ := orAt_eqv e2 a3
        exact ⟨B3, by rw [if_pos hc, if_neg hfs, b1, Option.bind_some, b2, Option.bind_some, b3], e3⟩
    · rename_i hc
      injection h4 with h4
      subst h4
      exact ⟨G3, if_neg hc, e3⟩
  obtain ⟨G4, g4, e4⟩ := k4
  rw [g4, Option.bind_some]
  split at h
  · rename_i hc
    rw [if_pos hc]
    rw [Option.bind_eq_some_iff] at h
    obtain ⟨A1, a1, h⟩ := h
    rw [Option.bind_eq_some_iff] at h
    obtain ⟨A2, a2, a3⟩ := h
    obtain ⟨B1, b1, e1⟩ := orAt_eqv e4 a1
    obtain ⟨B2, b2, e2⟩ := orAt_eqv e1 a2
    obtain ⟨B3, b3, e3⟩ := orAt_eqv e2 a3
    exact ⟨B3, by rw [b1, Option.bind_some, b2, Option.bind_some, b3], e3⟩
  · rename_i hc
    rw [if_neg hc]
    injection h with h
    subst h
    exact ⟨G4, rfl, e4⟩

/-! ## Reading flags -/

/-- All bits but the four `PI` bits. -/
abbrev NPI : Word := ~~~PI_ALL

theorem shift_mask {x y a m : Word} {s : Nat} (h : x &&& m = y &&& m) (h1 : (a <<< s) >>> s = a) (h2 : (a <<< s) &&& m = a <<< s) :
    (x >>> s) &&& a = (y >>> s) &&& a := by
  rw [← h1, ← BitVec.ushiftRight_and_distrib, ← BitVec.ushiftRight_and_distrib, sub_mask h h2]

theorem sgnIndex_congr {x x' p p' n n' : Word} {ci : Nat} (hi : ci < 4) (hx : x &&& NPI = x' &&& NPI) (hp : p &&& NPI = p' &&& NPI)
    (hn : n &&& NPI = n' &&& NPI) : sgnIndex x p n ci = sgnIndex x' p' n' ci := by
  unfold sgnIndex
  interval_cases ci
  all_goals
    rw [shift_mask (a := 0xAA#32) hx (by decide) (by decide), shift_mask (a := 0x1#32) hp (by decide) (by decide),
      shift_mask (a := 0x4#32) hn (by decide) (by decide), shift_mask (a := 0x40#32) hx (by decide) (by decide)]
    simp only [Nat.reduceAdd, Nat.reduceSub, Nat.reduceMul, Nat.reduceEqDiff, if_true, if_false]
    rw [shift_mask (a := 0x10#32) hx (by decide) (by decide)]

theorem ctxZc_congr {x y : Word} {o ci : Nat} (hi : ci < 4) (h : x &&& NPI = y &&& NPI) : ctxZc o (x >>> (3 * ci)) = ctxZc o (y >>> (3 * ci)) := by
  unfold ctxZc
  rw [shift_mask (a := NEIGHBOURS) h (by interval_cases ci <;> decide) (by interval_cases ci <;> decide)]

theorem ctxMag_congr {x y : Word} {ci : Nat} (hi : ci < 4) (h : x &&& NPI = y &&& NPI) : ctxMag (x >>> (3 * ci)) = ctxMag (y >>> (3 * ci)) := by
  unfold ctxMag
  rw [shift_mask (a := NEIGHBOURS) h (by interval_cases ci <;> decide) (by interval_cases ci <;> decide),
    shift_mask (a := MU_THIS) h (by interval_cases ci <;> decide) (by interval_cases ci <;> decide)]

/-- The bits the test of row `ci` looks at. -/
theorem sigpi_split (x : Word) {ci : Nat} (hi : ci < 4) :
    (x &&& (SIGMA_PI <<< (3 * ci)) = 0 ↔ sgW x ci = false ∧ piW x ci = false) ∧
    (x &&& (SIGMA_PI <<< (3 * ci)) = SIGMA_THIS <<< (3 * ci) ↔ sgW x ci = true ∧ piW x ci = false) := by
  have h1 : SIGMA_PI <<< (3 * ci) = BitVec.twoPow 32 (4 + 3 * ci) ||| BitVec.twoPow 32 (21 + 3 * ci) := by
    interval_cases ci <;> decide
  have h2 : SIGMA_THIS <<< (3 * ci) = BitVec.twoPow 32 (4 + 3 * ci) := by interval_cases ci <;> decide
  rw [h1, h2, BitVec.and_or_distrib_left, BitVec.and_twoPow, BitVec.and_twoPow]
  unfold sgW piW
  cases x.getLsbD (4 + 3 * ci) <;> cases x.getLsbD (21 + 3 * ci) <;> interval_cases ci <;> decide

theorem sgW_congr {x y m : Word} (h : x &&& m = y &&& m) {c : Nat} (hm : sgW m c = true) : sgW x c = sgW y c := by
  have := congrArg (fun z => BitVec.getLsbD z (4 + 3 * c)) h
  unfold sgW at *
  simpa [hm] using this

theorem piW_congr {x y m : Word} (h : x &&& m = y &&& m) {c : Nat} (hm : piW m c = true) : piW x c = piW y c := by
  have := congrArg (fun z => BitVec.getLsbD z (21 + 3 * c)) h
  unfold piW at *
  simpa [hm] using this

theorem zero_bits {c : Nat} : sgW 0 c = false ∧ piW 0 c = false := by
  unfold sgW piW; simp

end Jp2.T1

import Verif.Jp2.Tgt
import Verif.Jp2.T2CodesProps
/-!
# Helper lemmas: coding one tag-tree query
-/
namespace Jp2.Tgt
open Jp2.Bio

/-- The update `wr` makes. -/
def upd (t : Mem Node) (i : Nat) (nd : Node) : Mem Node := fun k => if k = i then some nd else t k

theorem wr_eq_upd (t : Mem Node) (i : Nat) (nd x : Node) (h : t i = some x) : wr t i nd = some (upd t i nd) :=
  wr_of_some t i nd x h

/-- The decoder `s'` is `s` after consuming `n` bits. -/
def Adv (s s' : Bio) (n : Nat) : Prop := DecSafe s' ∧ s'.mem = s.mem ∧ Shift s s' n

theorem Adv.refl (s : Bio) (h : DecSafe s) : Adv s s 0 := ⟨h, rfl, fun _ => rfl, [], rfl⟩

theorem Adv.trans {s t u : Bio} {a b : Nat} (h1 : Adv s t a) (h2 : Adv t u b) : Adv s u (a + b) :=
  ⟨h2.1, h2.2.1.trans h1.2.1, h1.2.2.trans h2.2.2⟩

theorem Adv.starts {s t : Bio} {a b : List Bool} (h : Starts s (a ++ b)) (ht : Adv s t a.length) : Starts t b :=
  h.right ht.2.2

/-- What one node contributes: `d` is `value - low`, `k` is `threshold - low`. -/
def bitsDK (d k : Nat) : List Bool := List.replicate (min d k) false ++ (if d < k then [true] else [])

theorem bitsDK_zero (k : Nat) : bitsDK 0 (k + 1) = [true] := by simp [bitsDK]
theorem bitsDK_k0 (d : Nat) : bitsDK d 0 = [] := by simp [bitsDK]
theorem bitsDK_succ (d k : Nat) : bitsDK (d + 1) (k + 1) = false :: bitsDK d k := by
  simp only [bitsDK, Nat.add_min_add_right, List.replicate_succ, Nat.add_lt_add_iff_right, List.cons_append]

/-- The bits of one node whose running lower bound is `low`. -/
def nodeBits (thr : Int) (nd : Node) (low : Int) : List Bool :=
  if nd.known then [] else bitsDK (nd.value - low).toNat (thr - low).toNat

/-- The node afterwards. -/
def nodeAfter (thr : Int) (nd : Node) (low : Int) : Node :=
  { nd with low := max low (min nd.value thr), known := nd.known || decide (nd.value < thr) }

theorem putBits_cons (s : Bio) (b : Bool) (l : List Bool) :
    putBits s (b :: l) = (putbit s b.toNat).bind fun s => putBits s l := by
  rw [show b :: l = [b] ++ l from rfl, putBits_append, putbit_eq]

theorem encLoop_unknown (k : Nat) (s : Bio) (nd : Node) (low : Int) (hk : nd.known = false)
    (hl : low ≤ nd.value) :
    encLoop k s nd low = (putBits s (bitsDK (nd.value - low).toNat k)).map fun s =>
      (s, { nd with known := decide (nd.value < low + k) }, min nd.value (low + k)) := by
  induction k generalizing s low with
  | zero =>
    simp only [encLoop, bitsDK_k0, putBits, Option.map_some, Option.some.injEq, Prod.mk.injEq, true_and]
    constructor
    · cases nd; simp only at hk hl; subst hk
      congr 1; symm; simp only [decide_eq_false_iff_not]; omega
    · omega
  | succ k ih =>
    simp only [encLoop]
    by_cases h : low ≥ nd.value
    · rw [if_pos h, hk]
      have e : (nd.value - low).toNat = 0 := by omega
      rw [e, bitsDK_zero, ← putbit_eq]
      have e1 : decide (nd.value < low + ((k + 1 : Nat) : Int)) = true := by
        rw [decide_eq_true_iff]; omega
      have e2 : min nd.value (low + ((k + 1 : Nat) : Int)) = low := by omega
      rw [e1, e2]; rfl
    · rw [if_neg h]
      obtain ⟨d, hd⟩ : ∃ d, (nd.value - low).toNat = d + 1 := ⟨(nd.value - low).toNat - 1, by omega⟩
      rw [hd, bitsDK_succ, putBits_cons]
      have e : (nd.value - (low + 1)).toNat = d := by omega
      have e2 : low + 1 + (k : Int) = low + ((k + 1 : Nat) : Int) := by push_cast; ring
      cases hb : putbit s (false).toNat with
      | none => rw [show putbit s 0 = none from hb]; rfl
      | some s' =>
        rw [show putbit s 0 = some s' from hb]
        simp only [Option.bind_some]
        rw [ih s' (low + 1) (by omega), e, e2]

theorem encLoop_eq (thr : Int) (s : Bio) (nd : Node) (low : Int) (hl : low ≤ nd.value)
    (hk : nd.known = true → low = nd.value) :
    (encLoop (thr - low).toNat s nd low).map (fun r => (r.1, { r.2.1 with low := r.2.2 }, r.2.2)) =
      (putBits s (nodeBits thr nd low)).map fun s =>
        (s, nodeAfter thr nd low, (nodeAfter thr nd low).low) := by
  by_cases hkn : nd.known = true
  · have e := hk hkn
    have : encLoop (thr - low).toNat s nd low = some (s, nd, low) := by
      cases (thr - low).toNat with
      | zero => rfl
      | succ k => simp only [encLoop]; rw [if_pos (by omega), if_pos hkn]
    rw [this]
    unfold nodeBits nodeAfter
    rw [if_pos hkn, hkn]
    simp only [putBits, Option.map_some, Bool.true_or]
    have e2 : max low (min nd.value thr) = low := by omega
    rw [e2]
    cases nd; simp only at hkn; subst hkn; rfl
  · have hkn : nd.known = false := by simpa using hkn
    rw [encLoop_unknown _ _ _ _ hkn hl]
    unfold nodeBits nodeAfter
    rw [hkn]
    simp only [Bool.false_eq_true, if_false, Bool.false_or, Option.map_map, Function.comp_def]
    congr 1
    funext s
    have e1 : decide (nd.value < low + ((thr - low).toNat : Int)) = decide (nd.value < thr) := by
      apply decide_eq_decide.mpr; omega
    have e2 : min nd.value (low + ((thr - low).toNat : Int)) = max low (min nd.value thr) := by omega
    rw [e1, e2]

/-- The decoder's copy of a node. -/
def decView (nd : Node) : Node := { nd with value := if nd.known then nd.value else 999, known := false }

theorem read1_starts (s : Bio) (hs : DecSafe s) (b : Bool) (h : Starts s [b]) :
    ∃ t, read s 1 = some (b.toNat, t) ∧ Adv s t 1 := by
  obtain ⟨t, g1, g2, g3, g4⟩ := read_starts s hs 1 [b] rfl (by omega) (by omega) h
  refine ⟨t, ?_, g2, g3, g4⟩
  rw [g1]; cases b <;> rfl

theorem decLoop_unknown (k : Nat) (s : Bio) (hs : DecSafe s) (nd : Node) (low v : Int) (hl : low ≤ v)
    (hc : low + k ≤ 999 ∨ v < 999) (hnd : nd.value = 999) (hst : Starts s (bitsDK (v - low).toNat k)) :
    ∃ s', decLoop k s nd low = some (s', { nd with value := if v < low + k then v else 999 }, min v (low + k)) ∧
      Adv s s' (bitsDK (v - low).toNat k).length := by
  induction k generalizing s low with
  | zero =>
    refine ⟨s, ?_, by rw [bitsDK_k0]; exact Adv.refl s hs⟩
    simp only [decLoop, Option.some.injEq, Prod.mk.injEq, true_and]
    rw [if_neg (by omega)]
    refine ⟨by cases nd; simp only at hnd; subst hnd; rfl, by omega⟩
  | succ k ih =>
    simp only [decLoop]
    rw [if_pos (by omega)]
    by_cases h : low ≥ v
    · have e : (v - low).toNat = 0 := by omega
      rw [e, bitsDK_zero] at hst ⊢
      obtain ⟨t, h1, h2⟩ := read1_starts s hs true hst
      refine ⟨t, ?_, h2⟩
      rw [h1]
      have : low = v := by omega
      subst this
      simp only [Option.bind_some]
      rw [if_pos (by decide), if_pos (by omega)]
      congr 3; omega
    · obtain ⟨d, hd⟩ : ∃ d, (v - low).toNat = d + 1 := ⟨(v - low).toNat - 1, by omega⟩
      rw [hd, bitsDK_succ, show false :: bitsDK d k = [false] ++ bitsDK d k from rfl] at hst ⊢
      obtain ⟨t, h1, h2⟩ := read1_starts s hs false hst.left
      have e : (v - (low + 1)).toNat = d := by omega
      obtain ⟨u, g1, g2⟩ := ih t h2.1 (low + 1) (by omega) (by omega) (by rw [e]; exact Adv.starts hst h2)
      refine ⟨u, ?_, ?_⟩
      · rw [h1]
        simp only [Option.bind_some]
        rw [if_neg (by decide), g1]
        have e2 : low + 1 + (k : Int) = low + ((k + 1 : Nat) : Int) := by push_cast; ring
        rw [e2]
      · rw [List.length_append]; rw [e] at g2; exact h2.trans g2

theorem decLoop_eq (thr : Int) (s : Bio) (hs : DecSafe s) (nd : Node) (low : Int) (hl : low ≤ nd.value)
    (hk : nd.known = true → low = nd.value) (hc : thr ≤ 999 ∨ nd.value < 999) (hv : nd.value ≤ 999)
    (hst : Starts s (nodeBits thr nd low)) :
    ∃ s' nd', decLoop (thr - low).toNat s (decView nd) low = some (s', nd', (nodeAfter thr nd low).low) ∧
      { nd' with low := (nodeAfter thr nd low).low } = decView (nodeAfter thr nd low) ∧
      Adv s s' (nodeBits thr nd low).length := by
  by_cases hkn : nd.known = true
  · have e := hk hkn
    have e2 : max low (min nd.value thr) = low := by omega
    refine ⟨s, decView nd, ?_, ?_, ?_⟩
    · unfold nodeAfter
      simp only [e2]
      cases (thr - low).toNat with
      | zero => rfl
      | succ k => simp only [decLoop]; rw [if_neg]; unfold decView; rw [if_pos hkn]; simp only; omega
    · unfold nodeAfter decView; simp [hkn]
    · unfold nodeBits; rw [if_pos hkn]; exact Adv.refl s hs
  · have hkn : nd.known = false := by simpa using hkn
    have e0 : nodeBits thr nd low = bitsDK (nd.value - low).toNat (thr - low).toNat := by
      unfold nodeBits; rw [hkn]; rfl
    rw [e0] at hst ⊢
    obtain ⟨s', g1, g2⟩ := decLoop_unknown (thr - low).toNat s hs (decView nd) low nd.value hl (by omega)
      (by unfold decView; rw [hkn]; rfl) hst
    have e2 : min nd.value (low + ((thr - low).toNat : Int)) = max low (min nd.value thr) := by omega
    refine ⟨s', { decView nd with value := if nd.value < low + ((thr - low).toNat : Int) then nd.value else 999 },
      ?_, ?_, g2⟩
    · rw [g1, e2]; rfl
    · unfold nodeAfter decView
      simp only [hkn, Bool.false_or, decide_eq_true_eq]
      congr 1
      apply if_congr _ rfl rfl; omega

/-! ## A whole path -/

/-- The encoder tree's invariant: `M` bounds the thresholds used so far. -/
structure Inv (M : Int) (t : Mem Node) : Prop where
  low0 : ∀ (i : Nat) nd, t i = some nd → 0 ≤ nd.low
  lowv : ∀ (i : Nat) nd, t i = some nd → nd.low ≤ nd.value
  v999 : ∀ (i : Nat) nd, t i = some nd → nd.value ≤ 999
  lowM : ∀ (i : Nat) nd, t i = some nd → nd.low ≤ M
  known : ∀ (i : Nat) nd, t i = some nd → nd.known = true → nd.low = nd.value ∧ nd.value < M

/-- The decoder's tree mirrors the encoder's. -/
def Rel (t d : Mem Node) : Prop := ∀ i, d i = (t i).map decView

/-- Values do not decrease along the path; `low` bounds the first. -/
def PathOk (t : Mem Node) : Int → List Nat → Prop
  | _, [] => True
  | low, i :: is => ∃ nd, t i = some nd ∧ low ≤ nd.value ∧ PathOk t nd.value is

theorem PathOk.mono {t : Mem Node} {a b : Int} (h : a ≤ b) {l : List Nat} (hp : PathOk t b l) : PathOk t a l := by
  cases l with
  | nil => trivial
  | cons i is => obtain ⟨nd, h1, h2, h3⟩ := hp; exact ⟨nd, h1, by omega, h3⟩

/-- Same nodes, parents and values. -/
def SameV (t t' : Mem Node) : Prop :=
  ∀ i, (t' i).map (fun nd => (nd.parent, nd.value)) = (t i).map (fun nd => (nd.parent, nd.value))

theorem SameV.refl (t : Mem Node) : SameV t t := fun _ => rfl
theorem SameV.trans {a b c : Mem Node} (h : SameV a b) (h' : SameV b c) : SameV a c := fun i => (h' i).trans (h i)

theorem SameV.get {t t' : Mem Node} (h : SameV t t') (i : Nat) (nd : Node) (hi : t i = some nd) :
    ∃ nd', t' i = some nd' ∧ nd'.parent = nd.parent ∧ nd'.value = nd.value := by
  have := h i
  rw [hi] at this
  cases h' : t' i with
  | none => rw [h'] at this; simp at this
  | some nd' => rw [h'] at this; simp only [Option.map_some, Option.some.injEq, Prod.mk.injEq] at this
                exact ⟨nd', rfl, this⟩

theorem sameV_upd (t : Mem Node) (i : Nat) (nd nd' : Node) (h : t i = some nd) (hp : nd'.parent = nd.parent)
    (hv : nd'.value = nd.value) : SameV t (upd t i nd') := by
  intro k
  unfold upd
  split
  · rename_i e; subst e; rw [h]; simp [hp, hv]
  · rfl

theorem PathOk.congr {t t' : Mem Node} (h : SameV t t') {low : Int} {l : List Nat} (hp : PathOk t low l) :
    PathOk t' low l := by
  induction l generalizing low with
  | nil => trivial
  | cons i is ih =>
    obtain ⟨nd, h1, h2, h3⟩ := hp
    obtain ⟨nd', g1, _, g3⟩ := h.get i nd h1
    exact ⟨nd', g1, by omega, by rw [g3]; exact ih h3⟩

/-- The bits of a path and the tree afterwards. -/
def pathRun (thr : Int) : Mem Node → Int → List Nat → List Bool × Mem Node
  | t, _, [] => ([], t)
  | t, low, i :: is =>
    match t i with
    | none => ([], t)
    | some nd =>
      let low := max low nd.low
      let r := pathRun thr (upd t i (nodeAfter thr nd low)) (nodeAfter thr nd low).low is
      (nodeBits thr nd low ++ r.1, r.2)

theorem nodeAfter_inv (M M' thr : Int) (t : Mem Node) (h : Inv M t) (hM : M ≤ M') (ht : thr ≤ M') (i : Nat) (nd : Node)
    (hi : t i = some nd) (low : Int) (hl : low ≤ nd.value) (hl2 : low ≤ M') : Inv M' (upd t i (nodeAfter thr nd (max low nd.low))) := by
  have a := h.low0 i nd hi
  have b := h.lowv i nd hi
  have c := h.v999 i nd hi
  have d := h.lowM i nd hi
  have e := h.known i nd hi
  have key : ∀ (k : Nat) x, upd t i (nodeAfter thr nd (max low nd.low)) k = some x →
      x = nodeAfter thr nd (max low nd.low) ∨ t k = some x := by
    intro k x hx
    unfold upd at hx
    split at hx
    · left; simp only [Option.some.injEq] at hx; exact hx.symm
    · right; exact hx
  constructor
  · intro k x hx
    rcases key k x hx with rfl | hx
    · simp only [nodeAfter]; omega
    · exact h.low0 k x hx
  · intro k x hx
    rcases key k x hx with rfl | hx
    · simp only [nodeAfter]; omega
    · exact h.lowv k x hx
  · intro k x hx
    rcases key k x hx with rfl | hx
    · simp only [nodeAfter]; omega
    · exact h.v999 k x hx
  · intro k x hx
    rcases key k x hx with rfl | hx
    · simp only [nodeAfter]; omega
    · have := h.lowM k x hx; omega
  · intro k x hx hk
    rcases key k x hx with rfl | hx
    · simp only [nodeAfter, Bool.or_eq_true, decide_eq_true_eq] at hk ⊢
      rcases hk with hk | hk
      · have := e hk; omega
      · omega
    · have := h.known k x hx hk; omega

theorem encPath_eq (M M' thr : Int) (hM : M ≤ M') (ht : thr ≤ M') (s : Bio) (t : Mem Node) (low : Int) (l : List Nat)
    (h : Inv M' t) (hp : PathOk t low l) (hl : low ≤ M') :
    encPath thr s t low l = (putBits s (pathRun thr t low l).1).map (fun s => (s, (pathRun thr t low l).2)) ∧
      Inv M' (pathRun thr t low l).2 ∧ SameV t (pathRun thr t low l).2 := by
  induction l generalizing s t low with
  | nil => exact ⟨rfl, h, SameV.refl t⟩
  | cons i is ih =>
    obtain ⟨nd, h1, h2, h3⟩ := hp
    have b := h.lowv i nd h1
    have d := h.lowM i nd h1
    have e := h.known i nd h1
    have hmax : (if low > nd.low then low else nd.low) = max low nd.low := by split <;> omega
    have hsv : SameV t (upd t i (nodeAfter thr nd (max low nd.low))) := sameV_upd t i nd _ h1 rfl rfl
    have hinv := nodeAfter_inv M' M' thr t h (by omega) ht i nd h1 low h2 hl
    have hnl : (nodeAfter thr nd (max low nd.low)).low ≤ nd.value := by simp only [nodeAfter]; omega
    have hnM : (nodeAfter thr nd (max low nd.low)).low ≤ M' := by simp only [nodeAfter]; omega
    have ih' := fun s => ih s (upd t i (nodeAfter thr nd (max low nd.low))) (nodeAfter thr nd (max low nd.low)).low
      hinv ((h3.congr hsv).mono hnl) hnM
    have hl := encLoop_eq thr s nd (max low nd.low) (by omega) (fun hk => by have := e hk; omega)
    simp only [encPath, pathRun, h1, Option.bind_some, hmax]
    refine ⟨?_, (ih' s).2.1, hsv.trans (ih' s).2.2⟩
    rw [putBits_append]
    cases hp : putBits s (nodeBits thr nd (max low nd.low)) with
    | none =>
      rw [hp] at hl
      cases hq : encLoop (thr - max low nd.low).toNat s nd (max low nd.low) with
      | none => rfl
      | some r => rw [hq] at hl; simp at hl
    | some s1 =>
      rw [hp] at hl
      cases hq : encLoop (thr - max low nd.low).toNat s nd (max low nd.low) with
      | none => rw [hq] at hl; simp at hl
      | some r =>
        obtain ⟨r1, r2, r3⟩ := r
        rw [hq] at hl
        simp only [Option.map_some, Option.some.injEq, Prod.mk.injEq] at hl
        obtain ⟨rfl, g2, g3⟩ := hl
        simp only [Option.bind_some]
        rw [wr_eq_upd t i _ nd h1]
        simp only [Option.bind_some]
        rw [g2, g3]
        exact (ih' r1).1

theorem decPath_eq (M' thr : Int) (ht : thr ≤ M') (s : Bio) (hs : DecSafe s) (t d : Mem Node)
    (low : Int) (l : List Nat) (h : Inv M' t) (hr : Rel t d) (hp : PathOk t low l) (hl : low ≤ M')
    (hc : thr ≤ 999 ∨ ∀ i ∈ l, ∀ nd, t i = some nd → nd.value < 999)
    (hst : Starts s (pathRun thr t low l).1) :
    ∃ s' d', decPath thr s d low l = some (s', d') ∧ Rel (pathRun thr t low l).2 d' ∧
      Adv s s' (pathRun thr t low l).1.length := by
  induction l generalizing s t d low with
  | nil => exact ⟨s, d, rfl, hr, Adv.refl s hs⟩
  | cons i is ih =>
    obtain ⟨nd, h1, h2, h3⟩ := hp
    have b := h.lowv i nd h1
    have dd := h.lowM i nd h1
    have e := h.known i nd h1
    have hd : d i = some (decView nd) := by rw [hr, h1]; rfl
    have hmax : (if low > (decView nd).low then low else (decView nd).low) = max low nd.low := by
      show (if low > nd.low then low else nd.low) = max low nd.low
      split <;> omega
    have hsv : SameV t (upd t i (nodeAfter thr nd (max low nd.low))) := sameV_upd t i nd _ h1 rfl rfl
    have hinv := nodeAfter_inv M' M' thr t h (by omega) ht i nd h1 low h2 hl
    have hnl : (nodeAfter thr nd (max low nd.low)).low ≤ nd.value := by simp only [nodeAfter]; omega
    have hnM : (nodeAfter thr nd (max low nd.low)).low ≤ M' := by simp only [nodeAfter]; omega
    simp only [pathRun, h1] at hst ⊢
    obtain ⟨s1, nd', g1, g2, g3⟩ := decLoop_eq thr s hs nd (max low nd.low) (by omega)
      (fun hk => by have := e hk; omega) (by
        rcases hc with hc | hc
        · exact Or.inl hc
        · exact Or.inr (hc i (by simp) nd h1)) (h.v999 i nd h1) hst.left
    have hrel : Rel (upd t i (nodeAfter thr nd (max low nd.low)))
        (upd d i (decView (nodeAfter thr nd (max low nd.low)))) := by
      intro k
      unfold upd
      split
      · rfl
      · exact hr k
    obtain ⟨s2, d2, k1, k2, k3⟩ := ih s1 g3.1 _ _ (nodeAfter thr nd (max low nd.low)).low hinv hrel
      ((h3.congr hsv).mono hnl) hnM (by
        rcases hc with hc | hc
        · exact Or.inl hc
        · refine Or.inr fun j hj x hx => ?_
          unfold upd at hx
          split at hx
          · simp only [Option.some.injEq] at hx; subst hx
            exact hc i (by simp) nd h1
          · exact hc j (by simp [hj]) x hx) (Adv.starts hst g3)
    refine ⟨s2, d2, ?_, k2, ?_⟩
    · simp only [decPath, hd, Option.bind_some, hmax]
      rw [g1]
      simp only [Option.bind_some]
      rw [wr_eq_upd d i _ _ hd]
      simp only [Option.bind_some]
      rw [g2]
      exact k1
    · rw [List.length_append]; exact g3.trans k3

/-! ## Climbing -/

theorem climb_congr (t t' : Mem Node) (h : ∀ i, (t' i).map (·.parent) = (t i).map (·.parent)) (room i : Nat) (stk : List Nat) :
    climb t' room i stk = climb t room i stk := by
  have aux : ∀ i, (t i = none ∧ t' i = none) ∨ ∃ a b, t i = some a ∧ t' i = some b ∧ b.parent = a.parent := by
    intro i
    have := h i
    cases ha : t i with
    | none => rw [ha] at this; left; refine ⟨rfl, ?_⟩; cases hb : t' i with
      | none => rfl
      | some b => rw [hb] at this; simp at this
    | some a => rw [ha] at this; right; cases hb : t' i with
      | none => rw [hb] at this; simp at this
      | some b => rw [hb] at this; exact ⟨a, b, rfl, rfl, by simpa using this⟩
  induction room generalizing i stk with
  | zero =>
    rcases aux i with ⟨h1, h2⟩ | ⟨a, b, h1, h2, h3⟩
    · unfold climb; rw [h1, h2]
    · unfold climb; rw [h1, h2]; simp only [Option.bind_some, h3]
  | succ room ih =>
    rcases aux i with ⟨h1, h2⟩ | ⟨a, b, h1, h2, h3⟩
    · unfold climb; rw [h1, h2]; rfl
    · unfold climb; rw [h1, h2]; simp only [Option.bind_some, h3]
      cases a.parent with
      | none => rfl
      | some p => exact ih p (i :: stk)

/-- Every parent is a node with at most the child's value. -/
def Mono (t : Mem Node) : Prop :=
  ∀ (i : Nat) nd p, t i = some nd → nd.parent = some p → ∃ np, t p = some np ∧ np.value ≤ nd.value

theorem Mono.congr {t t' : Mem Node} (h : SameV t t') (hm : Mono t) : Mono t' := by
  intro i nd p hi hp
  have : SameV t' t := fun i => (h i).symm
  obtain ⟨nd0, h1, h2, h3⟩ := this.get i nd hi
  obtain ⟨np, g1, g2⟩ := hm i nd0 p h1 (by rw [h2]; exact hp)
  obtain ⟨np', k1, _, k3⟩ := h.get p np g1
  exact ⟨np', k1, by omega⟩

theorem climb_pathOk (t : Mem Node) (hm : Mono t) (room i : Nat) (stk : List Nat) (nd : Node) (hi : t i = some nd)
    (hs : PathOk t nd.value stk) (r : Nat) (l : List Nat) (h : climb t room i stk = some (r, l)) (low : Int)
    (h0 : ∀ (k : Nat) x, t k = some x → low ≤ x.value) :
    PathOk t low (r :: l) := by
  induction room generalizing i stk nd with
  | zero =>
    unfold climb at h; rw [hi] at h
    simp only [Option.bind_some] at h
    split at h
    · simp only [Option.some.injEq, Prod.mk.injEq] at h
      obtain ⟨rfl, rfl⟩ := h
      exact ⟨nd, hi, h0 _ _ hi, hs⟩
    · simp at h
  | succ room ih =>
    unfold climb at h; rw [hi] at h
    simp only [Option.bind_some] at h
    split at h
    · simp only [Option.some.injEq, Prod.mk.injEq] at h
      obtain ⟨rfl, rfl⟩ := h
      exact ⟨nd, hi, h0 _ _ hi, hs⟩
    · rename_i p hp
      obtain ⟨np, g1, g2⟩ := hm i nd p hi hp
      exact ih p (i :: stk) np g1 ⟨nd, hi, g2, hs⟩ h

/-- The path ends in the node it started from. -/
theorem climb_last (t : Mem Node) (room i : Nat) (stk : List Nat) (r : Nat) (l : List Nat)
    (h : climb t room i stk = some (r, l)) : ∃ p, r :: l = p ++ i :: stk := by
  induction room generalizing i stk with
  | zero =>
    unfold climb at h
    simp only [Option.bind_eq_some_iff] at h
    obtain ⟨nd, _, h⟩ := h
    split at h
    · simp only [Option.some.injEq, Prod.mk.injEq] at h; obtain ⟨rfl, rfl⟩ := h; exact ⟨[], rfl⟩
    · simp at h
  | succ room ih =>
    unfold climb at h
    simp only [Option.bind_eq_some_iff] at h
    obtain ⟨nd, _, h⟩ := h
    split at h
    · simp only [Option.some.injEq, Prod.mk.injEq] at h; obtain ⟨rfl, rfl⟩ := h; exact ⟨[], rfl⟩
    · rename_i q _
      obtain ⟨p, hp⟩ := ih _ _ h
      exact ⟨p ++ [q], by rw [hp]; simp⟩

/-- Values on a path are bounded by the value at its end. -/
theorem PathOk.le_last {t : Mem Node} {low : Int} {p : List Nat} {i : Nat} {l : List Nat} (h : PathOk t low (p ++ i :: l))
    (nd : Node) (hi : t i = some nd) : low ≤ nd.value ∧ ∀ j ∈ p ++ [i], ∀ x, t j = some x → x.value ≤ nd.value := by
  induction p generalizing low with
  | nil =>
    obtain ⟨x, h1, h2, _⟩ := h
    rw [hi] at h1; simp only [Option.some.injEq] at h1; subst h1
    refine ⟨h2, fun j hj x hx => ?_⟩
    simp only [List.nil_append, List.mem_singleton] at hj
    subst hj; rw [hi] at hx; simp only [Option.some.injEq] at hx; subst hx; exact Int.le_refl _
  | cons a p ih =>
    obtain ⟨x, h1, h2, h3⟩ := h
    obtain ⟨k1, k2⟩ := ih h3
    refine ⟨by omega, fun j hj y hy => ?_⟩
    simp only [List.cons_append, List.mem_cons] at hj
    rcases hj with rfl | hj
    · rw [h1] at hy; simp only [Option.some.injEq] at hy; subst hy; exact k1
    · exact k2 j hj y hy

/-- After a path run the last node is decided. -/
theorem pathRun_last (thr : Int) (t : Mem Node) (low : Int) (p : List Nat) (i : Nat)
    (hp : ∀ j ∈ p ++ [i], (t j).isSome) :
    ∃ nd, (pathRun thr t low (p ++ [i])).2 i = some nd ∧ (nd.value < thr → nd.known = true) := by
  induction p generalizing t low with
  | nil =>
    obtain ⟨nd, h1⟩ := Option.isSome_iff_exists.mp (hp i (by simp))
    simp only [List.nil_append, pathRun, h1]
    refine ⟨nodeAfter thr nd (max low nd.low), by simp [upd], fun h => ?_⟩
    simp only [nodeAfter] at h ⊢
    simp [h]
  | cons a p ih =>
    obtain ⟨nd, h1⟩ := Option.isSome_iff_exists.mp (hp a (by simp))
    simp only [List.cons_append, pathRun, h1]
    apply ih
    intro j hj
    unfold upd
    split
    · rfl
    · exact hp j (by simp only [List.cons_append, List.mem_cons]; right; exact hj)

theorem PathOk.isSome {t : Mem Node} {low : Int} {l : List Nat} (h : PathOk t low l) : ∀ j ∈ l, (t j).isSome := by
  induction l generalizing low with
  | nil => simp
  | cons a l ih =>
    obtain ⟨nd, h1, _, h3⟩ := h
    intro j hj
    rcases List.mem_cons.mp hj with rfl | hj
    · rw [h1]; rfl
    · exact ih h3 j hj

/-! ## One query -/

/-- The leaf-to-root path exists. -/
def Reaches (t : Mem Node) (leaf : Nat) : Prop := ∃ r l, climb t 31 leaf [] = some (r, l)

/-- The bits of a query and the tree afterwards. -/
def queryRun (t : Mem Node) (leaf : Nat) (thr : Int) : List Bool × Mem Node :=
  match climb t 31 leaf [] with
  | none => ([], t)
  | some (r, l) => pathRun thr t 0 (r :: l)

theorem SameV.parents {t t' : Mem Node} (h : SameV t t') : ∀ i, (t' i).map (·.parent) = (t i).map (·.parent) := by
  intro i
  have := congrArg (Option.map Prod.fst) (h i)
  simpa [Option.map_map, Function.comp_def] using this

theorem Reaches.congr {t t' : Mem Node} (h : SameV t t') {leaf : Nat} (hr : Reaches t leaf) : Reaches t' leaf := by
  obtain ⟨r, l, e⟩ := hr
  exact ⟨r, l, by rw [climb_congr t t' h.parents]; exact e⟩

theorem Reaches.isSome {t : Mem Node} {leaf : Nat} (hr : Reaches t leaf) : ∃ nd, t leaf = some nd := by
  obtain ⟨r, l, e⟩ := hr
  unfold climb at e
  simp only [Option.bind_eq_some_iff] at e
  obtain ⟨nd, h, _⟩ := e
  exact ⟨nd, h⟩

theorem Inv.mono {M M' : Int} {t : Mem Node} (h : Inv M t) (hM : M ≤ M') : Inv M' t :=
  ⟨h.low0, h.lowv, h.v999, fun i nd hi => by have := h.lowM i nd hi; omega,
    fun i nd hi hk => by have := h.known i nd hi hk; omega⟩

theorem encode_eq (M M' thr : Int) (t : Mem Node) (leaf : Nat) (h : Inv M t) (hm : Mono t) (hM : M ≤ M') (ht : thr ≤ M')
    (h0 : 0 ≤ M) (hr : Reaches t leaf) (s : Bio) :
    encode s t leaf thr = (putBits s (queryRun t leaf thr).1).map (fun s => (s, (queryRun t leaf thr).2)) ∧
      Inv M' (queryRun t leaf thr).2 ∧ SameV t (queryRun t leaf thr).2 := by
  obtain ⟨nd, hi⟩ := hr.isSome
  obtain ⟨r, l, e⟩ := hr
  have hp : PathOk t 0 (r :: l) := climb_pathOk t hm 31 leaf [] nd hi trivial r l e 0 (fun k x hx => by
    have := h.low0 k x hx; have := h.lowv k x hx; omega)
  have := encPath_eq M' M' thr (by omega) ht s t 0 (r :: l) (h.mono hM) hp (by omega)
  unfold encode queryRun
  rw [e]
  exact this

theorem decode_eq (M M' thr : Int) (t d : Mem Node) (leaf : Nat) (h : Inv M t) (hm : Mono t) (hM : M ≤ M') (ht : thr ≤ M')
    (h0 : 0 ≤ M) (hr : Reaches t leaf) (hrel : Rel t d) (nd : Node) (hi : t leaf = some nd)
    (hc : thr ≤ 999 ∨ nd.value < 999) (s : Bio) (hs : DecSafe s) (hst : Starts s (queryRun t leaf thr).1) :
    ∃ s' d', decode s d leaf thr = some (decide (nd.value < thr), s', d') ∧ Rel (queryRun t leaf thr).2 d' ∧
      Adv s s' (queryRun t leaf thr).1.length := by
  obtain ⟨r, l, e⟩ := hr
  have hp : PathOk t 0 (r :: l) := climb_pathOk t hm 31 leaf [] nd hi trivial r l e 0 (fun k x hx => by
    have := h.low0 k x hx; have := h.lowv k x hx; omega)
  obtain ⟨p, hpp⟩ := climb_last t 31 leaf [] r l e
  have hlast : ∀ j ∈ r :: l, ∀ x, t j = some x → x.value ≤ nd.value := by
    intro j hj x hx
    rw [hpp] at hp hj
    exact (hp.le_last nd hi).2 j hj x hx
  have hcd : climb d 31 leaf [] = some (r, l) := by
    rw [climb_congr t d (fun i => by rw [hrel i, Option.map_map]; rfl)]; exact e
  unfold queryRun at hst ⊢
  rw [e] at hst ⊢
  simp only at hst ⊢
  obtain ⟨s', d', g1, g2, g3⟩ := decPath_eq M' thr ht s hs t d 0 (r :: l) (h.mono hM) hrel hp (by omega) (by
    rcases hc with hc | hc
    · exact Or.inl hc
    · exact Or.inr fun j hj x hx => by have := hlast j hj x hx; omega) hst
  refine ⟨s', d', ?_, g2, g3⟩
  unfold decode
  rw [hcd]
  simp only [Option.bind_some, g1]
  obtain ⟨x, k1, k2⟩ := pathRun_last thr t 0 p leaf (by rw [← hpp]; exact hp.isSome)
  rw [← hpp] at k1
  have hsv := (encPath_eq M' M' thr (by omega) ht s t 0 (r :: l) (h.mono hM) hp (by omega)).2.2
  obtain ⟨x', k3, _, k4⟩ := hsv.get leaf nd hi
  rw [k1] at k3
  simp only [Option.some.injEq] at k3
  subst k3
  rw [g2 leaf, k1]
  simp only [Option.map_some, Option.some.injEq, Prod.mk.injEq, and_true]
  apply decide_eq_decide.mpr
  simp only [decView]
  have hv := h.v999 leaf nd hi
  by_cases hk : x.known = true
  · rw [if_pos hk, k4]
  · rw [if_neg hk]
    have : ¬ x.value < thr := fun hh => hk (k2 hh)
    omega

end Jp2.Tgt

import Verif.Jp2.PiSpec
import Mathlib.Tactic.Ring
/-!
# Executions of the packet iterators as visit lists
-/
namespace Jp2.Pi
open Spec (upto)

/-- The `include` index of a packet. -/
def It.idx (s : It) (p : Pkt) : Nat :=
  (p.layno * s.stepL + p.resno * s.stepR + p.compno * s.stepC + p.precno * s.stepP) % 2 ^ 32

theorem idx_pkt (s : It) : s.idx s.pkt = s.index := rfl

/-- Go through a list of packets, keep those whose index is free and claim it. -/
def sweep (idx : Pkt → Nat) : (Nat → Bool) → List Pkt → List Pkt × (Nat → Bool)
  | inc, [] => ([], inc)
  | inc, p :: ps =>
    if inc (idx p) then sweep idx inc ps
    else
      let q := sweep idx (fun i => if i = idx p then true else inc i) ps
      (p :: q.1, q.2)

theorem sweep_append (idx : Pkt → Nat) (a b : List Pkt) : ∀ inc,
    sweep idx inc (a ++ b) =
      ((sweep idx inc a).1 ++ (sweep idx (sweep idx inc a).2 b).1,
        (sweep idx (sweep idx inc a).2 b).2) := by
  induction a with
  | nil => intro inc; simp [sweep]
  | cons p ps ih =>
    intro inc
    simp only [List.cons_append, sweep]
    by_cases h : inc (idx p)
    · simp only [h, if_true]; exact ih inc
    · simp only [h, if_false, Bool.false_eq_true]
      rw [ih]
      rfl

/-- Executions: the packets returned between two machine states, resuming at `skip` after each. -/
inductive Emits (step : Label → It → Out) : Label → It → List Pkt → Label → It → Prop
  | refl (l s) : Emits step l s [] l s
  | goto {l s l1 s1 o l2 s2} (h : step l s = .goto l1 s1) (t : Emits step l1 s1 o l2 s2) :
      Emits step l s o l2 s2
  | emit {l s s1 o l2 s2} (h : step l s = .ret true s1) (t : Emits step .skip s1 o l2 s2) :
      Emits step l s (s1.pkt :: o) l2 s2

theorem Emits.trans {step : Label → It → Out} {l s o l1 s1 o' l2 s2}
    (h : Emits step l s o l1 s1) (h' : Emits step l1 s1 o' l2 s2) : Emits step l s (o ++ o') l2 s2 := by
  induction h with
  | refl => exact h'
  | goto e _ ih => exact .goto e (ih h')
  | emit e _ ih => exact .emit e (ih h')

/-- `Visits`: between the two states the machine goes through the packets `V`, returning those that are
still free. -/
def Visits (step : Label → It → Out) (idx : Pkt → Nat) (l : Label) (s : It) (V : List Pkt)
    (l' : Label) (s' : It) : Prop :=
  Emits step l s (sweep idx s.inc V).1 l' s' ∧ s'.inc = (sweep idx s.inc V).2

theorem Visits.refl (step idx l s) : Visits step idx l s [] l s := ⟨.refl _ _, rfl⟩

theorem Visits.trans {step : Label → It → Out} {idx l s V l1 s1 V' l2 s2}
    (h : Visits step idx l s V l1 s1) (h' : Visits step idx l1 s1 V' l2 s2) :
    Visits step idx l s (V ++ V') l2 s2 := by
  obtain ⟨a, b⟩ := h
  obtain ⟨a', b'⟩ := h'
  unfold Visits
  rw [sweep_append, ← b]
  exact ⟨a.trans a', b'⟩

/-- A jump that leaves `include` alone. -/
theorem Visits.goto {step : Label → It → Out} {idx l s V l1 s1 l2 s2}
    (e : step l s = .goto l1 s1) (hi : s1.inc = s.inc) (h : Visits step idx l1 s1 V l2 s2) :
    Visits step idx l s V l2 s2 := by
  obtain ⟨a, b⟩ := h
  unfold Visits
  rw [hi] at a b
  exact ⟨.goto e a, b⟩

/-- … followed by a jump. -/
theorem Visits.thenGoto {step : Label → It → Out} {idx l s V l1 s1 l2 s2}
    (h : Visits step idx l s V l1 s1) (e : step l1 s1 = .goto l2 s2) (hi : s2.inc = s1.inc) :
    Visits step idx l s V l2 s2 := by
  have := h.trans (Visits.goto e hi (Visits.refl step idx l2 s2))
  rwa [List.append_nil] at this

/-- The state after the include lookup. -/
def claimed (s : It) : It :=
  if s.inc s.index then s else { s with inc := fun i => if i = s.index then true else s.inc i }

theorem Visits.claim {step : Label → It → Out} {l s V l2 s2}
    (e : step l s = Pi.claim s) (hs : s.index < s.incSize)
    (h : Visits step s.idx .skip (claimed s) V l2 s2) :
    Visits step s.idx l s (s.pkt :: V) l2 s2 := by
  obtain ⟨a, b⟩ := h
  unfold Visits
  unfold claimed at a b
  simp only [sweep, idx_pkt]
  unfold Pi.claim at e
  rw [if_neg (by omega)] at e
  by_cases hc : s.inc s.index
  · simp only [hc, if_true] at a b e ⊢
    exact ⟨.goto e a, b⟩
  · simp only [hc, if_false, Bool.false_eq_true] at a b e ⊢
    have := Emits.emit e a
    exact ⟨this, b⟩

theorem upto_cons (a b : Nat) (h : a < b) : upto a b = a :: upto (a + 1) b := by
  unfold upto
  obtain ⟨n, hn⟩ : ∃ n, b - a = n + 1 := ⟨b - a - 1, by omega⟩
  rw [hn, List.range'_succ, show b - (a + 1) = n by omega]

theorem upto_nil (a b : Nat) (h : b ≤ a) : upto a b = [] := by
  unfold upto
  rw [show b - a = 0 by omega]; rfl

theorem mem_upto (a b x : Nat) : x ∈ upto a b ↔ a ≤ x ∧ x < b := by
  unfold upto
  rw [List.mem_range']
  constructor
  · rintro ⟨i, h, rfl⟩; omega
  · intro h; exact ⟨x - a, by omega, by omega⟩

theorem upto_range (n : Nat) : upto 0 n = List.range n := by
  unfold upto
  rw [Nat.sub_zero, List.range_eq_range']

/-- A counting loop whose head is label `h`. -/
theorem loop_upto (step : Label → It → Out) (idx : Pkt → Nat) (h : Label) (P : It → Prop)
    (get : It → Nat) (V : Nat → List Pkt) (hi : Nat)
    (body : ∀ s, P s → get s < hi →
      ∃ s', Visits step idx h s (V (get s)) h s' ∧ P s' ∧ get s' = get s + 1) :
    ∀ s, P s → ∃ s', Visits step idx h s ((upto (get s) hi).flatMap V) h s' ∧ P s' ∧ hi ≤ get s' := by
  have key : ∀ n s, hi - get s = n → P s →
      ∃ s', Visits step idx h s ((upto (get s) hi).flatMap V) h s' ∧ P s' ∧ hi ≤ get s' := by
    intro n
    induction n with
    | zero =>
      intro s hn hp
      rw [upto_nil _ _ (by omega)]
      exact ⟨s, Visits.refl _ _ _ _, hp, by omega⟩
    | succ n ih =>
      intro s hn hp
      obtain ⟨s1, v1, p1, g1⟩ := body s hp (by omega)
      obtain ⟨s2, v2, p2, g2⟩ := ih s1 (by omega) p1
      refine ⟨s2, ?_, p2, g2⟩
      rw [upto_cons _ _ (by omega), List.flatMap_cons, ← g1]
      exact v1.trans v2
  intro s hp
  exact key _ s rfl hp

/-! ## From executions to `drain` -/

theorem run_mono (step : Label → It → Out) : ∀ n l s r, run step n l s = some r →
    ∀ k, n ≤ k → run step k l s = some r := by
  intro n
  induction n with
  | zero => intro l s r h; simp [run] at h
  | succ n ih =>
    intro l s r h k hk
    obtain ⟨k', rfl⟩ : ∃ k', k = k' + 1 := ⟨k - 1, by omega⟩
    rw [run] at h ⊢
    split at h
    · exact ih _ _ _ h _ (by omega)
    · exact h
    · simp at h

/-- The calls a packet loop makes when the first one starts at label `l`. -/
def calls (step : Label → It → Out) (fuel : Nat) : Nat → Label → It → Option (List Pkt × It)
  | 0, _, _ => none
  | n + 1, l, s =>
    match run step fuel l s with
    | none => none
    | some (false, s') => some ([], s')
    | some (true, s') => (calls step fuel n .skip s').map fun q => (s'.pkt :: q.1, q.2)

/-- An execution that ends in `return 0` is what the packet loop sees, for every large enough fuel. -/
theorem calls_of_emits {step : Label → It → Out} {l s o l' s' s''}
    (h : Emits step l s o l' s') (hend : step l' s' = .ret false s'') :
    ∃ N, ∀ fuel n, N ≤ fuel → N ≤ n → calls step fuel n l s = some (o, s'') := by
  have key : ∃ N, 0 < N ∧ ∀ fuel n, N ≤ fuel → N ≤ n → calls step fuel n l s = some (o, s'') := by
    induction h with
    | refl l s =>
      refine ⟨1, by omega, fun fuel n hf hn => ?_⟩
      obtain ⟨f, rfl⟩ : ∃ f, fuel = f + 1 := ⟨fuel - 1, by omega⟩
      obtain ⟨k, rfl⟩ : ∃ f, n = f + 1 := ⟨n - 1, by omega⟩
      rw [calls, run, hend]
    | @goto l s l1 s1 o l2 s2 e t ih =>
      obtain ⟨N, hN, ih⟩ := ih hend
      refine ⟨N + 1, by omega, fun fuel n hf hn => ?_⟩
      obtain ⟨f, rfl⟩ : ∃ f, fuel = f + 1 := ⟨fuel - 1, by omega⟩
      obtain ⟨k, rfl⟩ : ∃ f, n = f + 1 := ⟨n - 1, by omega⟩
      have h1 := ih f (k + 1) (by omega) (by omega)
      have h2 := ih (f + 1) (k + 1) (by omega) (by omega)
      rw [calls] at h1 h2 ⊢
      rw [run, e]
      simp only
      cases hr : run step f l1 s1 with
      | none => rw [hr] at h1; simp at h1
      | some r =>
        have h3 := run_mono step f l1 s1 r hr (f + 1) (by omega)
        rw [h3] at h2
        exact h2
    | @emit l s s1 o l2 s2 e t ih =>
      obtain ⟨N, hN, ih⟩ := ih hend
      refine ⟨N + 1, by omega, fun fuel n hf hn => ?_⟩
      obtain ⟨f, rfl⟩ : ∃ f, fuel = f + 1 := ⟨fuel - 1, by omega⟩
      obtain ⟨k, rfl⟩ : ∃ f, n = f + 1 := ⟨n - 1, by omega⟩
      rw [calls, run, e]
      simp only
      rw [ih (f + 1) k (by omega) (by omega)]
      rfl
  obtain ⟨N, _, h⟩ := key
  exact ⟨N, h⟩

/-- What no step changes. -/
def Kept (s s' : It) : Prop :=
  s'.comps = s.comps ∧ s'.poc.compno0 = s.poc.compno0 ∧ s'.poc.compno1 = s.poc.compno1 ∧
    s'.poc.prg = s.poc.prg ∧ s'.first = s.first

theorem Kept.refl (s : It) : Kept s s := ⟨rfl, rfl, rfl, rfl, rfl⟩

theorem Kept.trans {a b c : It} (h : Kept a b) (h' : Kept b c) : Kept a c := by
  obtain ⟨a1, a2, a3, a4, a5⟩ := h
  obtain ⟨b1, b2, b3, b4, b5⟩ := h'
  exact ⟨b1.trans a1, b2.trans a2, b3.trans a3, b4.trans a4, b5.trans a5⟩

theorem Kept.compsOk {s s' : It} (h : Kept s s') : compsOk s' = compsOk s := by
  obtain ⟨a1, a2, a3, _, _⟩ := h
  unfold Pi.compsOk
  rw [a1, a2, a3]

/-- The states a step can lead to keep the fields `Kept` names. -/
def Out.Keep (s : It) : Out → Prop
  | .goto _ s' => Kept s s'
  | .ret _ s' => Kept s s'
  | .fault => True

theorem claim_keep (s : It) : (claim s).Keep s := by
  unfold claim
  split_ifs <;> exact ⟨rfl, rfl, rfl, rfl, rfl⟩

theorem stepLrcp_keep (l : Label) (s : It) : (stepLrcp l s).Keep s := by
  unfold stepLrcp
  repeat' split
  all_goals first
    | exact ⟨rfl, rfl, rfl, rfl, rfl⟩
    | exact claim_keep s
    | trivial

theorem stepRlcp_keep (l : Label) (s : It) : (stepRlcp l s).Keep s := by
  unfold stepRlcp
  repeat' split
  all_goals first
    | exact ⟨rfl, rfl, rfl, rfl, rfl⟩
    | exact claim_keep s
    | trivial

theorem stepRpcl_keep (m : Mode) (l : Label) (s : It) : (stepRpcl m l s).Keep s := by
  unfold stepRpcl
  repeat' split
  all_goals first
    | exact ⟨rfl, rfl, rfl, rfl, rfl⟩
    | exact claim_keep s
    | trivial

theorem stepPcrl_keep (m : Mode) (l : Label) (s : It) : (stepPcrl m l s).Keep s := by
  unfold stepPcrl
  repeat' split
  all_goals first
    | exact ⟨rfl, rfl, rfl, rfl, rfl⟩
    | exact claim_keep s
    | trivial

theorem setArea_kept (s : It) : Kept s (setArea s) := by
  unfold setArea
  split <;> exact ⟨rfl, rfl, rfl, rfl, rfl⟩

theorem stepCprl_keep (m : Mode) (l : Label) (s : It) : (stepCprl m l s).Keep s := by
  unfold stepCprl
  repeat' split
  all_goals first
    | exact ⟨rfl, rfl, rfl, rfl, rfl⟩
    | exact claim_keep s
    | trivial
    | skip
  all_goals simp only
  all_goals split
  all_goals first
    | exact ⟨rfl, rfl, rfl, rfl, rfl⟩
    | skip
  obtain ⟨a, b, c, d, e⟩ := setArea_kept { s with
    dx := (foldRes _ _ 0 _ (0, 0)).1, dy := (foldRes _ _ 0 _ (0, 0)).2 }
  exact ⟨a, b, c, d, e⟩

theorem run_kept {step : Label → It → Out} (hk : ∀ l s, (step l s).Keep s) : ∀ n l s b s',
    run step n l s = some (b, s') → Kept s s' := by
  intro n
  induction n with
  | zero => intro l s b s' h; simp [run] at h
  | succ n ih =>
    intro l s b s' h
    have hk' := hk l s
    rw [run] at h
    cases he : step l s with
    | goto l1 s1 =>
      rw [he] at h hk'
      exact Kept.trans hk' (ih _ _ _ _ h)
    | ret b1 s1 =>
      rw [he] at h hk'
      simp only [Option.some.injEq, Prod.mk.injEq] at h
      rw [← h.2]; exact hk'
    | fault => rw [he] at h; simp at h

/-- The machine of each progression order. -/
def stepOf (m : Mode) (prg : Int) : Label → It → Out :=
  if prg = 0 then stepLrcp
  else if prg = 1 then stepRlcp
  else if prg = 2 then stepRpcl m
  else if prg = 3 then stepPcrl m
  else stepCprl m

theorem stepOf_keep (m : Mode) (prg : Int) (l : Label) (s : It) : (stepOf m prg l s).Keep s := by
  unfold stepOf
  split_ifs
  · exact stepLrcp_keep l s
  · exact stepRlcp_keep l s
  · exact stepRpcl_keep m l s
  · exact stepPcrl_keep m l s
  · exact stepCprl_keep m l s

/-- After the first call, `opj_pi_next` re-enters the machine at `skip`. -/
theorem next_skip (m : Mode) (fuel : Nat) (s : It) (hf : s.first = false) (hc : compsOk s = true)
    (hp : 0 ≤ s.poc.prg ∧ s.poc.prg ≤ 4) :
    next m fuel s = run (stepOf m s.poc.prg) fuel .skip s := by
  unfold next stepOf nextLrcp nextRlcp nextRpcl nextPcrl nextCprl
  simp only [hf, hc]
  by_cases h0 : s.poc.prg = 0
  · simp [h0]
  by_cases h1 : s.poc.prg = 1
  · simp [h1]
  by_cases h2 : s.poc.prg = 2
  · simp [h2]
  by_cases h3 : s.poc.prg = 3
  · simp [h3]
  have h4 : s.poc.prg = 4 := by omega
  simp [h4]

theorem drain_skip (m : Mode) (fuel : Nat) : ∀ n (s : It), s.first = false → compsOk s = true →
    (0 ≤ s.poc.prg ∧ s.poc.prg ≤ 4) →
    drain m fuel n s = calls (stepOf m s.poc.prg) fuel n .skip s := by
  intro n
  induction n with
  | zero => intro s _ _ _; rfl
  | succ n ih =>
    intro s hf hc hp
    rw [drain, calls, next_skip m fuel s hf hc hp]
    cases hr : run (stepOf m s.poc.prg) fuel .skip s with
    | none => rfl
    | some q =>
      obtain ⟨b, s'⟩ := q
      have hk := run_kept (stepOf_keep m s.poc.prg) _ _ _ _ _ hr
      cases b with
      | false => rfl
      | true =>
        obtain ⟨h1, h2, h3, h4, h5⟩ := hk
        simp only
        rw [ih s' (by rw [h5, hf]) (by rw [Kept.compsOk ⟨h1, h2, h3, h4, h5⟩, hc]) (by rw [h4]; exact hp), h4]

/-- A packet loop whose first call starts the machine at label `l` in state `s1`. -/
theorem drain_start (m : Mode) (fuel n : Nat) (s s1 : It) (l : Label) (hf : s1.first = false)
    (hc : compsOk s1 = true) (hp : 0 ≤ s1.poc.prg ∧ s1.poc.prg ≤ 4)
    (hn : next m fuel s = run (stepOf m s1.poc.prg) fuel l s1) :
    drain m fuel n s = calls (stepOf m s1.poc.prg) fuel n l s1 := by
  cases n with
  | zero => rfl
  | succ n =>
    rw [drain, calls, hn]
    cases hr : run (stepOf m s1.poc.prg) fuel l s1 with
    | none => rfl
    | some q =>
      obtain ⟨b, s'⟩ := q
      have hk := run_kept (stepOf_keep m s1.poc.prg) _ _ _ _ _ hr
      cases b with
      | false => rfl
      | true =>
        have hk' := hk
        obtain ⟨h1, h2, h3, h4, h5⟩ := hk
        simp only
        rw [drain_skip m fuel n s' (by rw [h5, hf]) (by rw [hk'.compsOk, hc]) (by rw [h4]; exact hp), h4]

end Jp2.Pi

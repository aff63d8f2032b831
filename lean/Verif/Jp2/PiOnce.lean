import Verif.Jp2.PiAll
import Mathlib.Data.List.Nodup
/-!
# Include flags: no packet twice, whatever the parameters
-/
namespace Jp2.Pi
open Spec

/-- Flags and index strides stay as they are. -/
def Same (s s' : It) : Prop :=
  s'.inc = s.inc ∧ s'.stepL = s.stepL ∧ s'.stepR = s.stepR ∧ s'.stepC = s.stepC ∧ s'.stepP = s.stepP

theorem Same.refl (s : It) : Same s s := ⟨rfl, rfl, rfl, rfl, rfl⟩

theorem Same.idx {s s' : It} (h : Same s s') : s'.idx = s.idx := by
  obtain ⟨_, h2, h3, h4, h5⟩ := h
  funext p
  unfold It.idx
  rw [h2, h3, h4, h5]

theorem Same.trans {a b c : It} (h : Same a b) (h' : Same b c) : Same a c := by
  obtain ⟨a1, a2, a3, a4, a5⟩ := h
  obtain ⟨b1, b2, b3, b4, b5⟩ := h'
  exact ⟨b1.trans a1, b2.trans a2, b3.trans a3, b4.trans a4, b5.trans a5⟩

/-- A packet was claimed: its flag was clear and is now set, and nothing else changed. -/
def Takes (s s' : It) : Prop :=
  s'.idx = s.idx ∧ s.inc (s.idx s'.pkt) = false ∧
    s'.inc = fun i => if i = s.idx s'.pkt then true else s.inc i

/-- Effect of one step on the flags. -/
def Out.Flags (s : It) : Out → Prop
  | .goto _ s' => Same s s'
  | .ret false s' => Same s s'
  | .ret true s' => Takes s s'
  | .fault => True

theorem claim_flags (s : It) : (claim s).Flags s := by
  unfold claim
  split_ifs with h1 h2
  · exact Same.refl s
  · exact Same.refl s
  · exact ⟨rfl, by show s.inc s.index = false; simpa using h2, rfl⟩

theorem setArea_same (s : It) : Same s (setArea s) := by
  unfold setArea
  split <;> exact Same.refl s

theorem stepOf_flags (m : Mode) (prg : Int) (l : Label) (s : It) : (stepOf m prg l s).Flags s := by
  unfold stepOf
  split_ifs
  · unfold stepLrcp
    repeat' split
    all_goals first
      | exact ⟨rfl, rfl, rfl, rfl, rfl⟩
      | exact claim_flags s
      | trivial
  · unfold stepRlcp
    repeat' split
    all_goals first
      | exact ⟨rfl, rfl, rfl, rfl, rfl⟩
      | exact claim_flags s
      | trivial
  · unfold stepRpcl
    repeat' split
    all_goals first
      | exact ⟨rfl, rfl, rfl, rfl, rfl⟩
      | exact claim_flags s
      | trivial
  · unfold stepPcrl
    repeat' split
    all_goals first
      | exact ⟨rfl, rfl, rfl, rfl, rfl⟩
      | exact claim_flags s
      | trivial
  · unfold stepCprl
    repeat' split
    all_goals first
      | exact ⟨rfl, rfl, rfl, rfl, rfl⟩
      | exact claim_flags s
      | trivial
      | skip
    all_goals simp only
    all_goals split
    all_goals first
      | exact ⟨rfl, rfl, rfl, rfl, rfl⟩
      | skip
    obtain ⟨a, b, c, d, e⟩ := setArea_same { s with
      dx := (foldRes _ _ 0 _ (0, 0)).1, dy := (foldRes _ _ 0 _ (0, 0)).2 }
    exact ⟨a, b, c, d, e⟩

theorem run_flags {step : Label → It → Out} (hk : ∀ l s, (step l s).Flags s) : ∀ n l s b s',
    run step n l s = some (b, s') → (Out.ret b s').Flags s := by
  intro n
  induction n with
  | zero => intro l s b s' h; simp [run] at h
  | succ n ih =>
    intro l s b s' h
    have hk' := hk l s
    rw [run] at h
    cases he : step l s with
    | goto l1 s1 =>
      rw [he] at h hk'
      have := ih _ _ _ _ h
      have hs : Same s s1 := hk'
      cases b with
      | false => exact Same.trans hs this
      | true =>
        obtain ⟨t1, t2, t3⟩ := (this : Takes s1 s')
        have e := hs.idx
        have e2 := hs.1
        refine ⟨t1.trans e, ?_, ?_⟩
        · rw [← e, ← e2]; exact t2
        · rw [← e, ← e2]; exact t3
    | ret b1 s1 =>
      rw [he] at h hk'
      simp only [Option.some.injEq, Prod.mk.injEq] at h
      obtain ⟨rfl, rfl⟩ := h
      exact hk'
    | fault => rw [he] at h; simp at h

theorem flags_of_same {s s1 : It} {b : Bool} {s' : It} (h : Same s s1) (h' : (Out.ret b s').Flags s1) :
    (Out.ret b s').Flags s := by
  cases b with
  | false => exact Same.trans h h'
  | true =>
    obtain ⟨t1, t2, t3⟩ := (h' : Takes s1 s')
    refine ⟨t1.trans h.idx, ?_, ?_⟩
    · rw [← h.idx, ← h.1]; exact t2
    · rw [← h.idx, ← h.1]; exact t3

theorem startPos_same {s s1 : It} (h : startPos s = some s1) : Same s s1 := by
  unfold startPos at h
  simp only at h
  split_ifs at h
  simp only [Option.some.injEq] at h
  rw [← h]
  obtain ⟨a, b, c, d, e⟩ := setArea_same { s with
    first := false, dx := (foldComps s.comps (0, 0)).1, dy := (foldComps s.comps (0, 0)).2 }
  exact ⟨a, b, c, d, e⟩

theorem next_flags (m : Mode) (fuel : Nat) (s : It) (b : Bool) (s' : It) (h : next m fuel s = some (b, s')) :
    (Out.ret b s').Flags s := by
  have k0 := stepOf_flags m 0
  have k1 := stepOf_flags m 1
  have k2 := stepOf_flags m 2
  have k3 := stepOf_flags m 3
  have k4 := stepOf_flags m 4
  have e0 : stepOf m 0 = stepLrcp := rfl
  have e1 : stepOf m 1 = stepRlcp := rfl
  have e2 : stepOf m 2 = stepRpcl m := rfl
  have e3 : stepOf m 3 = stepPcrl m := rfl
  have e4 : stepOf m 4 = stepCprl m := rfl
  rw [e0] at k0
  rw [e1] at k1
  rw [e2] at k2
  rw [e3] at k3
  rw [e4] at k4
  unfold next at h
  have fin : ∀ {s1 : It}, Same s s1 → some (false, s1) = some (b, s') → (Out.ret b s').Flags s := by
    intro s1 h1 h2
    simp only [Option.some.injEq, Prod.mk.injEq] at h2
    obtain ⟨rfl, rfl⟩ := h2
    exact h1
  split_ifs at h
  · unfold nextLrcp at h
    split_ifs at h
    · exact fin (Same.refl s) h
    · have h9 := run_flags k0 _ _ _ _ _ h
      exact flags_of_same ⟨rfl, rfl, rfl, rfl, rfl⟩ h9
    · exact run_flags k0 _ _ _ _ _ h
  · unfold nextRlcp at h
    split_ifs at h
    · exact fin (Same.refl s) h
    · have h9 := run_flags k1 _ _ _ _ _ h
      exact flags_of_same ⟨rfl, rfl, rfl, rfl, rfl⟩ h9
    · exact run_flags k1 _ _ _ _ _ h
  · unfold nextRpcl at h
    split_ifs at h
    · exact fin (Same.refl s) h
    · cases hs : startPos s with
      | none => rw [hs] at h; exact fin (s1 := { s with first := false }) ⟨rfl, rfl, rfl, rfl, rfl⟩ h
      | some s1 =>
        rw [hs] at h
        have h9 := run_flags k2 _ _ _ _ _ h
        exact flags_of_same (Same.trans (startPos_same hs) ⟨rfl, rfl, rfl, rfl, rfl⟩) h9
    · exact run_flags k2 _ _ _ _ _ h
  · unfold nextPcrl at h
    split_ifs at h
    · exact fin (Same.refl s) h
    · cases hs : startPos s with
      | none => rw [hs] at h; exact fin (s1 := { s with first := false }) ⟨rfl, rfl, rfl, rfl, rfl⟩ h
      | some s1 =>
        rw [hs] at h
        have h9 := run_flags k3 _ _ _ _ _ h
        exact flags_of_same (Same.trans (startPos_same hs) ⟨rfl, rfl, rfl, rfl, rfl⟩) h9
    · exact run_flags k3 _ _ _ _ _ h
  · unfold nextCprl at h
    split_ifs at h
    · exact fin (Same.refl s) h
    · have h9 := run_flags k4 _ _ _ _ _ h
      exact flags_of_same ⟨rfl, rfl, rfl, rfl, rfl⟩ h9
    · exact run_flags k4 _ _ _ _ _ h
  · exact fin (Same.refl s) h

/-- The packets of one iterator: distinct flags, all clear before and set afterwards. -/
def Fresh (idx : Pkt → Nat) (inc inc' : Nat → Bool) (l : List Pkt) : Prop :=
  (l.map idx).Nodup ∧ (∀ p ∈ l, inc (idx p) = false) ∧ (∀ p ∈ l, inc' (idx p) = true) ∧ ∀ i, inc i = true → inc' i = true

theorem Fresh.append {idx inc inc1 inc2 a b} (h : Fresh idx inc inc1 a) (h' : Fresh idx inc1 inc2 b) :
    Fresh idx inc inc2 (a ++ b) := by
  obtain ⟨a1, a2, a3, a4⟩ := h
  obtain ⟨b1, b2, b3, b4⟩ := h'
  refine ⟨?_, ?_, ?_, fun i hi => b4 _ (a4 _ hi)⟩
  · rw [List.map_append, List.nodup_append]
    refine ⟨a1, b1, ?_⟩
    intro x hx y hy e
    rw [List.mem_map] at hx hy
    obtain ⟨p, hp, rfl⟩ := hx
    obtain ⟨q, hq, rfl⟩ := hy
    have := a3 p hp
    have := b2 q hq
    rw [e] at *
    simp_all
  · intro p hp
    rw [List.mem_append] at hp
    rcases hp with hp | hp
    · exact a2 p hp
    · by_contra hc
      simp only [Bool.not_eq_false] at hc
      have := a4 _ hc
      rw [b2 p hp] at this
      cases this
  · intro p hp
    rw [List.mem_append] at hp
    rcases hp with hp | hp
    · exact b4 _ (a3 p hp)
    · exact b3 p hp

theorem drain_fresh (m : Mode) (fuel : Nat) : ∀ n s l s', drain m fuel n s = some (l, s') →
    s'.idx = s.idx ∧ Fresh s.idx s.inc s'.inc l := by
  intro n
  induction n with
  | zero => intro s l s' h; simp [drain] at h
  | succ n ih =>
    intro s l s' h
    rw [drain] at h
    cases hn : next m fuel s with
    | none => rw [hn] at h; simp at h
    | some q =>
      obtain ⟨b, s1⟩ := q
      have hf := next_flags m fuel s b s1 hn
      rw [hn] at h
      cases b with
      | false =>
        simp only [Option.some.injEq, Prod.mk.injEq] at h
        obtain ⟨rfl, rfl⟩ := h
        have hs : Same s s1 := hf
        refine ⟨hs.idx, ?_⟩
        rw [hs.1]
        exact ⟨List.nodup_nil, by simp, by simp, fun _ h => h⟩
      | true =>
        simp only [Option.map_eq_some_iff] at h
        obtain ⟨⟨l1, s2⟩, h1, h2⟩ := h
        simp only [Prod.mk.injEq] at h2
        obtain ⟨rfl, rfl⟩ := h2
        obtain ⟨e, f⟩ := ih _ _ _ h1
        obtain ⟨t1, t2, t3⟩ := (hf : Takes s s1)
        refine ⟨e.trans t1, ?_⟩
        rw [t1] at f
        have : Fresh s.idx s.inc s1.inc [s1.pkt] := by
          refine ⟨by simp, by simpa using t2, ?_, ?_⟩
          · intro p hp
            rw [List.mem_singleton] at hp
            rw [t3, hp]; simp
          · intro i hi; rw [t3]; simp [hi]
        exact Fresh.append this f

theorem drainAll_fresh (m : Mode) (fuel : Nat) (idx : Pkt → Nat) : ∀ (its : List It) inc l inc',
    (∀ s ∈ its, s.idx = idx) → drainAll m fuel its inc = some (l, inc') → Fresh idx inc inc' l := by
  intro its
  induction its with
  | nil =>
    intro inc l inc' _ h
    simp only [drainAll, Option.some.injEq, Prod.mk.injEq] at h
    obtain ⟨rfl, rfl⟩ := h
    exact ⟨List.nodup_nil, by simp, by simp, fun _ h => h⟩
  | cons s ss ih =>
    intro inc l inc' hi h
    rw [drainAll, Option.bind_eq_some_iff] at h
    obtain ⟨⟨l1, s1⟩, h1, h2⟩ := h
    rw [Option.map_eq_some_iff] at h2
    obtain ⟨⟨l2, inc2⟩, h3, h4⟩ := h2
    simp only [Prod.mk.injEq] at h4
    obtain ⟨rfl, rfl⟩ := h4
    obtain ⟨e, f⟩ := drain_fresh m fuel _ _ _ _ h1
    have e0 : ({ s with inc := inc } : It).idx = idx := hi s (by simp)
    rw [e0] at f
    exact Fresh.append f (ih _ _ _ (fun s' hs => hi s' (by simp [hs])) h3)

theorem decodePackets_nodup (m : Mode) (fuel : Nat) (t : TileParams) (n : Nat) (l : List Pkt)
    (h : decodePackets m fuel t n = some (some l)) : l.Nodup := by
  unfold decodePackets at h
  rw [Option.bind_eq_some_iff] at h
  obtain ⟨o, h1, h2⟩ := h
  cases o with
  | none => simp at h2
  | some its =>
    simp only [Option.map_eq_some_iff] at h2
    obtain ⟨⟨l1, inc'⟩, h3, h4⟩ := h2
    simp only [Option.some.injEq] at h4
    subst h4
    have hi : ∃ idx, ∀ s ∈ its, s.idx = idx := by
      unfold createDecode at h1
      simp only [Option.bind_eq_bind, Option.bind_eq_some_iff] at h1
      obtain ⟨cs, _, h1⟩ := h1
      split_ifs at h1
      · simp [pure] at h1
      · simp only [pure, Option.some.injEq] at h1
        subst h1
        exact ⟨_, by intro s hs; rw [List.mem_singleton] at hs; rw [hs]⟩
      · simp only [pure, Option.some.injEq] at h1
        subst h1
        refine ⟨It.idx { inc := fun _ => false, incSize := 0, stepL := maxRes cs * (cs.length * maxPrec cs % 2 ^ 32) % 2 ^ 32, stepR := cs.length * maxPrec cs % 2 ^ 32, stepC := maxPrec cs, stepP := 1, poc := {}, comps := [], tx0 := 0, ty0 := 0, tx1 := 0, ty1 := 0 }, ?_⟩
        intro s hs
        rw [List.mem_map] at hs
        obtain ⟨p, _, rfl⟩ := hs
        rfl
      · simp [pure] at h1
    obtain ⟨idx, hi⟩ := hi
    exact List.Nodup.of_map idx (drainAll_fresh m fuel idx its _ _ _ hi h3).1

end Jp2.Pi

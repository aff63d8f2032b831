import Verif.Jp2.PiOnce
import Verif.Jp2.PiEnc
import Mathlib.Data.Finset.Card
/-!
# Packets of an iterator: never more than entries of `include`, whatever the parameters
-/
namespace Jp2.Pi.Room
open Spec

/-- Flags and index strides stay as they are. -/
def Same (s s' : It) : Prop :=
  s'.inc = s.inc ∧ s'.stepL = s.stepL ∧ s'.stepR = s.stepR ∧ s'.stepC = s.stepC ∧ s'.stepP = s.stepP ∧
    s'.incSize = s.incSize

theorem Same.refl (s : It) : Same s s := ⟨rfl, rfl, rfl, rfl, rfl, rfl⟩

theorem Same.idx {s s' : It} (h : Same s s') : s'.idx = s.idx := by
  obtain ⟨_, h2, h3, h4, h5, _⟩ := h
  funext p
  unfold It.idx
  rw [h2, h3, h4, h5]

theorem Same.trans {a b c : It} (h : Same a b) (h' : Same b c) : Same a c := by
  obtain ⟨a1, a2, a3, a4, a5, a6⟩ := h
  obtain ⟨b1, b2, b3, b4, b5, b6⟩ := h'
  exact ⟨b1.trans a1, b2.trans a2, b3.trans a3, b4.trans a4, b5.trans a5, b6.trans a6⟩

/-- A packet was claimed: its flag lies in the array. -/
def Takes (s s' : It) : Prop :=
  s'.idx = s.idx ∧ s.idx s'.pkt < s.incSize ∧ s'.incSize = s.incSize

/-- Effect of one step on the flags. -/
def Flags (s : It) : Out → Prop
  | .goto _ s' => Same s s'
  | .ret false s' => Same s s'
  | .ret true s' => Takes s s'
  | .fault => True

theorem claim_flags (s : It) : Flags s (claim s) := by
  unfold claim
  split_ifs with h1 h2
  · exact Same.refl s
  · exact Same.refl s
  · exact ⟨rfl, by show s.index < s.incSize; omega, rfl⟩

theorem setArea_same (s : It) : Same s (setArea s) := by
  unfold setArea
  split <;> exact Same.refl s

theorem stepOf_flags (m : Mode) (prg : Int) (l : Label) (s : It) : Flags s (stepOf m prg l s) := by
  unfold stepOf
  split_ifs
  · unfold stepLrcp
    repeat' split
    all_goals first
      | exact ⟨rfl, rfl, rfl, rfl, rfl, rfl⟩
      | exact claim_flags s
      | trivial
  · unfold stepRlcp
    repeat' split
    all_goals first
      | exact ⟨rfl, rfl, rfl, rfl, rfl, rfl⟩
      | exact claim_flags s
      | trivial
  · unfold stepRpcl
    repeat' split
    all_goals first
      | exact ⟨rfl, rfl, rfl, rfl, rfl, rfl⟩
      | exact claim_flags s
      | trivial
  · unfold stepPcrl
    repeat' split
    all_goals first
      | exact ⟨rfl, rfl, rfl, rfl, rfl, rfl⟩
      | exact claim_flags s
      | trivial
  · unfold stepCprl
    repeat' split
    all_goals first
      | exact ⟨rfl, rfl, rfl, rfl, rfl, rfl⟩
      | exact claim_flags s
      | trivial
      | skip
    all_goals simp only
    all_goals split
    all_goals first
      | exact ⟨rfl, rfl, rfl, rfl, rfl, rfl⟩
      | skip
    obtain ⟨a, b, c, d, e, f⟩ := setArea_same { s with
      dx := (foldRes _ _ 0 _ (0, 0)).1, dy := (foldRes _ _ 0 _ (0, 0)).2 }
    exact ⟨a, b, c, d, e, f⟩

theorem run_flags {step : Label → It → Out} (hk : ∀ l s, Flags s (step l s)) : ∀ n l s b s',
    run step n l s = some (b, s') → Flags s (Out.ret b s') := by
  intro n
  induction n with
  | zero => intro l s b s' h; simp [run] at h
  | succ n ih =>
    intro l s b s' h
    have hk' := hk l s
    rw [run] at h
    cases he : step l s with
    | goto l1 s1 =>
      rw [he] at h hk'
      have := ih _ _ _ _ h
      have hs : Same s s1 := hk'
      cases b with
      | false => exact Same.trans hs this
      | true =>
        obtain ⟨t1, t2, t3⟩ := (this : Takes s1 s')
        have e := hs.idx
        have e2 := hs.2.2.2.2.2
        refine ⟨t1.trans e, ?_, t3.trans e2⟩
        rw [← e, ← e2]; exact t2
    | ret b1 s1 =>
      rw [he] at h hk'
      simp only [Option.some.injEq, Prod.mk.injEq] at h
      obtain ⟨rfl, rfl⟩ := h
      exact hk'
    | fault => rw [he] at h; simp at h

theorem flags_of_same {s s1 : It} {b : Bool} {s' : It} (h : Same s s1) (h' : Flags s1 (Out.ret b s')) :
    Flags s (Out.ret b s') := by
  cases b with
  | false => exact Same.trans h h'
  | true =>
    obtain ⟨t1, t2, t3⟩ := (h' : Takes s1 s')
    refine ⟨t1.trans h.idx, ?_, t3.trans h.2.2.2.2.2⟩
    rw [← h.idx, ← h.2.2.2.2.2]; exact t2

theorem startPos_same {s s1 : It} (h : startPos s = some s1) : Same s s1 := by
  unfold startPos at h
  simp only at h
  split_ifs at h
  simp only [Option.some.injEq] at h
  rw [← h]
  obtain ⟨a, b, c, d, e, f⟩ := setArea_same { s with
    first := false, dx := (foldComps s.comps (0, 0)).1, dy := (foldComps s.comps (0, 0)).2 }
  exact ⟨a, b, c, d, e, f⟩

theorem next_flags (m : Mode) (fuel : Nat) (s : It) (b : Bool) (s' : It) (h : next m fuel s = some (b, s')) :
    Flags s (Out.ret b s') := by
  have k0 := stepOf_flags m 0
  have k1 := stepOf_flags m 1
  have k2 := stepOf_flags m 2
  have k3 := stepOf_flags m 3
  have k4 := stepOf_flags m 4
  have e0 : stepOf m 0 = stepLrcp := rfl
  have e1 : stepOf m 1 = stepRlcp := rfl
  have e2 : stepOf m 2 = stepRpcl m := rfl
  have e3 : stepOf m 3 = stepPcrl m := rfl
  have e4 : stepOf m 4 = stepCprl m := rfl
  rw [e0] at k0
  rw [e1] at k1
  rw [e2] at k2
  rw [e3] at k3
  rw [e4] at k4
  unfold next at h
  have fin : ∀ {s1 : It}, Same s s1 → some (false, s1) = some (b, s') → Flags s (Out.ret b s') := by
    intro s1 h1 h2
    simp only [Option.some.injEq, Prod.mk.injEq] at h2
    obtain ⟨rfl, rfl⟩ := h2
    exact h1
  split_ifs at h
  · unfold nextLrcp at h
    split_ifs at h
    · exact fin (Same.refl s) h
    · have h9 := run_flags k0 _ _ _ _ _ h
      exact flags_of_same ⟨rfl, rfl, rfl, rfl, rfl, rfl⟩ h9
    · exact run_flags k0 _ _ _ _ _ h
  · unfold nextRlcp at h
    split_ifs at h
    · exact fin (Same.refl s) h
    · have h9 := run_flags k1 _ _ _ _ _ h
      exact flags_of_same ⟨rfl, rfl, rfl, rfl, rfl, rfl⟩ h9
    · exact run_flags k1 _ _ _ _ _ h
  · unfold nextRpcl at h
    split_ifs at h
    · exact fin (Same.refl s) h
    · cases hs : startPos s with
      | none => rw [hs] at h; exact fin (s1 := { s with first := false }) ⟨rfl, rfl, rfl, rfl, rfl, rfl⟩ h
      | some s1 =>
        rw [hs] at h
        have h9 := run_flags k2 _ _ _ _ _ h
        exact flags_of_same (Same.trans (startPos_same hs) ⟨rfl, rfl, rfl, rfl, rfl, rfl⟩) h9
    · exact run_flags k2 _ _ _ _ _ h
  · unfold nextPcrl at h
    split_ifs at h
    · exact fin (Same.refl s) h
    · cases hs : startPos s with
      | none => rw [hs] at h; exact fin (s1 := { s with first := false }) ⟨rfl, rfl, rfl, rfl, rfl, rfl⟩ h
      | some s1 =>
        rw [hs] at h
        have h9 := run_flags k3 _ _ _ _ _ h
        exact flags_of_same (Same.trans (startPos_same hs) ⟨rfl, rfl, rfl, rfl, rfl, rfl⟩) h9
    · exact run_flags k3 _ _ _ _ _ h
  · unfold nextCprl at h
    split_ifs at h
    · exact fin (Same.refl s) h
    · have h9 := run_flags k4 _ _ _ _ _ h
      exact flags_of_same ⟨rfl, rfl, rfl, rfl, rfl, rfl⟩ h9
    · exact run_flags k4 _ _ _ _ _ h
  · exact fin (Same.refl s) h


theorem drain_below (m : Mode) (fuel : Nat) : ∀ n s l s', drain m fuel n s = some (l, s') →
    s'.idx = s.idx ∧ s'.incSize = s.incSize ∧ ∀ p ∈ l, s.idx p < s.incSize := by
  intro n
  induction n with
  | zero => intro s l s' h; simp [drain] at h
  | succ n ih =>
    intro s l s' h
    rw [drain] at h
    cases hn : next m fuel s with
    | none => rw [hn] at h; simp at h
    | some q =>
      obtain ⟨b, s1⟩ := q
      have hf := next_flags m fuel s b s1 hn
      rw [hn] at h
      cases b with
      | false =>
        simp only [Option.some.injEq, Prod.mk.injEq] at h
        obtain ⟨rfl, rfl⟩ := h
        have hs : Same s s1 := hf
        exact ⟨hs.idx, hs.2.2.2.2.2, by simp⟩
      | true =>
        simp only [Option.map_eq_some_iff] at h
        obtain ⟨⟨l1, s2⟩, h1, h2⟩ := h
        simp only [Prod.mk.injEq] at h2
        obtain ⟨rfl, rfl⟩ := h2
        obtain ⟨e, e', f⟩ := ih _ _ _ h1
        obtain ⟨t1, t2, t3⟩ := (hf : Takes s s1)
        refine ⟨e.trans t1, e'.trans t3, ?_⟩
        intro p hp
        rw [List.mem_cons] at hp
        rcases hp with rfl | hp
        · exact t2
        · rw [← t1, ← t3]; exact f p hp

theorem nodup_below {l : List Nat} {n : Nat} (h : l.Nodup) (hb : ∀ x ∈ l, x < n) : l.length ≤ n := by
  have h1 : l.toFinset ⊆ Finset.range n := by
    intro x hx
    rw [List.mem_toFinset] at hx
    exact Finset.mem_range.2 (hb x hx)
  have h2 := Finset.card_le_card h1
  rwa [List.toFinset_card_of_nodup h, Finset.card_range] at h2

/-- Never more packets than entries. -/
theorem drain_length {m : Mode} {fuel n : Nat} {s : It} {l : List Pkt} {s' : It}
    (h : drain m fuel n s = some (l, s')) : l.length ≤ s.incSize := by
  obtain ⟨_, f⟩ := drain_fresh m fuel n s l s' h
  obtain ⟨_, _, g⟩ := drain_below m fuel n s l s' h
  have := nodup_below (n := s.incSize) f.1 (by
    intro x hx
    rw [List.mem_map] at hx
    obtain ⟨p, hp, rfl⟩ := hx
    exact g p hp)
  simpa using this

theorem encParts_length {m : Mode} {fuel : Nat} {t : TileParams} {i : TileInfo} {tpOn first : Bool} :
    ∀ n tpnum p r, encParts m fuel t i tpOn first n tpnum p = some r →
      ∀ l ∈ r, l.length ≤ (encIt t i false {}).incSize := by
  intro n
  induction n with
  | zero => intro tpnum p r h; simp only [encParts, Option.some.injEq] at h; subst h; simp
  | succ n ih =>
    intro tpnum p r h
    simp only [encParts, Option.bind_eq_bind, Option.bind_eq_some_iff] at h
    obtain ⟨⟨q, p'⟩, _, ⟨d, s'⟩, h2, r', h3, h4⟩ := h
    simp only [Option.some.injEq] at h4
    subst h4
    intro l hl
    rw [List.mem_cons] at hl
    rcases hl with rfl | hl
    · have := drain_length h2
      exact this
    · exact ih _ _ _ h3 l hl

theorem encProgs_length {m : Mode} {fuel : Nat} {t : TileParams} {i : TileInfo} {flag : Option Letter} :
    ∀ ps first r, encProgs m fuel t i flag first ps = some r →
      ∀ l ∈ r, l.length ≤ (encIt t i false {}).incSize := by
  intro ps
  induction ps with
  | nil => intro first r h; simp only [encProgs, Option.some.injEq] at h; subst h; simp
  | cons p ps ih =>
    intro first r h
    simp only [encProgs, Option.bind_eq_bind, Option.bind_eq_some_iff] at h
    obtain ⟨n, _, a, h2, b, h3, h4⟩ := h
    simp only [Option.some.injEq] at h4
    subst h4
    intro l hl
    rw [List.mem_append] at hl
    rcases hl with hl | hl
    · exact encParts_length _ _ _ _ h2 l hl
    · exact ih _ _ h3 l hl

end Jp2.Pi.Room

import Verif.Jp2.PiEncLemmas
/-!
# Iterators with tile-parts behave like iterators without

`tp_on` keeps an iterator from recomputing the end of the precinct range and the area. When they already have the
values it would compute, it makes no difference.
-/
namespace Jp2.Pi
open Spec

/-- The same iterator with `tp_on`. -/
def It.on (s : It) : It := { s with tpOn := true }

def Out.map (f : It → It) : Out → Out
  | .goto l s => .goto l (f s)
  | .ret b s => .ret b (f s)
  | .fault => .fault

def Out.All (P : It → Prop) : Out → Prop
  | .goto _ s => P s
  | .ret _ s => P s
  | .fault => True

/-- `step` treats `s` and `s.on` alike for states with the invariant `K`, which it keeps. -/
def Blind (K : It → Prop) (step : Label → It → Out) : Prop :=
  ∀ l s, K s → step l s.on = (step l s).map It.on ∧ (step l s).All K

theorem run_on {K : It → Prop} {step : Label → It → Out} (h : Blind K step) : ∀ fuel l s, K s →
    run step fuel l s.on = (run step fuel l s).map (fun q => (q.1, q.2.on)) ∧ ∀ q, run step fuel l s = some q → K q.2 := by
  intro fuel
  induction fuel with
  | zero => intro l s _; exact ⟨rfl, fun q hq => by cases hq⟩
  | succ n ih =>
    intro l s hs
    obtain ⟨h1, h2⟩ := h l s hs
    rw [run, run, h1]
    cases e : step l s with
    | goto l' s' => rw [e] at h2; exact ih l' s' h2
    | ret b s' =>
      rw [e] at h2
      refine ⟨rfl, fun q hq => ?_⟩
      cases hq; exact h2
    | fault => exact ⟨rfl, fun q hq => by cases hq⟩

/-- Every resolution has `k` precincts and the range of precincts ends at `k`. -/
def Uniform (k : Nat) (g : Int) (s : It) : Prop :=
  s.poc.prg = g ∧ s.tpOn = false ∧ s.poc.precno1 = k ∧ ∀ c ∈ s.comps, ∀ r ∈ c.res, r.pw * r.ph % 2 ^ 32 = k

theorem claim_on {K : It → Prop} (hK : ∀ s i, K s → K { s with inc := i }) (s : It) (h : K s) :
    claim s.on = (claim s).map It.on ∧ (claim s).All K := by
  unfold claim
  by_cases h1 : s.incSize ≤ s.index
  · rw [if_pos h1, if_pos (show s.on.incSize ≤ s.on.index from h1)]
    exact ⟨rfl, h⟩
  · rw [if_neg h1, if_neg (show ¬ s.on.incSize ≤ s.on.index from h1)]
    by_cases h2 : s.inc s.index = true
    · rw [if_pos h2, if_pos (show s.on.inc s.on.index = true from h2)]
      exact ⟨rfl, h⟩
    · rw [if_neg h2, if_neg (show ¬ s.on.inc s.on.index = true from h2)]
      exact ⟨rfl, hK _ _ h⟩

theorem compChk_on {k : Nat} {g : Int} (s : It) (h : Uniform k g s) (c : Comp) (r : Res) (hc : s.comps[s.compno]? = some c)
    (hr : c.res[s.resno]? = some r) : r.pw * r.ph % 2 ^ 32 = s.poc.precno1 := by
  rw [h.2.2.1]
  exact h.2.2.2 c (List.mem_of_getElem? hc) r (List.mem_of_getElem? hr)

theorem ite_on {K : It → Prop} (c : Prop) [Decidable c] {a b a' b' : Out}
    (ha : c → a' = a.map It.on ∧ a.All K) (hb : ¬ c → b' = b.map It.on ∧ b.All K) :
    (if c then a' else b') = (if c then a else b).map It.on ∧ (if c then a else b).All K := by
  by_cases h : c
  · rw [if_pos h, if_pos h]; exact ha h
  · rw [if_neg h, if_neg h]; exact hb h

theorem blind_lrcp (k : Nat) (g : Int) : Blind (Uniform k g) stepLrcp := by
  intro l s h
  have hcl := claim_on (K := Uniform k g) (fun s i hs => hs) s h
  cases l
  case skip => exact ⟨rfl, h⟩
  case lay => exact ite_on _ (fun _ => ⟨rfl, h⟩) (fun _ => ⟨rfl, h⟩)
  case res => exact ite_on _ (fun _ => ⟨rfl, h⟩) (fun _ => ⟨rfl, h⟩)
  case prec => exact ite_on _ (fun _ => hcl) (fun _ => ⟨rfl, h⟩)
  case compInc => exact ⟨rfl, h⟩
  case compChk =>
    refine ite_on (s.compno < s.poc.compno1) (fun _ => ?_) (fun _ => ⟨rfl, h⟩)
    simp only
    rw [show s.on.comps[s.on.compno]? = s.comps[s.compno]? from rfl]
    cases hc : s.comps[s.compno]? with
    | none => exact ⟨rfl, trivial⟩
    | some c =>
      refine ite_on (c.res.length ≤ s.resno) (fun _ => ⟨rfl, h⟩) (fun _ => ?_)
      rw [show c.res[s.on.resno]? = c.res[s.resno]? from rfl]
      cases hr : c.res[s.resno]? with
      | none => exact ⟨rfl, trivial⟩
      | some r =>
        have e := compChk_on s h c r hc hr
        simp only [h.2.1, if_true, Bool.false_eq_true, if_false, e]
        exact ⟨rfl, h.1, rfl, h.2.2⟩
  all_goals exact ⟨rfl, trivial⟩

theorem blind_rlcp (k : Nat) (g : Int) : Blind (Uniform k g) stepRlcp := by
  intro l s h
  have hcl := claim_on (K := Uniform k g) (fun s i hs => hs) s h
  cases l
  case skip => exact ⟨rfl, h⟩
  case lay => exact ite_on _ (fun _ => ⟨rfl, h⟩) (fun _ => ⟨rfl, h⟩)
  case res => exact ite_on _ (fun _ => ⟨rfl, h⟩) (fun _ => ⟨rfl, h⟩)
  case prec => exact ite_on _ (fun _ => hcl) (fun _ => ⟨rfl, h⟩)
  case compInc => exact ⟨rfl, h⟩
  case compChk =>
    refine ite_on (s.compno < s.poc.compno1) (fun _ => ?_) (fun _ => ⟨rfl, h⟩)
    simp only
    rw [show s.on.comps[s.on.compno]? = s.comps[s.compno]? from rfl]
    cases hc : s.comps[s.compno]? with
    | none => exact ⟨rfl, trivial⟩
    | some c =>
      refine ite_on (c.res.length ≤ s.resno) (fun _ => ⟨rfl, h⟩) (fun _ => ?_)
      rw [show c.res[s.on.resno]? = c.res[s.resno]? from rfl]
      cases hr : c.res[s.resno]? with
      | none => exact ⟨rfl, trivial⟩
      | some r =>
        have e := compChk_on s h c r hc hr
        simp only [h.2.1, if_true, Bool.false_eq_true, if_false, e]
        exact ⟨rfl, h.1, rfl, h.2.2⟩
  all_goals exact ⟨rfl, trivial⟩

/-- The area of the iterator is the whole tile. -/
def Whole (s : It) : Prop :=
  s.poc.prg = 4 ∧ s.tpOn = false ∧ s.poc.tx0 = s.tx0 ∧ s.poc.ty0 = s.ty0 ∧ s.poc.tx1 = s.tx1 ∧ s.poc.ty1 = s.ty1

theorem setArea_whole (s : It) (h : Whole s) : setArea s = s := by
  obtain ⟨_, h1, h2, h3, h4, h5⟩ := h
  have e : ({ s.poc with ty0 := s.ty0, tx0 := s.tx0, ty1 := s.ty1, tx1 := s.tx1 } : Poc) = s.poc := by
    rw [← h2, ← h3, ← h4, ← h5]
  unfold setArea
  rw [if_neg (by rw [h1]; decide), e]

theorem blind_cprl (m : Mode) : Blind Whole (stepCprl m) := by
  intro l s h
  have hcl := claim_on (K := Whole) (fun s i hs => hs) s h
  cases l
  case skip => exact ⟨rfl, h⟩
  case comp =>
    simp only [stepCprl]
    by_cases hlt : s.poc.compno1 ≤ s.compno
    · rw [if_pos hlt, if_pos (show s.on.poc.compno1 ≤ s.on.compno from hlt)]
      exact ⟨rfl, h⟩
    · rw [if_neg hlt, if_neg (show ¬ s.on.poc.compno1 ≤ s.on.compno from hlt)]
      rw [show s.on.comps[s.on.compno]? = s.comps[s.compno]? from rfl]
      cases s.comps[s.compno]? with
      | none => exact ⟨rfl, trivial⟩
      | some c =>
        refine ite_on _ (fun _ => ⟨rfl, h⟩) (fun _ => ?_)
        · obtain ⟨s', hs'⟩ : ∃ s' : It, s' = { s with
              dx := (foldRes c c.res.length 0 c.res (0, 0)).1
              dy := (foldRes c c.res.length 0 c.res (0, 0)).2 } := ⟨_, rfl⟩
          have hw : Whole s' := by rw [hs']; exact h
          have e1 := setArea_whole s' hw
          rw [show ({ s.on with
              dx := (foldRes c c.res.length 0 c.res (0, 0)).1
              dy := (foldRes c c.res.length 0 c.res (0, 0)).2 } : It) = s'.on by rw [hs']; rfl, ← hs', e1]
          exact ⟨rfl, hw⟩
  case y => exact ite_on _ (fun _ => ⟨rfl, h⟩) (fun _ => ⟨rfl, h⟩)
  case lay =>
    simp only [stepCprl]
    by_cases hlt : s.layno < s.poc.layno1
    · rw [if_pos hlt, if_pos (show s.on.layno < s.on.poc.layno1 from hlt)]
      exact hcl
    · rw [if_neg hlt, if_neg (show ¬ s.on.layno < s.on.poc.layno1 from hlt)]
      exact ⟨rfl, h⟩
  case x =>
    refine ite_on (s.x < s.poc.tx1) (fun _ => ⟨rfl, h⟩) (fun _ => ?_)
    rw [show advance s.on.y s.on.dy = advance s.y s.dy from rfl]
    cases advance s.y s.dy with
    | none => exact ⟨rfl, trivial⟩
    | some y => exact ⟨rfl, h⟩
  case resInc => exact ⟨rfl, h⟩
  case resChk =>
    simp only [stepCprl]
    rw [show s.on.comps[s.on.compno]? = s.comps[s.compno]? from rfl]
    cases s.comps[s.compno]? with
    | none => exact ⟨rfl, trivial⟩
    | some c =>
      simp only
      by_cases hlt : s.resno < Math.uintMin s.poc.resno1 c.res.length
      · rw [if_pos hlt, if_pos (show s.on.resno < Math.uintMin s.on.poc.resno1 c.res.length from hlt)]
        rw [show c.res[s.on.resno]? = c.res[s.resno]? from rfl]
        cases c.res[s.resno]? with
        | none => exact ⟨rfl, trivial⟩
        | some r =>
          simp only
          rw [show precinct m guard32 guard32w s.on c r = precinct m guard32 guard32w s c r from rfl]
          cases precinct m guard32 guard32w s c r with
          | none => exact ⟨rfl, trivial⟩
          | some o =>
            cases o with
            | none => exact ⟨rfl, h⟩
            | some p => exact ⟨rfl, h⟩
      · rw [if_neg hlt, if_neg (show ¬ s.on.resno < Math.uintMin s.on.poc.resno1 c.res.length from hlt)]
        rw [show advance s.on.x s.on.dx = advance s.x s.dx from rfl]
        cases advance s.x s.dx with
        | none => exact ⟨rfl, trivial⟩
        | some x => exact ⟨rfl, h⟩
  all_goals exact ⟨rfl, trivial⟩

/-- The first call. -/
theorem compsOk_on (s : It) : compsOk s.on = compsOk s := rfl

/-- `next` treats `s` and `s.on` alike. -/
def BlindNext (K : It → Prop) (m : Mode) : Prop :=
  ∀ fuel s, K s → next m fuel s.on = (next m fuel s).map (fun q => (q.1, q.2.on)) ∧
    ∀ q, next m fuel s = some q → K q.2

theorem next_lrcp (m : Mode) (k : Nat) : BlindNext (Uniform k 0) m := by
  intro fuel s h
  have hp := h.1
  unfold next
  rw [if_pos hp, if_pos (show s.on.poc.prg = 0 from hp)]
  unfold nextLrcp
  rw [compsOk_on, show s.on.first = s.first from rfl]
  cases compsOk s
  · exact ⟨rfl, fun q hq => by cases hq; exact h⟩
  · cases s.first
    · exact run_on (blind_lrcp k 0) fuel .skip s h
    · exact run_on (blind_lrcp k 0) fuel .lay { s with first := false, layno := s.poc.layno0 } h

theorem next_rlcp (m : Mode) (k : Nat) : BlindNext (Uniform k 1) m := by
  intro fuel s h
  have hp := h.1
  have e : ∀ s : It, s.poc.prg = 1 → next m fuel s = nextRlcp fuel s := by
    intro s hp
    unfold next
    rw [if_neg (by omega), if_pos hp]
  rw [e s hp, e s.on hp]
  unfold nextRlcp
  rw [compsOk_on, show s.on.first = s.first from rfl]
  cases compsOk s
  · exact ⟨rfl, fun q hq => by cases hq; exact h⟩
  · cases s.first
    · exact run_on (blind_rlcp k 1) fuel .skip s h
    · exact run_on (blind_rlcp k 1) fuel .res { s with first := false, resno := s.poc.resno0 } h

theorem next_cprl (m : Mode) : BlindNext Whole m := by
  intro fuel s h
  have hp := h.1
  have e : ∀ s : It, s.poc.prg = 4 → next m fuel s = nextCprl m fuel s := by
    intro s hp
    unfold next
    rw [if_neg (by omega), if_neg (by omega), if_neg (by omega), if_neg (by omega), if_pos hp]
  rw [e s hp, e s.on hp]
  unfold nextCprl
  rw [compsOk_on, show s.on.first = s.first from rfl]
  cases compsOk s
  · exact ⟨rfl, fun q hq => by cases hq; exact h⟩
  · cases s.first
    · exact run_on (blind_cprl m) fuel .skip s h
    · exact run_on (blind_cprl m) fuel .comp { s with first := false, compno := s.poc.compno0 } h

/-- The packet loop. -/
theorem drain_on {K : It → Prop} {m : Mode} (hn : BlindNext K m) (fuel : Nat) : ∀ n s, K s →
    drain m fuel n s.on = (drain m fuel n s).map (fun q => (q.1, q.2.on)) := by
  intro n
  induction n with
  | zero => intro s _; rfl
  | succ n ih =>
    intro s h
    obtain ⟨h1, h2⟩ := hn fuel s h
    rw [drain, drain, h1]
    cases e : next m fuel s with
    | none => rfl
    | some q =>
      obtain ⟨b, s'⟩ := q
      cases b with
      | false => rfl
      | true =>
        simp only [Option.map_some]
        rw [ih s' (h2 _ e)]
        cases drain m fuel n s' with
        | none => rfl
        | some r => rfl

end Jp2.Pi

import Verif.Jp2.PiLemmas
/-!
# The visit lists of the layer/resolution driven iterators
-/
namespace Jp2.Pi
open Spec (upto)

/-- The part of an iterator its loops do not change. -/
def core (s : It) : It :=
  { s with inc := fun _ => false, compno := 0, resno := 0, precno := 0, layno := 0, x := 0, y := 0,
           poc := { s.poc with precno1 := 0 } }

/-- Same constant part. -/
def Inv (s0 s : It) : Prop := core s = core s0

theorem Inv.comps {s0 s : It} (h : Inv s0 s) : s.comps = s0.comps := congrArg (fun t => t.comps) h
theorem Inv.tpOn {s0 s : It} (h : Inv s0 s) : s.tpOn = s0.tpOn := congrArg (fun t => t.tpOn) h
theorem Inv.incSize {s0 s : It} (h : Inv s0 s) : s.incSize = s0.incSize := congrArg (fun t => t.incSize) h
theorem Inv.dx {s0 s : It} (h : Inv s0 s) : s.dx = s0.dx := congrArg (fun t => t.dx) h
theorem Inv.dy {s0 s : It} (h : Inv s0 s) : s.dy = s0.dy := congrArg (fun t => t.dy) h
theorem Inv.tx0 {s0 s : It} (h : Inv s0 s) : s.tx0 = s0.tx0 := congrArg (fun t => t.tx0) h
theorem Inv.ty0 {s0 s : It} (h : Inv s0 s) : s.ty0 = s0.ty0 := congrArg (fun t => t.ty0) h
theorem Inv.tx1 {s0 s : It} (h : Inv s0 s) : s.tx1 = s0.tx1 := congrArg (fun t => t.tx1) h
theorem Inv.ty1 {s0 s : It} (h : Inv s0 s) : s.ty1 = s0.ty1 := congrArg (fun t => t.ty1) h
theorem Inv.layno0 {s0 s : It} (h : Inv s0 s) : s.poc.layno0 = s0.poc.layno0 :=
  congrArg (fun t => t.poc.layno0) h
theorem Inv.layno1 {s0 s : It} (h : Inv s0 s) : s.poc.layno1 = s0.poc.layno1 :=
  congrArg (fun t => t.poc.layno1) h
theorem Inv.resno0 {s0 s : It} (h : Inv s0 s) : s.poc.resno0 = s0.poc.resno0 :=
  congrArg (fun t => t.poc.resno0) h
theorem Inv.resno1 {s0 s : It} (h : Inv s0 s) : s.poc.resno1 = s0.poc.resno1 :=
  congrArg (fun t => t.poc.resno1) h
theorem Inv.compno0 {s0 s : It} (h : Inv s0 s) : s.poc.compno0 = s0.poc.compno0 :=
  congrArg (fun t => t.poc.compno0) h
theorem Inv.compno1 {s0 s : It} (h : Inv s0 s) : s.poc.compno1 = s0.poc.compno1 :=
  congrArg (fun t => t.poc.compno1) h
theorem Inv.precno0 {s0 s : It} (h : Inv s0 s) : s.poc.precno0 = s0.poc.precno0 :=
  congrArg (fun t => t.poc.precno0) h
theorem Inv.ptx0 {s0 s : It} (h : Inv s0 s) : s.poc.tx0 = s0.poc.tx0 :=
  congrArg (fun t => t.poc.tx0) h
theorem Inv.ptx1 {s0 s : It} (h : Inv s0 s) : s.poc.tx1 = s0.poc.tx1 :=
  congrArg (fun t => t.poc.tx1) h
theorem Inv.pty0 {s0 s : It} (h : Inv s0 s) : s.poc.ty0 = s0.poc.ty0 :=
  congrArg (fun t => t.poc.ty0) h
theorem Inv.pty1 {s0 s : It} (h : Inv s0 s) : s.poc.ty1 = s0.poc.ty1 :=
  congrArg (fun t => t.poc.ty1) h
theorem Inv.idx {s0 s : It} (h : Inv s0 s) : s.idx = s0.idx := by
  funext p
  unfold It.idx
  rw [show s.stepL = s0.stepL from congrArg (fun t => t.stepL) h, show s.stepR = s0.stepR from congrArg (fun t => t.stepR) h,
    show s.stepC = s0.stepC from congrArg (fun t => t.stepC) h, show s.stepP = s0.stepP from congrArg (fun t => t.stepP) h]

@[simp] theorem claimed_layno (s : It) : (claimed s).layno = s.layno := by unfold claimed; split <;> rfl
@[simp] theorem claimed_resno (s : It) : (claimed s).resno = s.resno := by unfold claimed; split <;> rfl
@[simp] theorem claimed_compno (s : It) : (claimed s).compno = s.compno := by unfold claimed; split <;> rfl
@[simp] theorem claimed_precno (s : It) : (claimed s).precno = s.precno := by unfold claimed; split <;> rfl
@[simp] theorem claimed_poc (s : It) : (claimed s).poc = s.poc := by unfold claimed; split <;> rfl
@[simp] theorem claimed_x (s : It) : (claimed s).x = s.x := by unfold claimed; split <;> rfl
@[simp] theorem claimed_y (s : It) : (claimed s).y = s.y := by unfold claimed; split <;> rfl
theorem claimed_core (s : It) : core (claimed s) = core s := by unfold claimed; split <;> rfl

/-- Number of precincts the iterator's tables give resolution `r` of component `c`. -/
def npOf (cs : List Comp) (c r : Nat) : Nat :=
  match cs[c]? with
  | none => 0
  | some cp => match cp.res[r]? with
    | none => 0
    | some q => q.pw * q.ph

/-- What the layer/resolution driven loops need: no counter of theirs overflows. -/
structure Sized (s0 : It) : Prop where
  tp : s0.tpOn = false
  lay : s0.poc.layno1 < 2 ^ 32
  res : s0.poc.resno1 < 2 ^ 32
  comp : s0.poc.compno1 ≤ s0.comps.length
  ncomp : s0.comps.length < 2 ^ 32
  prec0 : s0.poc.precno0 = 0
  np : ∀ c r, npOf s0.comps c r < 2 ^ 32

theorem inc32_of (a b : Nat) (h : a < b) (hb : b < 2 ^ 32) : inc32 a = a + 1 := by
  unfold inc32; exact Nat.mod_eq_of_lt (by omega)

/-- Packets `V` are all inside `include`. -/
def Inside (s0 : It) (V : List Pkt) : Prop := ∀ p ∈ V, s0.idx p < s0.incSize

/-! ## The precinct loop (LRCP, RLCP) -/

theorem prec_loop (step : Label → It → Out)
    (h1 : ∀ s : It, s.precno < s.poc.precno1 → step .prec s = claim s)
    (h2 : ∀ s : It, step .skip s = .goto .prec { s with precno := inc32 s.precno })
    (s0 : It) (l r c n : Nat) (hn : n < 2 ^ 32)
    (hin : ∀ k, k < n → s0.idx ⟨l, r, c, k⟩ < s0.incSize)
    (s : It) (hi : Inv s0 s) (hl : s.layno = l) (hr : s.resno = r) (hc : s.compno = c)
    (hp : s.poc.precno1 = n) (h0 : s.precno = 0) :
    ∃ s', Visits step s0.idx .prec s ((List.range n).map fun k => ⟨l, r, c, k⟩) .prec s' ∧
      Inv s0 s' ∧ s'.layno = l ∧ s'.resno = r ∧ s'.compno = c ∧ s'.poc.precno1 ≤ s'.precno := by
  have := loop_upto step s0.idx .prec
    (fun s => Inv s0 s ∧ s.layno = l ∧ s.resno = r ∧ s.compno = c ∧ s.poc.precno1 = n)
    It.precno (fun k => [⟨l, r, c, k⟩]) n ?_ s ⟨hi, hl, hr, hc, hp⟩
  · obtain ⟨s', v, ⟨a1, a2, a3, a4, a5⟩, a6⟩ := this
    refine ⟨s', ?_, a1, a2, a3, a4, by omega⟩
    rw [h0, upto_range] at v
    rw [List.map_eq_flatMap]
    exact v
  · rintro s ⟨a1, a2, a3, a4, a5⟩ hlt
    refine ⟨{ claimed s with precno := inc32 (claimed s).precno }, ?_, ⟨?_, ?_, ?_, ?_, ?_⟩, ?_⟩
    · have hpk : s.pkt = ⟨l, r, c, s.precno⟩ := by unfold It.pkt; rw [a2, a3, a4]
      rw [← hpk, ← a1.idx]
      refine Visits.claim (h1 s (by omega)) ?_ (Visits.goto (h2 _) rfl (Visits.refl _ _ _ _))
      rw [← idx_pkt, a1.idx, a1.incSize, hpk]
      exact hin _ hlt
    · unfold Inv
      rw [← a1, ← claimed_core s]; rfl
    · simpa using a2
    · simpa using a3
    · simpa using a4
    · simpa using a5
    · simp only [claimed_precno]
      exact inc32_of _ _ hlt hn

/-! ## LRCP -/

def visLRC (cs : List Comp) (l r c : Nat) : List Pkt :=
  (List.range (npOf cs c r)).map fun k => ⟨l, r, c, k⟩

theorem lrcp_comp (s0 : It) (hz : Sized s0) (l r : Nat) (s : It) (hi : Inv s0 s) (hl : s.layno = l)
    (hr : s.resno = r) (hlt : s.compno < s0.poc.compno1) (hin : Inside s0 (visLRC s0.comps l r s.compno)) :
    ∃ s', Visits stepLrcp s0.idx .compChk s (visLRC s0.comps l r s.compno) .compChk s' ∧
      Inv s0 s' ∧ s'.layno = l ∧ s'.resno = r ∧ s'.compno = s.compno + 1 := by
  have hlen := hz.comp
  have hnc := hz.ncomp
  have hinc : inc32 s.compno = s.compno + 1 := inc32_of _ _ hlt (by omega)
  have hcl : s.compno < s0.comps.length := by omega
  obtain ⟨cp, hcp⟩ : ∃ cp, s0.comps[s.compno]? = some cp := ⟨_, List.getElem?_eq_getElem hcl⟩
  have hchk : s.compno < s.poc.compno1 := by rw [hi.compno1]; exact hlt
  by_cases hres : cp.res.length ≤ s.resno
  · have hV : visLRC s0.comps l r s.compno = [] := by
      unfold visLRC npOf
      rw [hcp, ← hr]
      simp only [List.getElem?_eq_none hres]
      rfl
    rw [hV]
    refine ⟨{ s with compno := inc32 s.compno }, ?_, hi, hl, hr, hinc⟩
    refine Visits.goto (l1 := .compInc) (s1 := s) ?_ rfl (Visits.goto rfl rfl (Visits.refl _ _ _ _))
    simp only [stepLrcp, hchk, hi.comps, hcp, hres, if_true]
  · obtain ⟨q, hq⟩ : ∃ q, cp.res[s.resno]? = some q := ⟨_, List.getElem?_eq_getElem (by omega)⟩
    have hnp : npOf s0.comps s.compno r = q.pw * q.ph := by
      unfold npOf; rw [hcp, ← hr]; simp only [hq]
    have hn := hz.np s.compno r
    have htp : s.tpOn = false := by rw [hi.tpOn]; exact hz.tp
    obtain ⟨s1, hs1⟩ : ∃ s1 : It, s1 = { s with
      poc := { s.poc with precno1 := q.pw * q.ph % 2 ^ 32 }, precno := s.poc.precno0 } := ⟨_, rfl⟩
    have hstep : stepLrcp .compChk s = .goto .prec s1 := by
      simp only [stepLrcp, hchk, hi.comps, hcp, hres, hq, htp, if_true, if_false, hs1, Bool.false_eq_true]
    have hi1 : Inv s0 s1 := by rw [hs1]; exact hi
    obtain ⟨s2, v2, i2, l2, r2, c2, p2⟩ := prec_loop stepLrcp
      (fun s h => by simp only [stepLrcp, h, if_true]) (fun s => rfl) s0 l r s.compno (npOf s0.comps s.compno r) hn
      (fun k hk => hin _ (List.mem_map.mpr ⟨k, List.mem_range.mpr hk, rfl⟩)) s1 hi1
      (by rw [hs1]; exact hl) (by rw [hs1]; exact hr) (by rw [hs1])
      (by rw [hs1, hnp]; exact Nat.mod_eq_of_lt (by rw [← hnp]; exact hn))
      (by rw [hs1]; show s.poc.precno0 = 0; rw [hi.precno0]; exact hz.prec0)
    refine ⟨{ s2 with compno := inc32 s2.compno }, ?_, i2, l2, r2, by simp only [c2]; exact hinc⟩
    refine Visits.goto hstep (by rw [hs1]) ?_
    have : visLRC s0.comps l r s.compno = visLRC s0.comps l r s.compno ++ [] := by simp
    rw [this]
    refine Visits.trans v2 (Visits.goto (l1 := .compInc) (s1 := s2) ?_ rfl
      (Visits.goto rfl rfl (Visits.refl _ _ _ _)))
    simp only [stepLrcp]
    rw [if_neg (by omega)]

def visLR (b : It) (l r : Nat) : List Pkt :=
  (upto b.poc.compno0 b.poc.compno1).flatMap fun c => visLRC b.comps l r c

theorem inside_flatMap {s0 : It} {xs : List Nat} {V : Nat → List Pkt} (h : Inside s0 (xs.flatMap V))
    {x : Nat} (hx : x ∈ xs) : Inside s0 (V x) := fun p hp => h p (List.mem_flatMap.mpr ⟨x, hx, hp⟩)

theorem lrcp_res (s0 : It) (hz : Sized s0) (l : Nat) (s : It) (hi : Inv s0 s) (hl : s.layno = l)
    (hlt : s.resno < s0.poc.resno1) (hin : Inside s0 (visLR s0 l s.resno)) :
    ∃ s', Visits stepLrcp s0.idx .res s (visLR s0 l s.resno) .res s' ∧
      Inv s0 s' ∧ s'.layno = l ∧ s'.resno = s.resno + 1 := by
  have := loop_upto stepLrcp s0.idx .compChk
    (fun t => Inv s0 t ∧ t.layno = l ∧ t.resno = s.resno ∧ s0.poc.compno0 ≤ t.compno)
    It.compno (fun c => visLRC s0.comps l s.resno c) s0.poc.compno1 ?_
    { s with compno := s.poc.compno0 } ⟨hi, hl, rfl, by rw [← hi.compno0]⟩
  · obtain ⟨s', v, ⟨a1, a2, a3, _⟩, a4⟩ := this
    refine ⟨{ s' with resno := inc32 s'.resno }, ?_, a1, a2, ?_⟩
    · refine Visits.goto (l1 := .compChk) (s1 := { s with compno := s.poc.compno0 }) ?_ rfl ?_
      · simp only [stepLrcp, hi.resno1, hlt, if_true]
      · refine Visits.thenGoto (s1 := s') (l1 := .compChk) ?_ ?_ rfl
        · show Visits stepLrcp s0.idx .compChk _ (visLR s0 l s.resno) .compChk s'
          unfold visLR
          simp only [hi.compno0] at v ⊢
          exact v
        · simp only [stepLrcp]
          rw [if_neg (by rw [a1.compno1]; omega)]
    · simp only [a3]
      exact inc32_of _ _ hlt hz.res
  · rintro t ⟨a1, a2, a3, a4⟩ ht
    obtain ⟨t', v, b1, b2, b3, b4⟩ := lrcp_comp s0 hz l s.resno t a1 a2 a3 ht
      (inside_flatMap hin ((mem_upto _ _ _).mpr ⟨a4, ht⟩))
    exact ⟨t', v, ⟨b1, b2, b3, by omega⟩, b4⟩

def visL (b : It) (l : Nat) : List Pkt := (upto b.poc.resno0 b.poc.resno1).flatMap fun r => visLR b l r

theorem lrcp_lay (s0 : It) (hz : Sized s0) (s : It) (hi : Inv s0 s)
    (hlt : s.layno < s0.poc.layno1) (hin : Inside s0 (visL s0 s.layno)) :
    ∃ s', Visits stepLrcp s0.idx .lay s (visL s0 s.layno) .lay s' ∧
      Inv s0 s' ∧ s'.layno = s.layno + 1 := by
  have := loop_upto stepLrcp s0.idx .res
    (fun t => Inv s0 t ∧ t.layno = s.layno ∧ s0.poc.resno0 ≤ t.resno)
    It.resno (fun c => visLR s0 s.layno c) s0.poc.resno1 ?_
    { s with resno := s.poc.resno0 } ⟨hi, rfl, by rw [← hi.resno0]⟩
  · obtain ⟨s', v, ⟨a1, a2, _⟩, a4⟩ := this
    refine ⟨{ s' with layno := inc32 s'.layno }, ?_, a1, ?_⟩
    · refine Visits.goto (l1 := .res) (s1 := { s with resno := s.poc.resno0 }) ?_ rfl ?_
      · simp only [stepLrcp, hi.layno1]
        rw [if_neg (by omega)]
      · refine Visits.thenGoto (s1 := s') (l1 := .res) ?_ ?_ rfl
        · show Visits stepLrcp s0.idx .res _ (visL s0 s.layno) .res s'
          unfold visL
          simp only [hi.resno0] at v ⊢
          exact v
        · simp only [stepLrcp]
          rw [if_neg (by rw [a1.resno1]; omega)]
    · simp only [a2]
      exact inc32_of _ _ hlt hz.lay
  · rintro t ⟨a1, a2, a4⟩ ht
    obtain ⟨t', v, b1, b2, b4⟩ := lrcp_res s0 hz s.layno t a1 a2 ht
      (inside_flatMap hin ((mem_upto _ _ _).mpr ⟨a4, ht⟩))
    exact ⟨t', v, ⟨b1, b2, by omega⟩, b4⟩

/-- The packets LRCP goes through. -/
def visLrcp (b : It) : List Pkt := (upto b.poc.layno0 b.poc.layno1).flatMap fun l => visL b l

theorem lrcp_all (s0 : It) (hz : Sized s0) (hin : Inside s0 (visLrcp s0)) (s : It) (hi : Inv s0 s)
    (hl : s.layno = s0.poc.layno0) :
    ∃ s', Visits stepLrcp s0.idx .lay s (visLrcp s0) .lay s' ∧ stepLrcp .lay s' = .ret false s' := by
  have := loop_upto stepLrcp s0.idx .lay (fun t => Inv s0 t ∧ s0.poc.layno0 ≤ t.layno)
    It.layno (fun l => visL s0 l) s0.poc.layno1 ?_ s ⟨hi, by omega⟩
  · obtain ⟨s', v, ⟨a1, _⟩, a4⟩ := this
    refine ⟨s', ?_, ?_⟩
    · rw [hl] at v; exact v
    · simp only [stepLrcp]
      rw [if_pos (by rw [a1.layno1]; exact a4)]
  · rintro t ⟨a1, a4⟩ ht
    obtain ⟨t', v, b1, b4⟩ := lrcp_lay s0 hz t a1 ht (inside_flatMap hin ((mem_upto _ _ _).mpr ⟨a4, ht⟩))
    exact ⟨t', v, ⟨b1, by omega⟩, b4⟩

/-! ## RLCP -/

theorem rlcp_comp (s0 : It) (hz : Sized s0) (l r : Nat) (s : It) (hi : Inv s0 s) (hl : s.layno = l)
    (hr : s.resno = r) (hlt : s.compno < s0.poc.compno1) (hin : Inside s0 (visLRC s0.comps l r s.compno)) :
    ∃ s', Visits stepRlcp s0.idx .compChk s (visLRC s0.comps l r s.compno) .compChk s' ∧
      Inv s0 s' ∧ s'.layno = l ∧ s'.resno = r ∧ s'.compno = s.compno + 1 := by
  have hlen := hz.comp
  have hnc := hz.ncomp
  have hinc : inc32 s.compno = s.compno + 1 := inc32_of _ _ hlt (by omega)
  have hcl : s.compno < s0.comps.length := by omega
  obtain ⟨cp, hcp⟩ : ∃ cp, s0.comps[s.compno]? = some cp := ⟨_, List.getElem?_eq_getElem hcl⟩
  have hchk : s.compno < s.poc.compno1 := by rw [hi.compno1]; exact hlt
  by_cases hres : cp.res.length ≤ s.resno
  · have hV : visLRC s0.comps l r s.compno = [] := by
      unfold visLRC npOf
      rw [hcp, ← hr]
      simp only [List.getElem?_eq_none hres]
      rfl
    rw [hV]
    refine ⟨{ s with compno := inc32 s.compno }, ?_, hi, hl, hr, hinc⟩
    refine Visits.goto (l1 := .compInc) (s1 := s) ?_ rfl (Visits.goto rfl rfl (Visits.refl _ _ _ _))
    simp only [stepRlcp, hchk, hi.comps, hcp, hres, if_true]
  · obtain ⟨q, hq⟩ : ∃ q, cp.res[s.resno]? = some q := ⟨_, List.getElem?_eq_getElem (by omega)⟩
    have hnp : npOf s0.comps s.compno r = q.pw * q.ph := by
      unfold npOf; rw [hcp, ← hr]; simp only [hq]
    have hn := hz.np s.compno r
    have htp : s.tpOn = false := by rw [hi.tpOn]; exact hz.tp
    obtain ⟨s1, hs1⟩ : ∃ s1 : It, s1 = { s with
      poc := { s.poc with precno1 := q.pw * q.ph % 2 ^ 32 }, precno := s.poc.precno0 } := ⟨_, rfl⟩
    have hstep : stepRlcp .compChk s = .goto .prec s1 := by
      simp only [stepRlcp, hchk, hi.comps, hcp, hres, hq, htp, if_true, if_false, hs1, Bool.false_eq_true]
    have hi1 : Inv s0 s1 := by rw [hs1]; exact hi
    obtain ⟨s2, v2, i2, l2, r2, c2, p2⟩ := prec_loop stepRlcp
      (fun s h => by simp only [stepRlcp, h, if_true]) (fun s => rfl) s0 l r s.compno (npOf s0.comps s.compno r) hn
      (fun k hk => hin _ (List.mem_map.mpr ⟨k, List.mem_range.mpr hk, rfl⟩)) s1 hi1
      (by rw [hs1]; exact hl) (by rw [hs1]; exact hr) (by rw [hs1])
      (by rw [hs1, hnp]; exact Nat.mod_eq_of_lt (by rw [← hnp]; exact hn))
      (by rw [hs1]; show s.poc.precno0 = 0; rw [hi.precno0]; exact hz.prec0)
    refine ⟨{ s2 with compno := inc32 s2.compno }, ?_, i2, l2, r2, by simp only [c2]; exact hinc⟩
    refine Visits.goto hstep (by rw [hs1]) ?_
    have : visLRC s0.comps l r s.compno = visLRC s0.comps l r s.compno ++ [] := by simp
    rw [this]
    refine Visits.trans v2 (Visits.goto (l1 := .compInc) (s1 := s2) ?_ rfl
      (Visits.goto rfl rfl (Visits.refl _ _ _ _)))
    simp only [stepRlcp]
    rw [if_neg (by omega)]

theorem rlcp_lay (s0 : It) (hz : Sized s0) (r : Nat) (s : It) (hi : Inv s0 s) (hr : s.resno = r)
    (hlt : s.layno < s0.poc.layno1) (hin : Inside s0 (visLR s0 s.layno r)) :
    ∃ s', Visits stepRlcp s0.idx .lay s (visLR s0 s.layno r) .lay s' ∧
      Inv s0 s' ∧ s'.resno = r ∧ s'.layno = s.layno + 1 := by
  have := loop_upto stepRlcp s0.idx .compChk
    (fun t => Inv s0 t ∧ t.resno = r ∧ t.layno = s.layno ∧ s0.poc.compno0 ≤ t.compno)
    It.compno (fun c => visLRC s0.comps s.layno r c) s0.poc.compno1 ?_
    { s with compno := s.poc.compno0 } ⟨hi, hr, rfl, by rw [← hi.compno0]⟩
  · obtain ⟨s', v, ⟨a1, a2, a3, _⟩, a4⟩ := this
    refine ⟨{ s' with layno := inc32 s'.layno }, ?_, a1, a2, ?_⟩
    · refine Visits.goto (l1 := .compChk) (s1 := { s with compno := s.poc.compno0 }) ?_ rfl ?_
      · simp only [stepRlcp, hi.layno1, hlt, if_true]
      · refine Visits.thenGoto (s1 := s') (l1 := .compChk) ?_ ?_ rfl
        · show Visits stepRlcp s0.idx .compChk _ (visLR s0 s.layno r) .compChk s'
          unfold visLR
          simp only [hi.compno0] at v ⊢
          exact v
        · simp only [stepRlcp]
          rw [if_neg (by rw [a1.compno1]; omega)]
    · simp only [a3]
      exact inc32_of _ _ hlt hz.lay
  · rintro t ⟨a1, a2, a3, a4⟩ ht
    obtain ⟨t', v, b1, b2, b3, b4⟩ := rlcp_comp s0 hz s.layno r t a1 a3 a2 ht
      (inside_flatMap hin ((mem_upto _ _ _).mpr ⟨a4, ht⟩))
    exact ⟨t', v, ⟨b1, b3, b2, by omega⟩, b4⟩

def visR (b : It) (r : Nat) : List Pkt := (upto b.poc.layno0 b.poc.layno1).flatMap fun l => visLR b l r

theorem rlcp_res (s0 : It) (hz : Sized s0) (s : It) (hi : Inv s0 s)
    (hlt : s.resno < s0.poc.resno1) (hin : Inside s0 (visR s0 s.resno)) :
    ∃ s', Visits stepRlcp s0.idx .res s (visR s0 s.resno) .res s' ∧
      Inv s0 s' ∧ s'.resno = s.resno + 1 := by
  have := loop_upto stepRlcp s0.idx .lay
    (fun t => Inv s0 t ∧ t.resno = s.resno ∧ s0.poc.layno0 ≤ t.layno)
    It.layno (fun c => visLR s0 c s.resno) s0.poc.layno1 ?_
    { s with layno := s.poc.layno0 } ⟨hi, rfl, by rw [← hi.layno0]⟩
  · obtain ⟨s', v, ⟨a1, a2, _⟩, a4⟩ := this
    refine ⟨{ s' with resno := inc32 s'.resno }, ?_, a1, ?_⟩
    · refine Visits.goto (l1 := .lay) (s1 := { s with layno := s.poc.layno0 }) ?_ rfl ?_
      · simp only [stepRlcp, hi.resno1]
        rw [if_neg (by omega)]
      · refine Visits.thenGoto (s1 := s') (l1 := .lay) ?_ ?_ rfl
        · show Visits stepRlcp s0.idx .lay _ (visR s0 s.resno) .lay s'
          unfold visR
          simp only [hi.layno0] at v ⊢
          exact v
        · simp only [stepRlcp]
          rw [if_neg (by rw [a1.layno1]; omega)]
    · simp only [a2]
      exact inc32_of _ _ hlt hz.res
  · rintro t ⟨a1, a2, a4⟩ ht
    obtain ⟨t', v, b1, b2, b4⟩ := rlcp_lay s0 hz s.resno t a1 a2 ht
      (inside_flatMap hin ((mem_upto _ _ _).mpr ⟨a4, ht⟩))
    exact ⟨t', v, ⟨b1, b2, by omega⟩, b4⟩

/-- The packets RLCP goes through. -/
def visRlcp (b : It) : List Pkt := (upto b.poc.resno0 b.poc.resno1).flatMap fun r => visR b r

theorem rlcp_all (s0 : It) (hz : Sized s0) (hin : Inside s0 (visRlcp s0)) (s : It) (hi : Inv s0 s)
    (hl : s.resno = s0.poc.resno0) :
    ∃ s', Visits stepRlcp s0.idx .res s (visRlcp s0) .res s' ∧ stepRlcp .res s' = .ret false s' := by
  have := loop_upto stepRlcp s0.idx .res (fun t => Inv s0 t ∧ s0.poc.resno0 ≤ t.resno)
    It.resno (fun l => visR s0 l) s0.poc.resno1 ?_ s ⟨hi, by omega⟩
  · obtain ⟨s', v, ⟨a1, _⟩, a4⟩ := this
    refine ⟨s', ?_, ?_⟩
    · rw [hl] at v; exact v
    · simp only [stepRlcp]
      rw [if_pos (by rw [a1.resno1]; exact a4)]
  · rintro t ⟨a1, a4⟩ ht
    obtain ⟨t', v, b1, b4⟩ := rlcp_res s0 hz t a1 ht (inside_flatMap hin ((mem_upto _ _ _).mpr ⟨a4, ht⟩))
    exact ⟨t', v, ⟨b1, by omega⟩, b4⟩

end Jp2.Pi

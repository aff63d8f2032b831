import Verif.Jp2.PiLoops
/-!
# The visit lists of the position-driven iterators
-/
namespace Jp2.Pi
open Spec (upto)

/-- The reference-grid positions a loop `v = t0; v < t1; v += d - v % d` goes through. -/
def positions (t0 t1 d : Nat) : List Nat := (upto t0 t1).filter fun v => v = t0 || v % d = 0

theorem filter_upto_skip (f : Nat → Bool) (t1 : Nat) : ∀ n a b, b - a = n → a ≤ b →
    (∀ x, a ≤ x → x < b → f x = false) → (upto a t1).filter f = (upto b t1).filter f := by
  intro n
  induction n with
  | zero => intro a b h h' _; rw [show a = b by omega]
  | succ n ih =>
    intro a b h h' hf
    by_cases ht : a < t1
    · rw [upto_cons a t1 ht, List.filter_cons, hf a (by omega) (by omega)]
      exact ih (a + 1) b (by omega) (by omega) (fun x h1 h2 => hf x (by omega) h2)
    · rw [upto_nil _ _ (by omega), upto_nil _ _ (by omega)]

theorem advance_eq (v d : Nat) (hd : 0 < d) (hv : v < 2 ^ 31) (hd' : d < 2 ^ 32) :
    advance v d = some ((v / d + 1) * d) := by
  unfold advance
  rw [if_neg (by omega)]
  have h1 := Nat.div_add_mod v d
  have h2 := Nat.mod_lt v hd
  have h3 : (v / d + 1) * d = d * (v / d) + d := by ring
  have h4 : v + (d - v % d) = (v / d + 1) * d := by omega
  rw [h4, Nat.mod_eq_of_lt]
  by_cases hb : d ≤ 2 ^ 31
  · omega
  · have : v / d = 0 := Nat.div_eq_of_lt (by omega)
    rw [this]; omega

theorem next_gap (v d x : Nat) (hd : 0 < d) (h1 : v < x) (h2 : x < (v / d + 1) * d) : x % d ≠ 0 := by
  intro h
  obtain ⟨k, rfl⟩ := Nat.dvd_of_mod_eq_zero h
  have h3 : k < v / d + 1 := by
    rw [Nat.mul_comm] at h2
    exact Nat.lt_of_mul_lt_mul_right h2
  have h4 : d * k ≤ d * (v / d) := Nat.mul_le_mul_left d (by omega)
  have h5 := Nat.mul_div_le v d
  omega

/-- A loop over reference-grid positions whose head is label `h`. -/
theorem loop_pos (step : Label → It → Out) (idx : Pkt → Nat) (h : Label) (P : It → Prop)
    (get : It → Nat) (V : Nat → List Pkt) (t0 t1 d : Nat) (hd : 0 < d)
    (body : ∀ s, P s → t0 ≤ get s → get s < t1 →
      ∃ s', Visits step idx h s (V (get s)) h s' ∧ P s' ∧ get s' = (get s / d + 1) * d) :
    ∀ s, P s → get s = t0 →
      ∃ s', Visits step idx h s ((positions t0 t1 d).flatMap V) h s' ∧ P s' ∧ t1 ≤ get s' := by
  have key : ∀ n s, t1 - get s ≤ n → P s → t0 ≤ get s → (get s = t0 ∨ get s % d = 0) →
      ∃ s', Visits step idx h s
        (((upto (get s) t1).filter fun v => v = t0 || v % d = 0).flatMap V) h s' ∧ P s' ∧ t1 ≤ get s' := by
    intro n
    induction n with
    | zero =>
      intro s hn hp _ _
      rw [upto_nil _ _ (by omega)]
      exact ⟨s, Visits.refl _ _ _ _, hp, by omega⟩
    | succ n ih =>
      intro s hn hp h0 hg
      by_cases hlt : get s < t1
      · obtain ⟨s1, v1, p1, g1⟩ := body s hp h0 hlt
        have hgt : get s < (get s / d + 1) * d := by
          have := Nat.lt_div_mul_add hd (a := get s)
          have e : (get s / d + 1) * d = get s / d * d + d := by ring
          omega
        obtain ⟨s2, v2, p2, g2⟩ := ih s1 (by omega) p1 (by omega)
          (Or.inr (by rw [g1]; exact Nat.mul_mod_left _ _))
        refine ⟨s2, ?_, p2, g2⟩
        rw [upto_cons _ _ hlt, List.filter_cons]
        have hgood : (decide (get s = t0) || decide (get s % d = 0)) = true := by
          rcases hg with h | h <;> simp [h]
        rw [if_pos hgood, List.flatMap_cons]
        rw [filter_upto_skip _ t1 _ (get s + 1) ((get s / d + 1) * d) rfl (by omega), ← g1]
        · exact v1.trans v2
        · intro x h1 h2
          have := next_gap (get s) d x hd (by omega) h2
          have h3 : ¬ x = t0 := by omega
          simp [this, h3]
      · rw [upto_nil _ _ (by omega)]
        exact ⟨s, Visits.refl _ _ _ _, hp, by omega⟩
  intro s hp h0
  have := key _ s (Nat.le_refl _) hp (by omega) (Or.inl h0)
  rw [h0] at this
  exact this

/-- What the position-driven loops need. -/
structure PosSized (s0 : It) : Prop where
  lay : s0.poc.layno1 < 2 ^ 32
  res : s0.poc.resno1 < 2 ^ 32
  comp : s0.poc.compno1 ≤ s0.comps.length
  ncomp : s0.comps.length < 2 ^ 32
  x1 : s0.poc.tx1 ≤ 2 ^ 31
  y1 : s0.poc.ty1 ≤ 2 ^ 31
  dx : 0 < s0.dx ∧ s0.dx < 2 ^ 32
  dy : 0 < s0.dy ∧ s0.dy < 2 ^ 32

/-- The layers of a precinct. -/
def visLayers (b : It) (r c k : Nat) : List Pkt := (upto b.poc.layno0 b.poc.layno1).map fun l => ⟨l, r, c, k⟩

theorem lay_loop (step : Label → It → Out)
    (h1 : ∀ s : It, s.layno < s.poc.layno1 → step .lay s = claim s)
    (h2 : ∀ s : It, step .skip s = .goto .lay { s with layno := inc32 s.layno })
    (s0 : It) (hz : PosSized s0) (r c k x y : Nat) (hin : Inside s0 (visLayers s0 r c k))
    (s : It) (hi : Inv s0 s) (hr : s.resno = r) (hc : s.compno = c) (hk : s.precno = k) (hx : s.x = x)
    (hy : s.y = y) (h0 : s.layno = s0.poc.layno0) :
    ∃ s', Visits step s0.idx .lay s (visLayers s0 r c k) .lay s' ∧
      Inv s0 s' ∧ s'.resno = r ∧ s'.compno = c ∧ s'.x = x ∧ s'.y = y ∧ ¬ s'.layno < s'.poc.layno1 := by
  have := loop_upto step s0.idx .lay
    (fun s => Inv s0 s ∧ s.resno = r ∧ s.compno = c ∧ s.precno = k ∧ s.x = x ∧ s.y = y ∧ s0.poc.layno0 ≤ s.layno)
    It.layno (fun l => [⟨l, r, c, k⟩]) s0.poc.layno1 ?_ s ⟨hi, hr, hc, hk, hx, hy, by omega⟩
  · obtain ⟨s', v, ⟨a1, a2, a3, a4, a5, a6, _⟩, a7⟩ := this
    refine ⟨s', ?_, a1, a2, a3, a5, a6, by rw [a1.layno1]; omega⟩
    rw [h0] at v
    unfold visLayers
    rw [List.map_eq_flatMap]
    exact v
  · rintro s ⟨a1, a2, a3, a4, a5, a6, a7⟩ hlt
    refine ⟨{ claimed s with layno := inc32 (claimed s).layno }, ?_, ⟨?_, ?_, ?_, ?_, ?_, ?_, ?_⟩, ?_⟩
    · have hpk : s.pkt = ⟨s.layno, r, c, k⟩ := by unfold It.pkt; rw [a2, a3, a4]
      rw [← hpk, ← a1.idx]
      refine Visits.claim (h1 s (by rw [a1.layno1]; exact hlt)) ?_
        (Visits.goto (h2 _) rfl (Visits.refl _ _ _ _))
      rw [← idx_pkt, a1.idx, a1.incSize, hpk]
      exact hin _ (List.mem_map.mpr ⟨s.layno, (mem_upto _ _ _).mpr ⟨a7, hlt⟩, rfl⟩)
    · unfold Inv
      rw [← a1, ← claimed_core s]; rfl
    · simpa using a2
    · simpa using a3
    · simpa using a4
    · simpa using a5
    · simpa using a6
    · simp only [claimed_layno]
      rw [inc32_of _ _ hlt hz.lay]; omega
    · simp only [claimed_layno]
      exact inc32_of _ _ hlt hz.lay

/-- The machine's answer for component `c`, resolution `r` at position `(x, y)` is `A c r x y`. -/
def Answers (m : Mode) (g1 g2 : Mode → Nat → Nat → Option Bool) (s0 : It)
    (A : Nat → Nat → Nat → Nat → Option Nat) : Prop :=
  ∀ s, Inv s0 s → s0.poc.tx0 ≤ s.x → s.x < s0.poc.tx1 → s0.poc.ty0 ≤ s.y → s.y < s0.poc.ty1 →
    ∀ cp q, s0.comps[s.compno]? = some cp → cp.res[s.resno]? = some q →
      precinct m g1 g2 s cp q = some (A s.compno s.resno s.x s.y)

/-- `A` has no answer where there is no resolution. -/
def Silent (s0 : It) (A : Nat → Nat → Nat → Nat → Option Nat) : Prop :=
  ∀ c r x y cp, s0.comps[c]? = some cp → cp.res.length ≤ r → A c r x y = none

variable (A : Nat → Nat → Nat → Nat → Option Nat)

/-- The packets belonging to one component, resolution and position. -/
def visAt (b : It) (c r x y : Nat) : List Pkt := (A c r x y).toList.flatMap fun k => visLayers b r c k

theorem inside_visAt {s0 : It} {c r x y k : Nat} (h : Inside s0 (visAt A s0 c r x y))
    (hk : A c r x y = some k) : Inside s0 (visLayers s0 r c k) := by
  unfold visAt at h
  rw [hk] at h
  simpa using h

/-! ## RPCL -/

theorem rpcl_comp (m : Mode) (s0 : It) (hz : PosSized s0) (ha : Answers m guard64 guard64 s0 A)
    (hs : Silent s0 A) (r x y : Nat) (s : It) (hi : Inv s0 s) (hr : s.resno = r) (hx : s.x = x) (hy : s.y = y)
    (hx0 : s0.poc.tx0 ≤ x ∧ x < s0.poc.tx1) (hy0 : s0.poc.ty0 ≤ y ∧ y < s0.poc.ty1)
    (hlt : s.compno < s0.poc.compno1) (hin : Inside s0 (visAt A s0 s.compno r x y)) :
    ∃ s', Visits (stepRpcl m) s0.idx .compChk s (visAt A s0 s.compno r x y) .compChk s' ∧
      Inv s0 s' ∧ s'.resno = r ∧ s'.x = x ∧ s'.y = y ∧ s'.compno = s.compno + 1 := by
  have hlen := hz.comp
  have hnc := hz.ncomp
  have hinc : inc32 s.compno = s.compno + 1 := inc32_of _ _ hlt (by omega)
  obtain ⟨cp, hcp⟩ : ∃ cp, s0.comps[s.compno]? = some cp := ⟨_, List.getElem?_eq_getElem (by omega)⟩
  have hchk : s.compno < s.poc.compno1 := by rw [hi.compno1]; exact hlt
  have skip : A s.compno r x y = none → stepRpcl m .compChk s = .goto .compInc s →
      ∃ s', Visits (stepRpcl m) s0.idx .compChk s (visAt A s0 s.compno r x y) .compChk s' ∧
      Inv s0 s' ∧ s'.resno = r ∧ s'.x = x ∧ s'.y = y ∧ s'.compno = s.compno + 1 := by
    intro hn hst
    have hV : visAt A s0 s.compno r x y = [] := by unfold visAt; rw [hn]; rfl
    rw [hV]
    exact ⟨{ s with compno := inc32 s.compno },
      Visits.goto (l1 := .compInc) (s1 := s) hst rfl (Visits.goto rfl rfl (Visits.refl _ _ _ _)),
      hi, hr, hx, hy, hinc⟩
  by_cases hres : cp.res.length ≤ s.resno
  · apply skip (hs _ _ _ _ _ hcp (by omega))
    simp only [stepRpcl, hchk, hi.comps, hcp, hres, if_true]
  · obtain ⟨q, hq⟩ : ∃ q, cp.res[s.resno]? = some q := ⟨_, List.getElem?_eq_getElem (by omega)⟩
    have hpr := ha s hi (by omega) (by omega) (by omega) (by omega) cp q hcp hq
    rw [hr, hx, hy] at hpr
    cases hA : A s.compno r x y with
    | none =>
      apply skip hA
      simp only [stepRpcl, hchk, hi.comps, hcp, hres, hq, hpr, hA, if_true, if_false]
    | some k =>
      have hst : stepRpcl m .compChk s = .goto .lay { s with precno := k, layno := s.poc.layno0 } := by
        simp only [stepRpcl, hchk, hi.comps, hcp, hres, hq, hpr, hA, if_true, if_false]
      obtain ⟨s2, v2, i2, r2, c2, x2, y2, e2⟩ := lay_loop (stepRpcl m)
        (fun s h => by simp only [stepRpcl, h, if_true]) (fun s => rfl) s0 hz r s.compno k x y
        (inside_visAt A hin hA) { s with precno := k, layno := s.poc.layno0 } hi hr rfl rfl hx hy hi.layno0
      have hV : visAt A s0 s.compno r x y = visLayers s0 r s.compno k := by
        unfold visAt; rw [hA]; simp
      rw [hV]
      refine ⟨{ s2 with compno := inc32 s2.compno }, ?_, i2, r2, x2, y2, by simp only [c2]; exact hinc⟩
      refine Visits.goto hst rfl ?_
      refine Visits.thenGoto (l1 := .compInc) (s1 := s2) (Visits.thenGoto v2 ?_ rfl) rfl rfl
      simp only [stepRpcl, e2, if_false]

def visRXY (b : It) (r x y : Nat) : List Pkt :=
  (upto b.poc.compno0 b.poc.compno1).flatMap fun c => visAt A b c r x y

def visRY (b : It) (r y : Nat) : List Pkt :=
  (positions b.poc.tx0 b.poc.tx1 b.dx).flatMap fun x => visRXY A b r x y

def visPR (b : It) (r : Nat) : List Pkt :=
  (positions b.poc.ty0 b.poc.ty1 b.dy).flatMap fun y => visRY A b r y

/-- The packets RPCL goes through. -/
def visRpcl (b : It) : List Pkt := (upto b.poc.resno0 b.poc.resno1).flatMap fun r => visPR A b r

theorem mem_positions {t0 t1 d v : Nat} (h0 : t0 ≤ v) (h1 : v < t1) (h : v = t0 ∨ v % d = 0) :
    v ∈ positions t0 t1 d := by
  unfold positions
  rw [List.mem_filter, mem_upto]
  refine ⟨⟨h0, h1⟩, ?_⟩
  rcases h with h | h <;> simp [h]

theorem rpcl_x (m : Mode) (s0 : It) (hz : PosSized s0) (ha : Answers m guard64 guard64 s0 A)
    (hs : Silent s0 A) (r y : Nat) (s : It) (hi : Inv s0 s) (hr : s.resno = r) (hy : s.y = y)
    (hx0 : s0.poc.tx0 ≤ s.x) (hy0 : s0.poc.ty0 ≤ y ∧ y < s0.poc.ty1)
    (hlt : s.x < s0.poc.tx1) (hin : Inside s0 (visRXY A s0 r s.x y)) :
    ∃ s', Visits (stepRpcl m) s0.idx .x s (visRXY A s0 r s.x y) .x s' ∧
      Inv s0 s' ∧ s'.resno = r ∧ s'.y = y ∧ s'.x = (s.x / s0.dx + 1) * s0.dx := by
  have hx1 := hz.x1
  have := loop_upto (stepRpcl m) s0.idx .compChk
    (fun t => Inv s0 t ∧ t.resno = r ∧ t.x = s.x ∧ t.y = y ∧ s0.poc.compno0 ≤ t.compno)
    It.compno (fun c => visAt A s0 c r s.x y) s0.poc.compno1 ?_
    { s with compno := s.poc.compno0 } ⟨hi, hr, rfl, hy, by rw [← hi.compno0]⟩
  · obtain ⟨s', v, ⟨a1, a2, a3, a4, _⟩, a5⟩ := this
    refine ⟨{ s' with x := (s.x / s0.dx + 1) * s0.dx }, ?_, a1, a2, a4, rfl⟩
    refine Visits.goto (l1 := .compChk) (s1 := { s with compno := s.poc.compno0 }) ?_ rfl ?_
    · simp only [stepRpcl, hi.ptx1, hlt, if_true]
    · refine Visits.thenGoto (s1 := s') (l1 := .compChk) ?_ ?_ rfl
      · unfold visRXY
        simp only [hi.compno0] at v ⊢
        exact v
      · simp only [stepRpcl]
        rw [if_neg (by rw [a1.compno1]; omega), a1.dx, a3,
          advance_eq _ _ hz.dx.1 (by omega) hz.dx.2]
  · rintro t ⟨a1, a2, a3, a4, a5⟩ ht
    obtain ⟨t', v, b1, b2, b3, b4, b5⟩ := rpcl_comp A m s0 hz ha hs r s.x y t a1 a2 a3 a4 ⟨hx0, hlt⟩ hy0 ht
      (inside_flatMap hin ((mem_upto _ _ _).mpr ⟨a5, ht⟩))
    exact ⟨t', v, ⟨b1, b2, b3, b4, by omega⟩, b5⟩

/-- Values a position loop takes. -/
def Good (t0 d v : Nat) : Prop := v = t0 ∨ v % d = 0

theorem good_next (t0 d v : Nat) : Good t0 d ((v / d + 1) * d) := Or.inr (Nat.mul_mod_left _ _)

theorem rpcl_y (m : Mode) (s0 : It) (hz : PosSized s0) (ha : Answers m guard64 guard64 s0 A)
    (hs : Silent s0 A) (r : Nat) (s : It) (hi : Inv s0 s) (hr : s.resno = r)
    (hy0 : s0.poc.ty0 ≤ s.y) (hlt : s.y < s0.poc.ty1) (hin : Inside s0 (visRY A s0 r s.y)) :
    ∃ s', Visits (stepRpcl m) s0.idx .y s (visRY A s0 r s.y) .y s' ∧
      Inv s0 s' ∧ s'.resno = r ∧ s'.y = (s.y / s0.dy + 1) * s0.dy := by
  have hy1 := hz.y1
  have := loop_pos (stepRpcl m) s0.idx .x
    (fun t => Inv s0 t ∧ t.resno = r ∧ t.y = s.y ∧ Good s0.poc.tx0 s0.dx t.x)
    It.x (fun x => visRXY A s0 r x s.y) s0.poc.tx0 s0.poc.tx1 s0.dx hz.dx.1 ?_
    { s with x := s.poc.tx0 } ⟨hi, hr, rfl, Or.inl hi.ptx0⟩ hi.ptx0
  · obtain ⟨s', v, ⟨a1, a2, a3, _⟩, a5⟩ := this
    refine ⟨{ s' with y := (s.y / s0.dy + 1) * s0.dy }, ?_, a1, a2, rfl⟩
    refine Visits.goto (l1 := .x) (s1 := { s with x := s.poc.tx0 }) ?_ rfl ?_
    · simp only [stepRpcl, hi.pty1, hlt, if_true]
    · refine Visits.thenGoto (s1 := s') (l1 := .x) v ?_ rfl
      simp only [stepRpcl]
      rw [if_neg (by rw [a1.ptx1]; omega), a1.dy, a3, advance_eq _ _ hz.dy.1 (by omega) hz.dy.2]
  · rintro t ⟨a1, a2, a3, a4⟩ ht0 ht
    obtain ⟨t', v, b1, b2, b3, b4⟩ := rpcl_x A m s0 hz ha hs r s.y t a1 a2 a3 ht0 ⟨hy0, hlt⟩ ht
      (inside_flatMap hin (mem_positions ht0 ht a4))
    exact ⟨t', v, ⟨b1, b2, b3, by rw [b4]; exact good_next _ _ _⟩, b4⟩

theorem rpcl_res (m : Mode) (s0 : It) (hz : PosSized s0) (ha : Answers m guard64 guard64 s0 A)
    (hs : Silent s0 A) (s : It) (hi : Inv s0 s) (hlt : s.resno < s0.poc.resno1)
    (hin : Inside s0 (visPR A s0 s.resno)) :
    ∃ s', Visits (stepRpcl m) s0.idx .res s (visPR A s0 s.resno) .res s' ∧
      Inv s0 s' ∧ s'.resno = s.resno + 1 := by
  have := loop_pos (stepRpcl m) s0.idx .y
    (fun t => Inv s0 t ∧ t.resno = s.resno ∧ Good s0.poc.ty0 s0.dy t.y)
    It.y (fun y => visRY A s0 s.resno y) s0.poc.ty0 s0.poc.ty1 s0.dy hz.dy.1 ?_
    { s with y := s.poc.ty0 } ⟨hi, rfl, Or.inl hi.pty0⟩ hi.pty0
  · obtain ⟨s', v, ⟨a1, a2, _⟩, a5⟩ := this
    refine ⟨{ s' with resno := inc32 s'.resno }, ?_, a1, by
      simp only [a2]; exact inc32_of _ _ hlt hz.res⟩
    refine Visits.goto (l1 := .y) (s1 := { s with y := s.poc.ty0 }) ?_ rfl ?_
    · simp only [stepRpcl]
      rw [if_neg (by rw [hi.resno1]; omega)]
    · refine Visits.thenGoto (s1 := s') (l1 := .y) v ?_ rfl
      simp only [stepRpcl]
      rw [if_neg (by rw [a1.pty1]; omega)]
  · rintro t ⟨a1, a2, a4⟩ ht0 ht
    obtain ⟨t', v, b1, b2, b4⟩ := rpcl_y A m s0 hz ha hs s.resno t a1 a2 ht0 ht
      (inside_flatMap hin (mem_positions ht0 ht a4))
    exact ⟨t', v, ⟨b1, b2, by rw [b4]; exact good_next _ _ _⟩, b4⟩

theorem rpcl_all (m : Mode) (s0 : It) (hz : PosSized s0) (ha : Answers m guard64 guard64 s0 A)
    (hs : Silent s0 A) (hin : Inside s0 (visRpcl A s0)) (s : It) (hi : Inv s0 s)
    (hl : s.resno = s0.poc.resno0) :
    ∃ s', Visits (stepRpcl m) s0.idx .res s (visRpcl A s0) .res s' ∧ stepRpcl m .res s' = .ret false s' := by
  have := loop_upto (stepRpcl m) s0.idx .res (fun t => Inv s0 t ∧ s0.poc.resno0 ≤ t.resno)
    It.resno (fun r => visPR A s0 r) s0.poc.resno1 ?_ s ⟨hi, by omega⟩
  · obtain ⟨s', v, ⟨a1, _⟩, a4⟩ := this
    refine ⟨s', ?_, ?_⟩
    · rw [hl] at v; exact v
    · simp only [stepRpcl]
      rw [if_pos (by rw [a1.resno1]; exact a4)]
  · rintro t ⟨a1, a4⟩ ht
    obtain ⟨t', v, b1, b4⟩ := rpcl_res A m s0 hz ha hs t a1 ht
      (inside_flatMap hin ((mem_upto _ _ _).mpr ⟨a4, ht⟩))
    exact ⟨t', v, ⟨b1, by omega⟩, b4⟩

/-! ## PCRL and CPRL: the resolution loop -/

theorem uintMin_lt (a b c : Nat) : a < Math.uintMin b c ↔ a < b ∧ a < c := by
  unfold Math.uintMin; split <;> omega

/-- Resolutions `resno0 ≤ r < resno1` of component `c` at a position. -/
def visCXY (b : It) (c x y : Nat) : List Pkt :=
  (upto b.poc.resno0 b.poc.resno1).flatMap fun r => visAt A b c r x y

/-- Resolutions beyond those of the component have no packet. -/
theorem visCXY_clip (s0 : It) (hs : Silent s0 A) (c x y : Nat) (cp : Comp) (hcp : s0.comps[c]? = some cp) :
    visCXY A s0 c x y =
      (upto s0.poc.resno0 (Math.uintMin s0.poc.resno1 cp.res.length)).flatMap fun r => visAt A s0 c r x y := by
  unfold visCXY
  generalize s0.poc.resno0 = a
  generalize s0.poc.resno1 = b
  have key : ∀ n a, b - a = n → ((upto a b).flatMap fun r => visAt A s0 c r x y) =
      (upto a (Math.uintMin b cp.res.length)).flatMap fun r => visAt A s0 c r x y := by
    intro n
    induction n with
    | zero =>
      intro a h
      have : Math.uintMin b cp.res.length ≤ a := by unfold Math.uintMin; split <;> omega
      rw [upto_nil _ _ (by omega), upto_nil _ _ this]
    | succ n ih =>
      intro a h
      rw [upto_cons a b (by omega), List.flatMap_cons]
      by_cases hl : a < cp.res.length
      · rw [upto_cons a (Math.uintMin b cp.res.length) ((uintMin_lt _ _ _).mpr ⟨by omega, hl⟩),
          List.flatMap_cons, ih (a + 1) (by omega)]
      · have h1 : visAt A s0 c a x y = [] := by
          unfold visAt; rw [hs _ _ _ _ _ hcp (by omega)]; rfl
        have h2 : Math.uintMin b cp.res.length ≤ a := by unfold Math.uintMin; split <;> omega
        rw [h1, ih (a + 1) (by omega), upto_nil _ _ h2, upto_nil _ _ (by omega)]
        rfl
  exact key _ a rfl

/-- One turn of the resolution loop of PCRL/CPRL, for a machine with these transitions. -/
theorem res_turn (m : Mode) (step : Label → It → Out)
    (h1 : ∀ s : It, s.layno < s.poc.layno1 → step .lay s = claim s)
    (h2 : ∀ s : It, step .skip s = .goto .lay { s with layno := inc32 s.layno })
    (h3 : ∀ s : It, ¬ s.layno < s.poc.layno1 → step .lay s = .goto .resInc s)
    (h4 : ∀ s : It, step .resInc s = .goto .resChk { s with resno := inc32 s.resno })
    (h5 : ∀ (s : It) cp q, s.comps[s.compno]? = some cp → s.resno < Math.uintMin s.poc.resno1 cp.res.length →
      cp.res[s.resno]? = some q → step .resChk s =
        match precinct m guard32 guard32w s cp q with
        | none => .fault
        | some none => .goto .resInc s
        | some (some p) => .goto .lay { s with precno := p, layno := s.poc.layno0 })
    (s0 : It) (hz : PosSized s0) (ha : Answers m guard32 guard32w s0 A)
    (c x y : Nat) (cp : Comp) (hcp : s0.comps[c]? = some cp) (s : It) (hi : Inv s0 s) (hc : s.compno = c)
    (hx : s.x = x) (hy : s.y = y) (hx0 : s0.poc.tx0 ≤ x ∧ x < s0.poc.tx1)
    (hy0 : s0.poc.ty0 ≤ y ∧ y < s0.poc.ty1) (hlt : s.resno < Math.uintMin s0.poc.resno1 cp.res.length)
    (hin : Inside s0 (visAt A s0 c s.resno x y)) :
    ∃ s', Visits step s0.idx .resChk s (visAt A s0 c s.resno x y) .resChk s' ∧
      Inv s0 s' ∧ s'.compno = c ∧ s'.x = x ∧ s'.y = y ∧ s'.resno = s.resno + 1 := by
  have hlt' := (uintMin_lt _ _ _).mp hlt
  have hres := hz.res
  have hinc : inc32 s.resno = s.resno + 1 := inc32_of _ _ hlt'.1 hres
  have hcp' : s.comps[s.compno]? = some cp := by rw [hi.comps, hc]; exact hcp
  obtain ⟨q, hq⟩ : ∃ q, cp.res[s.resno]? = some q := ⟨_, List.getElem?_eq_getElem hlt'.2⟩
  have hst := h5 s cp q hcp' (by rw [hi.resno1]; exact hlt) hq
  have hpr := ha s hi (by omega) (by omega) (by omega) (by omega) cp q (by rw [hc]; exact hcp) hq
  rw [hc, hx, hy] at hpr
  rw [hpr] at hst
  cases hA : A c s.resno x y with
  | none =>
    rw [hA] at hst
    simp only at hst
    have hV : visAt A s0 c s.resno x y = [] := by unfold visAt; rw [hA]; rfl
    rw [hV]
    exact ⟨{ s with resno := inc32 s.resno },
      Visits.goto hst rfl (Visits.goto (h4 _) rfl (Visits.refl _ _ _ _)), hi, hc, hx, hy, hinc⟩
  | some k =>
    rw [hA] at hst
    simp only at hst
    obtain ⟨s2, v2, i2, r2, c2, x2, y2, e2⟩ := lay_loop step h1 h2 s0 hz s.resno c k x y
      (inside_visAt A hin hA) { s with precno := k, layno := s.poc.layno0 } hi rfl hc rfl hx hy hi.layno0
    have hV : visAt A s0 c s.resno x y = visLayers s0 s.resno c k := by
      unfold visAt; rw [hA]; simp
    rw [hV]
    refine ⟨{ s2 with resno := inc32 s2.resno }, ?_, i2, c2, x2, y2, by simp only [r2]; exact hinc⟩
    refine Visits.goto hst rfl ?_
    exact Visits.thenGoto (Visits.thenGoto v2 (h3 _ e2) rfl) (h4 _) rfl

/-- The whole resolution loop of PCRL/CPRL. -/
theorem res_loop (m : Mode) (step : Label → It → Out)
    (h1 : ∀ s : It, s.layno < s.poc.layno1 → step .lay s = claim s)
    (h2 : ∀ s : It, step .skip s = .goto .lay { s with layno := inc32 s.layno })
    (h3 : ∀ s : It, ¬ s.layno < s.poc.layno1 → step .lay s = .goto .resInc s)
    (h4 : ∀ s : It, step .resInc s = .goto .resChk { s with resno := inc32 s.resno })
    (h5 : ∀ (s : It) cp q, s.comps[s.compno]? = some cp → s.resno < Math.uintMin s.poc.resno1 cp.res.length →
      cp.res[s.resno]? = some q → step .resChk s =
        match precinct m guard32 guard32w s cp q with
        | none => .fault
        | some none => .goto .resInc s
        | some (some p) => .goto .lay { s with precno := p, layno := s.poc.layno0 })
    (s0 : It) (hz : PosSized s0) (ha : Answers m guard32 guard32w s0 A) (hs : Silent s0 A)
    (c x y : Nat) (cp : Comp) (hcp : s0.comps[c]? = some cp) (s : It) (hi : Inv s0 s) (hc : s.compno = c)
    (hx : s.x = x) (hy : s.y = y) (hx0 : s0.poc.tx0 ≤ x ∧ x < s0.poc.tx1)
    (hy0 : s0.poc.ty0 ≤ y ∧ y < s0.poc.ty1) (hr : s.resno = s0.poc.resno0)
    (hin : Inside s0 (visCXY A s0 c x y)) :
    ∃ s', Visits step s0.idx .resChk s (visCXY A s0 c x y) .resChk s' ∧
      Inv s0 s' ∧ s'.compno = c ∧ s'.x = x ∧ s'.y = y ∧
        ¬ s'.resno < Math.uintMin s'.poc.resno1 cp.res.length := by
  rw [visCXY_clip A s0 hs c x y cp hcp] at hin ⊢
  have := loop_upto step s0.idx .resChk
    (fun t => Inv s0 t ∧ t.compno = c ∧ t.x = x ∧ t.y = y ∧ s0.poc.resno0 ≤ t.resno)
    It.resno (fun r => visAt A s0 c r x y) (Math.uintMin s0.poc.resno1 cp.res.length) ?_ s
    ⟨hi, hc, hx, hy, by omega⟩
  · obtain ⟨s', v, ⟨a1, a2, a3, a4, _⟩, a5⟩ := this
    rw [hr] at v
    exact ⟨s', v, a1, a2, a3, a4, by rw [a1.resno1]; omega⟩
  · rintro t ⟨a1, a2, a3, a4, a5⟩ ht
    obtain ⟨t', v, b1, b2, b3, b4, b5⟩ := res_turn A m step h1 h2 h3 h4 h5 s0 hz ha c x y cp hcp t a1 a2 a3 a4
      hx0 hy0 ht (inside_flatMap hin ((mem_upto _ _ _).mpr ⟨a5, ht⟩))
    exact ⟨t', v, ⟨b1, b2, b3, b4, by omega⟩, b5⟩

/-! ## PCRL -/

theorem pcrl_comp (m : Mode) (s0 : It) (hz : PosSized s0) (ha : Answers m guard32 guard32w s0 A)
    (hs : Silent s0 A) (x y : Nat) (s : It) (hi : Inv s0 s) (hx : s.x = x) (hy : s.y = y)
    (hx0 : s0.poc.tx0 ≤ x ∧ x < s0.poc.tx1) (hy0 : s0.poc.ty0 ≤ y ∧ y < s0.poc.ty1)
    (hlt : s.compno < s0.poc.compno1) (hin : Inside s0 (visCXY A s0 s.compno x y)) :
    ∃ s', Visits (stepPcrl m) s0.idx .comp s (visCXY A s0 s.compno x y) .comp s' ∧
      Inv s0 s' ∧ s'.x = x ∧ s'.y = y ∧ s'.compno = s.compno + 1 := by
  have hlen := hz.comp
  have hnc := hz.ncomp
  have hinc : inc32 s.compno = s.compno + 1 := inc32_of _ _ hlt (by omega)
  obtain ⟨cp, hcp⟩ : ∃ cp, s0.comps[s.compno]? = some cp := ⟨_, List.getElem?_eq_getElem (by omega)⟩
  obtain ⟨s', v, a1, a2, a3, a4, a5⟩ := res_loop A m (stepPcrl m)
    (fun s h => by simp only [stepPcrl, h, if_true]) (fun s => rfl)
    (fun s h => by simp only [stepPcrl, h, if_false]) (fun s => rfl)
    (fun s cp q e1 e2 e3 => by
      simp only [stepPcrl, e1, e2, e3, if_true]
      rcases precinct m guard32 guard32w s cp q with _ | _ | _ <;> rfl) s0 hz ha hs s.compno x y cp hcp
    { s with resno := s.poc.resno0 } hi rfl hx hy hx0 hy0 hi.resno0 hin
  refine ⟨{ s' with compno := inc32 s'.compno }, ?_, a1, a3, a4, by simp only [a2]; exact hinc⟩
  refine Visits.goto (l1 := .resChk) (s1 := { s with resno := s.poc.resno0 }) ?_ rfl
    (Visits.thenGoto v ?_ rfl)
  · simp only [stepPcrl, hi.compno1, hlt, if_true]
  · simp only [stepPcrl, a1.comps, a2, hcp, a5, if_false]

def visXY (b : It) (x y : Nat) : List Pkt :=
  (upto b.poc.compno0 b.poc.compno1).flatMap fun c => visCXY A b c x y

def visY (b : It) (y : Nat) : List Pkt :=
  (positions b.poc.tx0 b.poc.tx1 b.dx).flatMap fun x => visXY A b x y

/-- The packets PCRL goes through. -/
def visPcrl (b : It) : List Pkt := (positions b.poc.ty0 b.poc.ty1 b.dy).flatMap fun y => visY A b y

theorem pcrl_x (m : Mode) (s0 : It) (hz : PosSized s0) (ha : Answers m guard32 guard32w s0 A)
    (hs : Silent s0 A) (y : Nat) (s : It) (hi : Inv s0 s) (hy : s.y = y)
    (hx0 : s0.poc.tx0 ≤ s.x) (hy0 : s0.poc.ty0 ≤ y ∧ y < s0.poc.ty1)
    (hlt : s.x < s0.poc.tx1) (hin : Inside s0 (visXY A s0 s.x y)) :
    ∃ s', Visits (stepPcrl m) s0.idx .x s (visXY A s0 s.x y) .x s' ∧
      Inv s0 s' ∧ s'.y = y ∧ s'.x = (s.x / s0.dx + 1) * s0.dx := by
  have hx1 := hz.x1
  have := loop_upto (stepPcrl m) s0.idx .comp
    (fun t => Inv s0 t ∧ t.x = s.x ∧ t.y = y ∧ s0.poc.compno0 ≤ t.compno)
    It.compno (fun c => visCXY A s0 c s.x y) s0.poc.compno1 ?_
    { s with compno := s.poc.compno0 } ⟨hi, rfl, hy, by rw [← hi.compno0]⟩
  · obtain ⟨s', v, ⟨a1, a3, a4, _⟩, a5⟩ := this
    refine ⟨{ s' with x := (s.x / s0.dx + 1) * s0.dx }, ?_, a1, a4, rfl⟩
    refine Visits.goto (l1 := .comp) (s1 := { s with compno := s.poc.compno0 }) ?_ rfl ?_
    · simp only [stepPcrl, hi.ptx1, hlt, if_true]
    · refine Visits.thenGoto (s1 := s') (l1 := .comp) ?_ ?_ rfl
      · unfold visXY
        simp only [hi.compno0] at v ⊢
        exact v
      · simp only [stepPcrl]
        rw [if_neg (by rw [a1.compno1]; omega), a1.dx, a3,
          advance_eq _ _ hz.dx.1 (by omega) hz.dx.2]
  · rintro t ⟨a1, a3, a4, a5⟩ ht
    obtain ⟨t', v, b1, b3, b4, b5⟩ := pcrl_comp A m s0 hz ha hs s.x y t a1 a3 a4 ⟨hx0, hlt⟩ hy0 ht
      (inside_flatMap hin ((mem_upto _ _ _).mpr ⟨a5, ht⟩))
    exact ⟨t', v, ⟨b1, b3, b4, by omega⟩, b5⟩

theorem pcrl_y (m : Mode) (s0 : It) (hz : PosSized s0) (ha : Answers m guard32 guard32w s0 A)
    (hs : Silent s0 A) (s : It) (hi : Inv s0 s)
    (hy0 : s0.poc.ty0 ≤ s.y) (hlt : s.y < s0.poc.ty1) (hin : Inside s0 (visY A s0 s.y)) :
    ∃ s', Visits (stepPcrl m) s0.idx .y s (visY A s0 s.y) .y s' ∧
      Inv s0 s' ∧ s'.y = (s.y / s0.dy + 1) * s0.dy := by
  have hy1 := hz.y1
  have := loop_pos (stepPcrl m) s0.idx .x
    (fun t => Inv s0 t ∧ t.y = s.y ∧ Good s0.poc.tx0 s0.dx t.x)
    It.x (fun x => visXY A s0 x s.y) s0.poc.tx0 s0.poc.tx1 s0.dx hz.dx.1 ?_
    { s with x := s.poc.tx0 } ⟨hi, rfl, Or.inl hi.ptx0⟩ hi.ptx0
  · obtain ⟨s', v, ⟨a1, a3, _⟩, a5⟩ := this
    refine ⟨{ s' with y := (s.y / s0.dy + 1) * s0.dy }, ?_, a1, rfl⟩
    refine Visits.goto (l1 := .x) (s1 := { s with x := s.poc.tx0 }) ?_ rfl ?_
    · simp only [stepPcrl]
      rw [if_neg (by rw [hi.pty1]; omega)]
    · refine Visits.thenGoto (s1 := s') (l1 := .x) v ?_ rfl
      simp only [stepPcrl]
      rw [if_neg (by rw [a1.ptx1]; omega), a1.dy, a3, advance_eq _ _ hz.dy.1 (by omega) hz.dy.2]
  · rintro t ⟨a1, a3, a4⟩ ht0 ht
    obtain ⟨t', v, b1, b3, b4⟩ := pcrl_x A m s0 hz ha hs s.y t a1 a3 ht0 ⟨hy0, hlt⟩ ht
      (inside_flatMap hin (mem_positions ht0 ht a4))
    exact ⟨t', v, ⟨b1, b3, by rw [b4]; exact good_next _ _ _⟩, b4⟩

theorem pcrl_all (m : Mode) (s0 : It) (hz : PosSized s0) (ha : Answers m guard32 guard32w s0 A)
    (hs : Silent s0 A) (hin : Inside s0 (visPcrl A s0)) (s : It) (hi : Inv s0 s)
    (hl : s.y = s0.poc.ty0) :
    ∃ s', Visits (stepPcrl m) s0.idx .y s (visPcrl A s0) .y s' ∧ stepPcrl m .y s' = .ret false s' := by
  have := loop_pos (stepPcrl m) s0.idx .y (fun t => Inv s0 t ∧ Good s0.poc.ty0 s0.dy t.y)
    It.y (fun y => visY A s0 y) s0.poc.ty0 s0.poc.ty1 s0.dy hz.dy.1 ?_ s ⟨hi, Or.inl hl⟩ hl
  · obtain ⟨s', v, ⟨a1, _⟩, a4⟩ := this
    refine ⟨s', v, ?_⟩
    simp only [stepPcrl]
    rw [if_pos (by rw [a1.pty1]; exact a4)]
  · rintro t ⟨a1, a4⟩ ht0 ht
    obtain ⟨t', v, b1, b4⟩ := pcrl_y A m s0 hz ha hs t a1 ht0 ht (inside_flatMap hin (mem_positions ht0 ht a4))
    exact ⟨t', v, ⟨b1, by rw [b4]; exact good_next _ _ _⟩, b4⟩

/-! ## CPRL -/

theorem cprl_x (m : Mode) (s0 : It) (hz : PosSized s0) (ha : Answers m guard32 guard32w s0 A)
    (hs : Silent s0 A) (c y : Nat) (cp : Comp) (hcp : s0.comps[c]? = some cp) (s : It) (hi : Inv s0 s)
    (hc : s.compno = c) (hy : s.y = y) (hx0 : s0.poc.tx0 ≤ s.x) (hy0 : s0.poc.ty0 ≤ y ∧ y < s0.poc.ty1)
    (hlt : s.x < s0.poc.tx1) (hin : Inside s0 (visCXY A s0 c s.x y)) :
    ∃ s', Visits (stepCprl m) s0.idx .x s (visCXY A s0 c s.x y) .x s' ∧
      Inv s0 s' ∧ s'.compno = c ∧ s'.y = y ∧ s'.x = (s.x / s0.dx + 1) * s0.dx := by
  have hx1 := hz.x1
  obtain ⟨s', v, a1, a2, a3, a4, a5⟩ := res_loop A m (stepCprl m)
    (fun s h => by simp only [stepCprl, h, if_true]) (fun s => rfl)
    (fun s h => by simp only [stepCprl, h, if_false]) (fun s => rfl)
    (fun s cp q e1 e2 e3 => by
      simp only [stepCprl, e1, e2, e3, if_true]
      rcases precinct m guard32 guard32w s cp q with _ | _ | _ <;> rfl) s0 hz ha hs c s.x y cp hcp
    { s with resno := s.poc.resno0 } hi hc rfl hy ⟨hx0, hlt⟩ hy0 hi.resno0 hin
  refine ⟨{ s' with x := (s.x / s0.dx + 1) * s0.dx }, ?_, a1, a2, a4, rfl⟩
  refine Visits.goto (l1 := .resChk) (s1 := { s with resno := s.poc.resno0 }) ?_ rfl
    (Visits.thenGoto v ?_ rfl)
  · simp only [stepCprl, hi.ptx1, hlt, if_true]
  · simp only [stepCprl, a1.comps, a2, hcp, a5, if_false]
    rw [a1.dx, a3, advance_eq _ _ hz.dx.1 (by omega) hz.dx.2]

def visCY (b : It) (c y : Nat) : List Pkt :=
  (positions b.poc.tx0 b.poc.tx1 b.dx).flatMap fun x => visCXY A b c x y

def visC (b : It) (c : Nat) : List Pkt :=
  (positions b.poc.ty0 b.poc.ty1 b.dy).flatMap fun y => visCY A b c y

theorem cprl_y (m : Mode) (s0 : It) (hz : PosSized s0) (ha : Answers m guard32 guard32w s0 A)
    (hs : Silent s0 A) (c : Nat) (cp : Comp) (hcp : s0.comps[c]? = some cp) (s : It) (hi : Inv s0 s)
    (hc : s.compno = c) (hy0 : s0.poc.ty0 ≤ s.y) (hlt : s.y < s0.poc.ty1)
    (hin : Inside s0 (visCY A s0 c s.y)) :
    ∃ s', Visits (stepCprl m) s0.idx .y s (visCY A s0 c s.y) .y s' ∧
      Inv s0 s' ∧ s'.compno = c ∧ s'.y = (s.y / s0.dy + 1) * s0.dy := by
  have hy1 := hz.y1
  have := loop_pos (stepCprl m) s0.idx .x
    (fun t => Inv s0 t ∧ t.compno = c ∧ t.y = s.y ∧ Good s0.poc.tx0 s0.dx t.x)
    It.x (fun x => visCXY A s0 c x s.y) s0.poc.tx0 s0.poc.tx1 s0.dx hz.dx.1 ?_
    { s with x := s.poc.tx0 } ⟨hi, hc, rfl, Or.inl hi.ptx0⟩ hi.ptx0
  · obtain ⟨s', v, ⟨a1, a2, a3, _⟩, a5⟩ := this
    refine ⟨{ s' with y := (s.y / s0.dy + 1) * s0.dy }, ?_, a1, a2, rfl⟩
    refine Visits.goto (l1 := .x) (s1 := { s with x := s.poc.tx0 }) ?_ rfl ?_
    · simp only [stepCprl, hi.pty1, hlt, if_true]
    · refine Visits.thenGoto (s1 := s') (l1 := .x) v ?_ rfl
      simp only [stepCprl]
      rw [if_neg (by rw [a1.ptx1]; omega), a1.dy, a3, advance_eq _ _ hz.dy.1 (by omega) hz.dy.2]
  · rintro t ⟨a1, a2, a3, a4⟩ ht0 ht
    obtain ⟨t', v, b1, b2, b3, b4⟩ := cprl_x A m s0 hz ha hs c s.y cp hcp t a1 a2 a3 ht0 ⟨hy0, hlt⟩ ht
      (inside_flatMap hin (mem_positions ht0 ht a4))
    exact ⟨t', v, ⟨b1, b2, b3, by rw [b4]; exact good_next _ _ _⟩, b4⟩

/-- The iterator after the step computation for component `c` (`pi.rs:934-1022`). -/
def forComp (s : It) (c : Comp) : It :=
  let d := foldRes c c.res.length 0 c.res (0, 0)
  setArea { s with dx := d.1, dy := d.2 }

/-- The part of an iterator even the component loop of CPRL does not change. -/
def core2 (s : It) : It :=
  { core s with dx := 0, dy := 0, poc := { (core s).poc with tx0 := 0, ty0 := 0, tx1 := 0, ty1 := 0 } }

theorem core2_of_inv {s0 s : It} (h : Inv s0 s) : core2 s = core2 s0 := by
  unfold core2; rw [h]

theorem core2_forComp (s : It) (c : Comp) : core2 (forComp s c) = core2 s := by
  unfold forComp setArea
  simp only
  split <;> rfl

theorem core_forComp {s s0 : It} (c : Comp) (ht : s0.tpOn = false) (h : core2 s = core2 s0) :
    core (forComp s c) = core (forComp s0 c) := by
  have h1 : s.tpOn = false := (congrArg (fun t => t.tpOn) h).trans ht
  unfold forComp setArea
  simp only [h1, ht]
  unfold core2 core at h
  unfold core
  simp only [Bool.false_eq_true, if_false, It.mk.injEq, Poc.mk.injEq] at h ⊢
  simp_all

theorem cprl_comp (m : Mode) (s0 : It) (ht : s0.tpOn = false) (s : It) (hk : core2 s = core2 s0)
    (hlt : s.compno < s0.poc.compno1) (cp : Comp) (hcp : s0.comps[s.compno]? = some cp)
    (hz : PosSized (forComp s0 cp)) (ha : Answers m guard32 guard32w (forComp s0 cp) A)
    (hs : Silent (forComp s0 cp) A) (hin : Inside (forComp s0 cp) (visC A (forComp s0 cp) s.compno)) :
    ∃ s', Visits (stepCprl m) s0.idx .comp s (visC A (forComp s0 cp) s.compno) .comp s' ∧
      core2 s' = core2 s0 ∧ s'.compno = s.compno + 1 := by
  have e1 : s.comps = s0.comps := congrArg (fun t => t.comps) hk
  have e2 : s.poc.compno1 = s0.poc.compno1 := congrArg (fun t => t.poc.compno1) hk
  have f1 : (forComp s0 cp).comps = s0.comps := congrArg (fun t => t.comps) (core2_forComp s0 cp)
  have f2 : (forComp s0 cp).poc.compno1 = s0.poc.compno1 :=
    congrArg (fun t => t.poc.compno1) (core2_forComp s0 cp)
  have f3 : (forComp s0 cp).idx = s0.idx := by
    funext p
    unfold It.idx
    have h := core2_forComp s0 cp
    rw [show (forComp s0 cp).stepL = s0.stepL from congrArg (fun t => t.stepL) h,
      show (forComp s0 cp).stepR = s0.stepR from congrArg (fun t => t.stepR) h,
      show (forComp s0 cp).stepC = s0.stepC from congrArg (fun t => t.stepC) h,
      show (forComp s0 cp).stepP = s0.stepP from congrArg (fun t => t.stepP) h]
  have hc := core_forComp cp ht hk
  have hlen := hz.comp
  have hnc := hz.ncomp
  rw [f1, f2] at hlen
  rw [f1] at hnc
  have hinc : inc32 s.compno = s.compno + 1 := inc32_of _ _ hlt (by omega)
  have g1 : (forComp s cp).compno = s.compno := by unfold forComp setArea; simp only; split <;> rfl
  have g2 : (forComp s cp).inc = s.inc := by unfold forComp setArea; simp only; split <;> rfl
  have d1 : (forComp s cp).dx = (forComp s0 cp).dx := Inv.dx hc
  have d2 : (forComp s cp).dy = (forComp s0 cp).dy := Inv.dy hc
  have d3 : (forComp s0 cp).dx = (foldRes cp cp.res.length 0 cp.res (0, 0)).1 := by
    unfold forComp setArea; simp only; split <;> rfl
  have d4 : (forComp s0 cp).dy = (foldRes cp cp.res.length 0 cp.res (0, 0)).2 := by
    unfold forComp setArea; simp only; split <;> rfl
  have hst : stepCprl m .comp s = .goto .y { forComp s cp with y := (forComp s cp).poc.ty0 } := by
    have h1 := hz.dx.1
    have h2 := hz.dy.1
    rw [d3] at h1
    rw [d4] at h2
    simp only [stepCprl]
    rw [if_neg (by omega), show s.comps[s.compno]? = some cp by rw [e1]; exact hcp]
    simp only
    rw [if_neg (by omega)]
    rfl
  have := loop_pos (stepCprl m) (forComp s0 cp).idx .y
    (fun t => Inv (forComp s0 cp) t ∧ t.compno = s.compno ∧ Good (forComp s0 cp).poc.ty0 (forComp s0 cp).dy t.y)
    It.y (fun y => visCY A (forComp s0 cp) s.compno y) (forComp s0 cp).poc.ty0 (forComp s0 cp).poc.ty1
    (forComp s0 cp).dy hz.dy.1 ?_
    { forComp s cp with y := (forComp s cp).poc.ty0 } ⟨hc, g1, Or.inl (Inv.pty0 hc)⟩ (Inv.pty0 hc)
  · obtain ⟨s', v, ⟨a1, a2, _⟩, a4⟩ := this
    rw [f3] at v
    refine ⟨{ s' with compno := inc32 s'.compno }, ?_, ?_, by simp only [a2]; exact hinc⟩
    · refine Visits.goto hst g2 (Visits.thenGoto v ?_ rfl)
      simp only [stepCprl]
      rw [if_neg (by rw [a1.pty1]; omega)]
    · exact (core2_of_inv a1).trans (core2_forComp s0 cp)
  · rintro t ⟨a1, a2, a4⟩ ht0 ht1
    obtain ⟨t', v, b1, b2, b4⟩ := cprl_y A m (forComp s0 cp) hz ha hs s.compno cp (by rw [f1]; exact hcp) t a1 a2
      ht0 ht1 (inside_flatMap hin (mem_positions ht0 ht1 a4))
    exact ⟨t', v, ⟨b1, b2, by rw [b4]; exact good_next _ _ _⟩, b4⟩

/-- The packets CPRL goes through. -/
def visCprl (b : It) : List Pkt :=
  (upto b.poc.compno0 b.poc.compno1).flatMap fun c =>
    match b.comps[c]? with
    | none => []
    | some cp => visC A (forComp b cp) c

theorem cprl_all (m : Mode) (s0 : It) (ht : s0.tpOn = false) (hcs : s0.poc.compno1 ≤ s0.comps.length)
    (hz : ∀ (c : Nat) cp, s0.comps[c]? = some cp → c < s0.poc.compno1 → PosSized (forComp s0 cp))
    (ha : ∀ (c : Nat) cp, s0.comps[c]? = some cp → Answers m guard32 guard32w (forComp s0 cp) A)
    (hs : ∀ (c : Nat) cp, s0.comps[c]? = some cp → Silent (forComp s0 cp) A)
    (hin : Inside s0 (visCprl A s0)) (s : It) (hi : core2 s = core2 s0)
    (hl : s.compno = s0.poc.compno0) :
    ∃ s', Visits (stepCprl m) s0.idx .comp s (visCprl A s0) .comp s' ∧ stepCprl m .comp s' = .ret false s' := by
  have := loop_upto (stepCprl m) s0.idx .comp (fun t => core2 t = core2 s0 ∧ s0.poc.compno0 ≤ t.compno)
    It.compno (fun c => match s0.comps[c]? with
      | none => []
      | some cp => visC A (forComp s0 cp) c) s0.poc.compno1 ?_ s ⟨hi, by omega⟩
  · obtain ⟨s', v, ⟨a1, _⟩, a4⟩ := this
    refine ⟨s', ?_, ?_⟩
    · rw [hl] at v; exact v
    · simp only [stepCprl]
      have : s'.poc.compno1 = s0.poc.compno1 := congrArg (fun t => t.poc.compno1) a1
      rw [if_pos (by rw [this]; exact a4)]
  · rintro t ⟨a1, a4⟩ ht1
    obtain ⟨cp, hcp⟩ : ∃ cp, s0.comps[t.compno]? = some cp := ⟨_, List.getElem?_eq_getElem (by omega)⟩
    have hin' := inside_flatMap hin ((mem_upto _ _ _).mpr ⟨a4, ht1⟩)
    simp only [hcp] at hin' ⊢
    have hin2 : Inside (forComp s0 cp) (visC A (forComp s0 cp) t.compno) := by
      intro p hp
      have h := core2_forComp s0 cp
      have := hin' p hp
      unfold It.idx at this ⊢
      rw [show (forComp s0 cp).stepL = s0.stepL from congrArg (fun t => t.stepL) h,
        show (forComp s0 cp).stepR = s0.stepR from congrArg (fun t => t.stepR) h,
        show (forComp s0 cp).stepC = s0.stepC from congrArg (fun t => t.stepC) h,
        show (forComp s0 cp).stepP = s0.stepP from congrArg (fun t => t.stepP) h,
        show (forComp s0 cp).incSize = s0.incSize from congrArg (fun t => t.incSize) h]
      exact this
    obtain ⟨t', v, b1, b4⟩ := cprl_comp A m s0 ht t a1 ht1 cp hcp (hz _ _ hcp ht1) (ha _ _ hcp) (hs _ _ hcp) hin2
    exact ⟨t', v, ⟨b1, by omega⟩, b4⟩

end Jp2.Pi

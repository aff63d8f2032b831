import Verif.Jp2.T2Safe
/-!
# Helpers for C47: packet bodies and whole packets from any bytes
-/
namespace Jp2.T2
open Jp2.Bio Jp2.Tgt

theorem dataSeg_ge {c : DecCblk} {i : Nat} (h : dataSeg c = some (i, i + 1)) : c.numsegs ≤ i + 1 := by
  unfold dataSeg at h
  split at h
  · omega
  · cases hs : c.segs[c.numsegs - 1]? with
    | none => rw [hs] at h; cases h
    | some sg =>
      rw [hs, Option.map_some] at h
      split at h <;> simp only [Option.some.injEq, Prod.mk.injEq] at h <;> omega

/-- A block whose new passes go to segment `i` next. -/
structure Filling (lvl sty B i : Nat) (c : DecCblk) : Prop where
  num : c.numsegs = i + 1
  waits : Waits sty c.segs i c.numnewpasses
  le : c.numnewpasses ≤ 164
  few : i + c.numnewpasses ≤ B
  real : c.realNumSegs ≤ i + 1
  bits : 3 ≤ c.numlenbits ∧ c.numlenbits ≤ 32
  fine : ∀ j sg, j < i → c.segs[j]? = some sg → Fine sty j sg
  enough : 1 ≤ lvl → claim c.segs (i + 1) ≤ held c
  aligned : lvl = 1 → sty &&& 0x40 = 0 → Aligned sty ((c.segs.take c.realNumSegs).map fun s => s.realNumPasses)
  synced : 2 ≤ lvl → sty &&& 0x40 = 0 → ∀ j sg, j < i → c.segs[j]? = some sg → AllIn sg ∧ sg.numpasses = sg.maxpasses

/-- A block whose new passes have been dealt with. -/
structure Done (lvl sty B : Nat) (c : DecCblk) : Prop where
  range : c.numsegs ≤ c.segs.length
  few : c.numsegs ≤ B
  real : c.realNumSegs ≤ c.numsegs
  bits : 0 < c.numsegs → 3 ≤ c.numlenbits ∧ c.numlenbits ≤ 32
  fine : ∀ i sg, i < c.numsegs → c.segs[i]? = some sg → Fine sty i sg
  enough : 1 ≤ lvl → claim c.segs c.numsegs ≤ held c
  aligned : lvl = 1 → sty &&& 0x40 = 0 → Aligned sty ((c.segs.take c.realNumSegs).map fun s => s.realNumPasses)
  synced : 2 ≤ lvl → sty &&& 0x40 = 0 → ∀ i sg, i < c.numsegs → c.segs[i]? = some sg → AllIn sg ∧ (i + 1 < c.numsegs → sg.numpasses = sg.maxpasses)

/-- Skipping leaves the block as it is. -/
theorem Done.skipped {lvl sty B : Nat} {c : DecCblk} (h : Done lvl sty B c) (hl : lvl ≤ 1) : Ready lvl sty B c :=
  ⟨h.range, h.few, h.real, h.bits, h.fine, h.enough, fun h1 => h.aligned (by omega), fun h2 => by omega⟩

/-- Reading makes every segment count. -/
theorem Done.taken {lvl sty B : Nat} {c : DecCblk} (h : Done lvl sty B c) (hl : lvl ≠ 1) : Ready lvl sty B { c with realNumSegs := c.numsegs } := by
  refine ⟨h.range, h.few, Nat.le_refl _, h.bits, h.fine, h.enough, fun h1 h40 i p hp => ?_, fun h2 h40 => ⟨rfl, h.synced h2 h40⟩⟩
  have hp' : ((c.segs.take c.numsegs).map fun s => s.realNumPasses)[i]? = some p := hp
  rw [List.getElem?_map] at hp'
  obtain ⟨sg, g1, g2⟩ := Option.map_eq_some_iff.mp hp'
  rw [List.getElem?_take] at g1
  split at g1
  · rename_i hi
    obtain ⟨e1, e2⟩ := h.synced (by omega) h40 i sg hi g1
    have e3 := h.fine i sg hi g1
    have e4 := e3.cap h40
    have e5 := e3.is
    unfold AllIn at e1
    have hl := h.range
    have : ((c.segs.take c.numsegs).map fun s => s.realNumPasses).length = c.numsegs := by
      rw [List.length_map, List.length_take]; omega
    refine ⟨by omega, fun hlt => ?_⟩
    have hlt' : i + 1 < ((c.segs.take c.numsegs).map fun s => s.realNumPasses).length := hlt
    have := e2 (by omega)
    omega
  · cases g1

theorem Ready.down {lvl lvl' sty B : Nat} {c : DecCblk} (h : Ready lvl sty B c) (hl : lvl' ≤ lvl) : Ready lvl' sty B c :=
  ⟨h.range, h.few, h.real, h.bits, h.fine, fun h1 => h.enough (by omega), fun h1 => h.aligned (by omega), fun h2 => h.synced (by omega)⟩

theorem Pending.filling {lvl sty B : Nat} {c : DecCblk} (h : Pending lvl sty B c) (h0 : c.numnewpasses ≠ 0) :
    ∃ i, dataSeg c = some (i, i + 1) ∧ Filling lvl sty (B + 164) i { c with numsegs := i + 1 } := by
  obtain ⟨h1, h2, h3, i, h4, h5, h6, h7, h8, h9⟩ := h.new h0
  have := dataSeg_ge h4
  have hf := h.ready.few
  have hr := h.ready.real
  exact ⟨i, h4, rfl, h6, h1, by show i + c.numnewpasses ≤ B + 164; omega, by show c.realNumSegs ≤ i + 1; omega, ⟨h2, h3⟩, h7, h8,
    fun h1 => h.ready.aligned (by omega), h9⟩

theorem Ready.more {lvl sty B B' : Nat} {c : DecCblk} (h : Ready lvl sty B c) (hB : B ≤ B') : Ready lvl sty B' c :=
  ⟨h.range, by have := h.few; omega, h.real, h.bits, h.fine, h.enough, h.aligned, h.synced⟩

theorem Filling.done {lvl sty B i : Nat} {c : DecCblk} (h : Filling lvl sty B i c) (hl : lvl ≤ 1) : Done lvl sty B c := by
  obtain ⟨sg, w1, w2, w3, w4, w5, w6⟩ := h.waits.head
  refine ⟨?_, ?_, by rw [h.num]; exact h.real, fun _ => h.bits, ?_, by rw [h.num]; exact h.enough, h.aligned, fun h2 => by omega⟩
  · rw [h.num]; exact h.waits.length
  · have := h.few; rw [h.num]; omega
  · intro j x hj hx
    rw [h.num] at hj
    by_cases hji : j < i
    · exact h.fine j x hji hx
    · have : j = i := by omega
      subst this
      rw [w1] at hx
      simp only [Option.some.injEq] at hx
      subst hx
      exact w4

theorem claim_set {segs : List Seg} {i : Nat} {sg sg' : Seg} (h : segs[i]? = some sg) :
    claim (segs.set i sg') (i + 1) + sg.len = claim segs (i + 1) + sg'.len := by
  have hi := (List.getElem?_eq_some_iff.mp h).1
  have h1 : claim (segs.set i sg') (i + 1) = claim (segs.set i sg') i + sg'.len := claim_succ (List.getElem?_set_self hi)
  have h2 := claim_succ h
  have h3 : claim (segs.set i sg') i = claim segs i := claim_congr fun j hj => by rw [List.getElem?_set_ne (by omega)]
  omega

/-- One step of either body loop: segment `i` takes its passes (`len'` is its new length, `real'` its new count), and the loop is
done or goes on with the next one. -/
theorem Filling.step {lvl sty B i : Nat} {c : DecCblk} (h : Filling lvl sty B i c) (hB : B < 2 ^ 32) {sg : Seg} (hsg : c.segs[i]? = some sg)
    (len' real' : Nat) (chunks' : List (List UInt8)) (left : Nat) (hl : left = (2 ^ 32 + c.numnewpasses - sg.numnewpasses) % 2 ^ 32)
    (hen : 1 ≤ lvl → len' + held c ≤ sg.len + chunks'.flatten.length) (np : Nat) (hnp : np = (sg.numpasses + sg.numnewpasses) % 2 ^ 32)
    (ns : Nat) (hns : ns = if 0 < left then (c.numsegs + 1) % 2 ^ 32 else c.numsegs)
    (hr1 : lvl = 1 → real' = sg.realNumPasses) (hr2 : 2 ≤ lvl → real' = np) :
    let c' : DecCblk := { c with chunks := chunks', segs := c.segs.set i { sg with len := len', numpasses := np, realNumPasses := real' },
                                 numnewpasses := left, numsegs := ns }
    left < c.numnewpasses ∧ (left = 0 → Done lvl sty B c') ∧ (left ≠ 0 → Filling lvl sty B (i + 1) c') := by
  obtain ⟨sg0, w1, w2, w3, w4, w5, w6⟩ := h.waits.head
  rw [hsg] at w1
  simp only [Option.some.injEq] at w1
  subst w1
  have hle := h.le
  have hfew := h.few
  have hi := h.waits.length
  have hleft : left = c.numnewpasses - sg.numnewpasses := by omega
  obtain ⟨x, hx⟩ : ∃ x : Seg, x = { sg with len := len', numpasses := np, realNumPasses := real' } := ⟨_, rfl⟩
  have hF : Fine sty i x := by
    rw [hx]
    refine ⟨w4.is, fun h0 => ?_⟩
    have h1 := w5 h0
    have h2 := w4.max
    show np ≤ sg.maxpasses
    omega
  have hset : (c.segs.set i x)[i]? = some x := List.getElem?_set_self hi
  have hne : ∀ j, j ≠ i → (c.segs.set i x)[j]? = c.segs[j]? := fun j hj => List.getElem?_set_ne (Ne.symm hj)
  have hfine : ∀ j s, j < i + 1 → (c.segs.set i x)[j]? = some s → Fine sty j s := by
    intro j s hj hs
    by_cases hji : j = i
    · subst hji
      rw [hset] at hs
      simp only [Option.some.injEq] at hs
      rw [← hs]; exact hF
    · rw [hne j hji] at hs
      exact h.fine j s (by omega) hs
  have hal : lvl = 1 → sty &&& 0x40 = 0 → Aligned sty (((c.segs.set i x).take c.realNumSegs).map fun s => s.realNumPasses) := by
    intro h1 h40
    refine aligned_congr (fun j _ => ?_) (h.aligned h1 h40)
    by_cases hji : j = i
    · subst hji
      rw [hset, hsg, Option.map_some, Option.map_some, hx]
      exact congrArg some (hr1 h1)
    · rw [hne j hji]
  have hsy : 2 ≤ lvl → sty &&& 0x40 = 0 → ∀ j s, j < i + 1 → (c.segs.set i x)[j]? = some s → AllIn s ∧ ((j < i ∨ left ≠ 0) → s.numpasses = s.maxpasses) := by
    intro h2 h40 j s hj hs
    by_cases hji : j = i
    · subst hji
      rw [hset] at hs
      simp only [Option.some.injEq] at hs
      rw [← hs, hx]
      refine ⟨hr2 h2, fun h' => ?_⟩
      have h0 : left ≠ 0 := by omega
      have q1 := (w6 (by omega)).1 h40
      have q2 := w4.max
      show np = sg.maxpasses
      omega
    · rw [hne j hji] at hs
      obtain ⟨q1, q2⟩ := h.synced h2 h40 j s (by omega) hs
      exact ⟨q1, fun _ => q2⟩
  have hcl : 1 ≤ lvl → claim (c.segs.set i x) (i + 1) ≤ chunks'.flatten.length := by
    intro hf
    have h1 := claim_set (sg' := x) hsg
    have h2 := h.enough hf
    have h3 := hen hf
    have h4 : x.len = len' := by rw [hx]
    omega
  dsimp only
  rw [← hx]
  have hgo : left ≠ 0 → Filling lvl sty B (i + 1)
      { c with chunks := chunks', segs := c.segs.set i x, numnewpasses := left, numsegs := ns } := by
    intro h0
    obtain ⟨_, v1, v2⟩ := w6 (by omega)
    have hn := h.num
    refine ⟨?_, ?_, by show left ≤ 164; omega, by show i + 1 + left ≤ B; omega, by show c.realNumSegs ≤ _; have := h.real; omega, h.bits, hfine, ?_, hal,
      fun h2 h40 j s hj hs => ⟨(hsy h2 h40 j s hj hs).1, (hsy h2 h40 j s hj hs).2 (Or.inr h0)⟩⟩
    · show ns = _
      rw [hns, if_pos (by omega)]; omega
    · show Waits sty (c.segs.set i x) (i + 1) left
      rw [hleft]
      exact v1.congr fun j hj => hne j (by omega)
    · intro hf
      show claim (c.segs.set i x) (i + 1 + 1) ≤ chunks'.flatten.length
      obtain ⟨sg1, u1, _⟩ := v1.head
      rw [claim_succ (by rw [hne _ (by omega)]; exact u1), v2 sg1 u1]
      exact hcl hf
  refine ⟨by omega, fun h0 => ?_, hgo⟩
  have hn := h.num
  have hnn : ns = i + 1 := by rw [hns, if_neg (by omega)]; exact hn
  refine ⟨?_, ?_, ?_, fun _ => h.bits, ?_, ?_, hal, ?_⟩
  · show ns ≤ (c.segs.set i x).length
    rw [List.length_set]; omega
  · show ns ≤ B
    omega
  · show c.realNumSegs ≤ ns
    have := h.real; omega
  · show ∀ j s, j < ns → (c.segs.set i x)[j]? = some s → Fine sty j s
    rw [hnn]; exact hfine
  · show 1 ≤ lvl → claim (c.segs.set i x) ns ≤ chunks'.flatten.length
    rw [hnn]; exact hcl
  · intro h2 h40 j s hj hs
    have hj' : j < ns := hj
    obtain ⟨q1, q2⟩ := hsy h2 h40 j s (by omega) hs
    refine ⟨q1, fun hlt => q2 (Or.inl ?_)⟩
    have hlt' : j + 1 < ns := hlt
    omega

theorem dataLoop_safe {lvl sty B : Nat} (hB : B < 2 ^ 32) (strict : Bool) (hl : lvl ≠ 1) (hfs : 2 ≤ lvl → strict = true) (fuel : Nat) (q : BodySt) (c : DecCblk) (i : Nat)
    (h : Filling lvl sty B i c) (hfu : c.numnewpasses ≤ fuel) (hq : 2 ≤ lvl → q.cut = false) :
    Safe (fun r => Done lvl sty B r.2 ∧ (2 ≤ lvl → r.1.cut = false)) (dataLoop strict fuel q c i) := by
  induction fuel generalizing q c i with
  | zero =>
    obtain ⟨sg, _, w2, w3, _⟩ := h.waits.head
    omega
  | succ fuel ih =>
    obtain ⟨sg, hsg, w2, w3, w4, w5, w6⟩ := h.waits.head
    unfold dataLoop
    rw [hsg, ofOpt_some, ok_bind]
    obtain ⟨left, hleft⟩ : ∃ left, left = (2 ^ 32 + c.numnewpasses - sg.numnewpasses) % 2 ^ 32 := ⟨_, rfl⟩
    obtain ⟨np, hnp⟩ : ∃ np, np = (sg.numpasses + sg.numnewpasses) % 2 ^ 32 := ⟨_, rfl⟩
    obtain ⟨ns, hns⟩ : ∃ ns, ns = if 0 < left then (c.numsegs + 1) % 2 ^ 32 else c.numsegs := ⟨_, rfl⟩
    simp only [← hleft, ← hnp, ← hns]
    by_cases hc : q.rest.length < sg.newlen ∨ q.cut = true
    · rw [if_pos hc]
      by_cases hst : strict = true
      · rw [if_pos hst]; trivial
      · rw [if_neg hst]
        have hl0 : lvl = 0 := by
          rcases Nat.lt_or_ge lvl 2 with h2 | h2
          · omega
          · exact absurd (hfs h2) hst
        have := h.step hB hsg sg.len sg.realNumPasses [] left hleft (fun hf => by omega) np hnp ns hns (fun _ => rfl) (fun hf => by omega)
        refine ⟨?_, fun hf => by omega⟩
        by_cases h0 : left = 0
        · exact this.2.1 h0
        · exact (this.2.2 h0).done (by omega)
    · rw [if_neg hc]
      have hlen : sg.newlen ≤ q.rest.length := by omega
      have := h.step hB hsg ((sg.len + sg.newlen) % 2 ^ 32) np (c.chunks ++ [q.rest.take sg.newlen]) left hleft
        (fun _ => by
          have : (c.chunks ++ [q.rest.take sg.newlen]).flatten.length = held c + sg.newlen := by
            simp [held]; omega
          have h2 := Nat.mod_le (sg.len + sg.newlen) (2 ^ 32)
          omega) np hnp ns hns (fun h1 => absurd h1 hl) (fun _ => rfl)
      obtain ⟨t1, t2, t3⟩ := this
      by_cases h0 : left = 0
      · rw [if_pos h0]
        exact ⟨t2 h0, hq⟩
      · rw [if_neg h0]
        exact ih _ _ _ (t3 h0) (by show left ≤ fuel; omega) hq

theorem skipLoop_safe {lvl sty B : Nat} (hB : B < 2 ^ 32) (hl : lvl ≤ 1) (strict : Bool) (mx : Nat) (fuel : Nat) (q : SkipSt) (c : DecCblk) (i : Nat)
    (h : Filling lvl sty B i c) (hfu : c.numnewpasses ≤ fuel) (hq : q.read ≤ mx) :
    Safe (fun r => Done lvl sty B r.2 ∧ r.1.read ≤ mx) (skipLoop strict mx fuel q c i) := by
  induction fuel generalizing q c i with
  | zero =>
    obtain ⟨sg, _, w2, w3, _⟩ := h.waits.head
    omega
  | succ fuel ih =>
    obtain ⟨sg, hsg, w2, w3, w4, w5, w6⟩ := h.waits.head
    unfold skipLoop
    rw [hsg, ofOpt_some, ok_bind]
    obtain ⟨left, hleft⟩ : ∃ left, left = (2 ^ 32 + c.numnewpasses - sg.numnewpasses) % 2 ^ 32 := ⟨_, rfl⟩
    obtain ⟨np, hnp⟩ : ∃ np, np = (sg.numpasses + sg.numnewpasses) % 2 ^ 32 := ⟨_, rfl⟩
    obtain ⟨ns, hns⟩ : ∃ ns, ns = if 0 < left then (c.numsegs + 1) % 2 ^ 32 else c.numsegs := ⟨_, rfl⟩
    obtain ⟨r, hr⟩ : ∃ r, r = (q.read + sg.newlen) % 2 ^ 32 := ⟨_, rfl⟩
    simp only [← hleft, ← hnp, ← hns, ← hr]
    by_cases hc : r < q.read ∨ mx < r
    · rw [if_pos hc]
      by_cases hst : strict = true
      · rw [if_pos hst]; trivial
      · rw [if_neg hst]
        exact ⟨h.done hl, hq⟩
    · rw [if_neg hc]
      obtain ⟨t1, t2, t3⟩ := h.step hB hsg sg.len sg.realNumPasses c.chunks left hleft (fun _ => Nat.le_refl _) np hnp ns hns (fun _ => rfl) (fun h2 => by omega)
      by_cases h0 : left = 0
      · rw [if_pos h0]
        exact ⟨t2 h0, by show r ≤ mx; omega⟩
      · rw [if_neg h0]
        exact ih _ _ _ (t3 h0) (by show left ≤ fuel; omega) (by show r ≤ mx; omega)

theorem dataBlock_safe {lvl sty B : Nat} (hB : B + 164 < 2 ^ 32) (strict : Bool) (hl : lvl ≠ 1) (hfs : 2 ≤ lvl → strict = true) (q : BodySt)
    (hq : 2 ≤ lvl → q.cut = false) (c : DecCblk) (h : Pending lvl sty B c) :
    Safe (fun r => Ready lvl sty (B + 164) r.2 ∧ (2 ≤ lvl → r.1.cut = false)) (dataBlock strict q c) := by
  unfold dataBlock
  have h' : Pending lvl sty B (if q.cut then { c with chunks := [] } else c) := by
    split
    · rename_i hc
      have hf : lvl = 0 := by
        rcases Nat.lt_or_ge lvl 2 with h2 | h2
        · omega
        · rw [hq h2] at hc; cases hc
      refine ⟨⟨h.ready.range, h.ready.few, h.ready.real, h.ready.bits, h.ready.fine, fun _ => by omega, fun _ => by omega, fun _ => by omega⟩, fun h0 => ?_⟩
      obtain ⟨h1, h2, h3, i, h4, h5, h6, h7, h8, h9⟩ := h.new h0
      exact ⟨h1, h2, h3, i, h4, h5, h6, h7, fun _ => by omega, fun _ => by omega⟩
    · exact h
  generalize (if q.cut then { c with chunks := [] } else c) = c1 at h'
  simp only
  by_cases h0 : c1.numnewpasses = 0
  · rw [if_pos h0]
    exact ⟨h'.ready.more (by omega), hq⟩
  · rw [if_neg h0]
    obtain ⟨i, g1, g2⟩ := h'.filling h0
    rw [g1, ofOpt_some, ok_bind]
    refine Safe.bind (dataLoop_safe hB strict hl hfs 165 q _ i g2 (Nat.le_trans g2.le (by omega)) hq) ?_
    rintro ⟨q2, c2⟩ ⟨hr, hcut⟩
    exact ⟨hr.taken hl, hcut⟩

theorem skipBlock_safe {lvl sty B : Nat} (hB : B + 164 < 2 ^ 32) (hl : lvl ≤ 1) (strict : Bool) (mx : Nat) (q : SkipSt) (hq : q.read ≤ mx) (c : DecCblk)
    (h : Pending lvl sty B c) :
    Safe (fun r => Ready lvl sty (B + 164) r.2 ∧ r.1.read ≤ mx) (skipBlock strict mx q c) := by
  unfold skipBlock
  by_cases h0 : q.stop = true ∨ c.numnewpasses = 0
  · rw [if_pos h0]
    exact ⟨h.ready.more (by omega), hq⟩
  · rw [if_neg h0]
    obtain ⟨i, g1, g2⟩ := h.filling (fun h => h0 (Or.inr h))
    rw [g1, ofOpt_some, ok_bind]
    exact Safe.mono (skipLoop_safe hB hl strict mx 165 q _ i g2 (Nat.le_trans g2.le (by omega)) hq) fun r hr => ⟨hr.1.skipped hl, hr.2⟩

theorem dataBlocks_safe {lvl sty B : Nat} (hB : B + 164 < 2 ^ 32) (strict : Bool) (hl : lvl ≠ 1) (hfs : 2 ≤ lvl → strict = true) (cs : List DecCblk)
    (q : BodySt) (hq : 2 ≤ lvl → q.cut = false) (h : ∀ c ∈ cs, Pending lvl sty B c) :
    Safe (fun r => r.2.length = cs.length ∧ (∀ c ∈ r.2, Ready lvl sty (B + 164) c) ∧ (2 ≤ lvl → r.1.cut = false)) (dataBlocks strict q cs) := by
  induction cs generalizing q with
  | nil => exact ⟨rfl, by simp, hq⟩
  | cons c cs ih =>
    unfold dataBlocks
    refine Safe.bind (dataBlock_safe hB strict hl hfs q hq c (h c (by simp))) ?_
    rintro ⟨q1, c1⟩ ⟨g1, g2⟩
    refine Safe.bind (ih q1 g2 fun c hc => h c (by simp [hc])) ?_
    rintro ⟨q2, cs2⟩ ⟨e1, e2, e3⟩
    refine ⟨congrArg (· + 1) e1, fun x hx => ?_, e3⟩
    rcases List.mem_cons.mp hx with rfl | hx
    · exact g1
    · exact e2 x hx

theorem skipBlocks_safe {lvl sty B : Nat} (hB : B + 164 < 2 ^ 32) (hl : lvl ≤ 1) (strict : Bool) (mx : Nat) (cs : List DecCblk)
    (q : SkipSt) (hq : q.read ≤ mx) (h : ∀ c ∈ cs, Pending lvl sty B c) :
    Safe (fun r => r.2.length = cs.length ∧ (∀ c ∈ r.2, Ready lvl sty (B + 164) c) ∧ r.1.read ≤ mx) (skipBlocks strict mx q cs) := by
  induction cs generalizing q with
  | nil => exact ⟨rfl, by simp, hq⟩
  | cons c cs ih =>
    unfold skipBlocks
    refine Safe.bind (skipBlock_safe hB hl strict mx q hq c (h c (by simp))) ?_
    rintro ⟨q1, c1⟩ ⟨g1, g2⟩
    refine Safe.bind (ih q1 g2 fun c hc => h c (by simp [hc])) ?_
    rintro ⟨q2, cs2⟩ ⟨e1, e2, e3⟩
    refine ⟨congrArg (· + 1) e1, fun x hx => ?_, e3⟩
    rcases List.mem_cons.mp hx with rfl | hx
    · exact g1
    · exact e2 x hx

theorem BandIs.blocks {m : Mode} {P Q : DecCblk → Prop} {b : DecBand} (h : BandIs m P b) (he : b.empty = false) {cs : List DecCblk}
    (hl : cs.length = b.prec.cblks.length) (hq : ∀ c ∈ cs, Q c) : BandIs m Q { b with prec := { b.prec with cblks := cs } } := by
  obtain ⟨h1, w, h', h2, h3, _⟩ := h he
  exact fun _ => ⟨h1, w, h', hl.trans h2, h3, hq⟩

theorem BandIs.skip {m : Mode} {P Q : DecCblk → Prop} {b : DecBand} (he : b.empty = true) : BandIs m Q b := by
  intro h; rw [he] at h; cases h

theorem dataBands_safe {lvl sty B : Nat} {m : Mode} (hB : B + 164 < 2 ^ 32) (strict : Bool) (hl : lvl ≠ 1) (hfs : 2 ≤ lvl → strict = true)
    (bs : List DecBand) (q : BodySt) (hq : 2 ≤ lvl → q.cut = false) (h : ∀ b ∈ bs, BandIs m (Pending lvl sty B) b) :
    Safe (fun r => r.2.length = bs.length ∧ ∀ b ∈ r.2, BandIs m (Ready lvl sty (B + 164)) b) (dataBands strict q bs) := by
  induction bs generalizing q with
  | nil => exact ⟨rfl, by simp⟩
  | cons b bs ih =>
    have ih' := fun q hq => ih q hq fun b hb' => h b (by simp [hb'])
    unfold dataBands
    by_cases he : b.empty = true
    · rw [if_pos he]
      refine Safe.bind (ih' q hq) ?_
      rintro ⟨q2, bs2⟩ ⟨e1, e2⟩
      refine ⟨congrArg (· + 1) e1, fun x hx => ?_⟩
      rcases List.mem_cons.mp hx with rfl | hx
      · exact BandIs.skip (P := fun _ => True) he
      · exact e2 x hx
    · rw [if_neg he]
      have hb := h b (by simp)
      have he' : b.empty = false := by simpa using he
      refine Safe.bind (dataBlocks_safe hB strict hl hfs b.prec.cblks q hq (hb he').2.choose_spec.choose_spec.2.2) ?_
      rintro ⟨q1, cs⟩ ⟨g1, g2, g3⟩
      refine Safe.bind (ih' q1 g3) ?_
      rintro ⟨q2, bs2⟩ ⟨e1, e2⟩
      refine ⟨congrArg (· + 1) e1, fun x hx => ?_⟩
      rcases List.mem_cons.mp hx with rfl | hx
      · exact hb.blocks he' g1 g2
      · exact e2 x hx

theorem skipBands_safe {lvl sty B : Nat} {m : Mode} (hB : B + 164 < 2 ^ 32) (hl : lvl ≤ 1) (strict : Bool) (mx : Nat)
    (bs : List DecBand) (q : SkipSt) (hq : q.read ≤ mx) (h : ∀ b ∈ bs, BandIs m (Pending lvl sty B) b) :
    Safe (fun r => r.2.length = bs.length ∧ (∀ b ∈ r.2, BandIs m (Ready lvl sty (B + 164)) b) ∧ r.1.read ≤ mx) (skipBands strict mx q bs) := by
  induction bs generalizing q with
  | nil => exact ⟨rfl, by simp, hq⟩
  | cons b bs ih =>
    have ih' := fun q hq => ih q hq fun b hb' => h b (by simp [hb'])
    unfold skipBands
    by_cases he : b.empty = true
    · rw [if_pos he]
      refine Safe.bind (ih' q hq) ?_
      rintro ⟨q2, bs2⟩ ⟨e1, e2, e3⟩
      refine ⟨congrArg (· + 1) e1, fun x hx => ?_, e3⟩
      rcases List.mem_cons.mp hx with rfl | hx
      · exact BandIs.skip (P := fun _ => True) he
      · exact e2 x hx
    · rw [if_neg he]
      have hb := h b (by simp)
      have he' : b.empty = false := by simpa using he
      refine Safe.bind (skipBlocks_safe hB hl strict mx b.prec.cblks q hq (hb he').2.choose_spec.choose_spec.2.2) ?_
      rintro ⟨q1, cs⟩ ⟨g1, g2, g3⟩
      refine Safe.bind (ih' q1 g3) ?_
      rintro ⟨q2, bs2⟩ ⟨e1, e2, e3⟩
      refine ⟨congrArg (· + 1) e1, fun x hx => ?_, e3⟩
      rcases List.mem_cons.mp hx with rfl | hx
      · exact hb.blocks he' g1 g2
      · exact e2 x hx

/-! ## The header as a whole -/

theorem sopLen_le (csty : Nat) (src : List UInt8) : sopLen csty src ≤ src.length := by
  unfold sopLen; split
  · rename_i h; exact h.2.1
  · omega

theorem ephLen_le (csty : Nat) (hdr : List UInt8) (n : Nat) (hn : n ≤ hdr.length) : n + ephLen csty hdr n ≤ hdr.length := by
  unfold ephLen; split
  · rename_i h; have := h.2.1; omega
  · omega

theorem inalign_safe (s : Bio) (hs : DecSafe s) : ∃ t ok, inalign s = some (t, ok) ∧ DecSafe t ∧ t.mem = s.mem := by
  unfold inalign
  split
  · obtain ⟨t, ok, h1, h2, h3⟩ := bytein_safe s hs
    rw [h1]
    cases ok with
    | false => exact ⟨_, _, rfl, h2, h3⟩
    | true => exact ⟨_, _, rfl, ⟨h2.buf, by simp, h2.bp⟩, h3⟩
  · exact ⟨_, _, rfl, ⟨hs.buf, by simp, hs.bp⟩, rfl⟩

/-- The header leaves the packed headers shorter, if there are any. -/
def Shrinks : Option (List UInt8) → Option (List UInt8) → Prop
  | none, none => True
  | some a, some b => ∃ n, n ≤ a.length ∧ b = a.drop n
  | _, _ => False

theorem endHeader_safe (csty : Nat) (packed : Option (List UInt8)) (src : List UInt8) (n : Nat) (p : Bool) (bs : List DecBand)
    (hn : n ≤ (packed.getD (src.drop (sopLen csty src))).length) :
    (endHeader csty (sopLen csty src) packed (packed.getD (src.drop (sopLen csty src))) n p bs).read ≤ src.length ∧
    Shrinks packed (endHeader csty (sopLen csty src) packed (packed.getD (src.drop (sopLen csty src))) n p bs).packed := by
  have h1 := sopLen_le csty src
  have h2 := ephLen_le csty _ n hn
  unfold endHeader
  cases packed with
  | none =>
    refine ⟨?_, trivial⟩
    simp only [Option.getD_none, List.length_drop] at h2 ⊢
    omega
  | some a => exact ⟨h1, _, h2, rfl⟩

theorem Ready.pending {lvl sty B : Nat} {m : Mode} {b : DecBand} (h : BandIs m (Pending lvl sty B) b) : BandIs m (Ready lvl sty B) b :=
  fun he => by
    obtain ⟨h1, w, h', h2, h3, h4⟩ := h he
    exact ⟨h1, w, h', h2, h3, fun c hc => (h4 c hc).ready⟩

theorem readHeader_safe {lvl sty B : Nat} {m : Mode} (csty layno : Nat) (packed : Option (List UInt8)) (bs : List DecBand) (src : List UInt8)
    (hs : src.length + 16 < 2 ^ 29) (hp : ∀ a, packed = some a → a.length + 16 < 2 ^ 29) (hb : ∀ b ∈ bs, BandIs m (Ready lvl sty B) b) :
    Safe (fun r => r.read ≤ src.length ∧ Shrinks packed r.packed ∧ r.bands.length = bs.length ∧
      (r.present = true → ∀ b ∈ r.bands, BandIs m (Pending lvl sty B) b) ∧ ∀ b ∈ r.bands, BandIs m (Ready lvl sty B) b)
      (readHeader csty sty layno packed bs src) := by
  unfold readHeader
  refine Safe.bind (Q := fun r : List DecBand => r.length = bs.length ∧ ∀ b ∈ r, BandIs m (Ready lvl sty B) b) (safe_ofOpt ?_) ?_
  · split
    · obtain ⟨bs', g1, g2, g3⟩ := startDec_safe (m := m) (P := Ready lvl sty B) (Q := Ready lvl sty B)
        (fun c _ => ⟨Nat.zero_le _, Nat.zero_le _, Nat.le_refl _, fun h => absurd h (Nat.lt_irrefl 0),
          fun i sg h => absurd h (Nat.not_lt_zero i), fun _ => Nat.zero_le _, fun _ _ i p hp => by simp at hp,
          fun _ _ => ⟨rfl, fun i sg h => absurd h (Nat.not_lt_zero i)⟩⟩) bs hb
      exact ⟨bs', g1, g2, g3⟩
    · exact ⟨bs, rfl, rfl, hb⟩
  rintro bs1 ⟨hl1, hb1⟩
  dsimp only
  obtain ⟨hdr, hhdr⟩ : ∃ hdr, hdr = packed.getD (src.drop (sopLen csty src)) := ⟨_, rfl⟩
  have hh : hdr.length + 16 < 2 ^ 29 := by
    rw [hhdr]
    cases packed with
    | none => simp only [Option.getD_none, List.length_drop]; omega
    | some a => exact hp a rfl
  rw [← hhdr]
  obtain ⟨s1, a1, a2, a3, _⟩ := read_spec (initDec hdr) (decSafe_init hdr) 1 (by omega) (by omega)
  have hm1 : s1.mem = hdr := a3
  rw [a1, ofOpt_some, ok_bind]
  dsimp only
  have nb : ∀ t : Bio, DecSafe t → t.mem = hdr → numbytes t ≤ hdr.length := fun t h1 h2 => by
    have := h1.bp; rw [h2] at this; exact this
  split
  · obtain ⟨t, ok, b1, b2, b3⟩ := inalign_safe s1 a2
    rw [b1, ofOpt_some, ok_bind]
    dsimp only
    have hn := nb t b2 (b3.trans hm1)
    rw [hhdr] at hn
    obtain ⟨e1, e2⟩ := endHeader_safe csty packed src (numbytes t) false bs1 hn
    rw [hhdr]
    refine ⟨e1, e2, ?_, ?_, ?_⟩
    · cases packed <;> exact hl1
    · cases packed <;> exact fun h => by cases h
    · cases packed <;> exact hb1
  · refine Safe.bind (decBands_safe hh layno bs1 s1 ⟨a2, hm1⟩ hb1) ?_
    rintro ⟨s2, bs2⟩ ⟨c1, c2, c3⟩
    simp only at c1 c2 c3 ⊢
    obtain ⟨t, ok, b1, b2, b3⟩ := inalign_safe s2 c1.safe
    rw [b1, ofOpt_some, ok_bind]
    dsimp only
    split
    · trivial
    · have hn := nb t b2 (b3.trans c1.mem)
      rw [hhdr] at hn
      obtain ⟨e1, e2⟩ := endHeader_safe csty packed src (numbytes t) true bs2 hn
      rw [hhdr]
      refine ⟨e1, e2, ?_, ?_, ?_⟩
      · cases packed <;> exact c2.trans hl1
      · cases packed <;> exact fun _ => c3
      · cases packed <;> exact fun b hb => Ready.pending (c3 b hb)

theorem decodePacket_safe {lvl sty B : Nat} {m : Mode} (hB : B + 164 < 2 ^ 32) (strict : Bool) (hl : lvl ≠ 1) (hfs : 2 ≤ lvl → strict = true)
    (csty layno : Nat) (packed : Option (List UInt8)) (bs : List DecBand) (src : List UInt8)
    (hs : src.length + 16 < 2 ^ 29) (hp : ∀ a, packed = some a → a.length + 16 < 2 ^ 29) (hb : ∀ b ∈ bs, BandIs m (Ready lvl sty B) b) :
    Safe (fun r => r.1 ≤ src.length ∧ Shrinks packed r.2.1 ∧ r.2.2.length = bs.length ∧ ∀ b ∈ r.2.2, BandIs m (Ready lvl sty (B + 164)) b)
      (decodePacket csty sty layno strict packed bs src) := by
  unfold decodePacket
  refine Safe.bind (readHeader_safe csty layno packed bs src hs hp hb) ?_
  rintro r ⟨h1, h2, h3, h4, h5⟩
  split
  · rename_i hpres
    unfold readData
    have h := dataBands_safe hB strict hl hfs r.bands ⟨src.drop r.read, false⟩ (fun _ => rfl) (h4 hpres)
    rw [bind_assoc]
    refine Safe.bind h ?_
    rintro ⟨q, bs2⟩ ⟨e1, e2⟩
    refine ⟨?_, h2, e1.trans h3, e2⟩
    show r.read + (if q.cut then (src.drop r.read).length else (src.drop r.read).length - q.rest.length) ≤ src.length
    rw [List.length_drop]
    split <;> omega
  · exact ⟨h1, h2, h3, fun b hb => fun he => by
      obtain ⟨k1, w, h', k2, k3, k4⟩ := h5 b hb he
      exact ⟨k1, w, h', k2, k3, fun c hc => (k4 c hc).more (by omega)⟩⟩

theorem skipPacket_safe {lvl sty B : Nat} {m : Mode} (hB : B + 164 < 2 ^ 32) (hl : lvl ≤ 1) (strict : Bool)
    (csty layno : Nat) (packed : Option (List UInt8)) (bs : List DecBand) (src : List UInt8)
    (hs : src.length + 16 < 2 ^ 29) (hp : ∀ a, packed = some a → a.length + 16 < 2 ^ 29) (hb : ∀ b ∈ bs, BandIs m (Ready lvl sty B) b) :
    Safe (fun r => r.1 ≤ src.length ∧ Shrinks packed r.2.1 ∧ r.2.2.length = bs.length ∧ ∀ b ∈ r.2.2, BandIs m (Ready lvl sty (B + 164)) b)
      (skipPacket csty sty layno strict packed bs src) := by
  unfold skipPacket
  refine Safe.bind (readHeader_safe csty layno packed bs src hs hp hb) ?_
  rintro r ⟨h1, h2, h3, h4, h5⟩
  split
  · rename_i hpres
    refine Safe.bind (skipBands_safe hB hl strict (src.length - r.read) r.bands ⟨0, false⟩ (Nat.zero_le _) (h4 hpres)) ?_
    rintro ⟨q, bs2⟩ ⟨e1, e2, e3⟩
    simp only at e1 e2 e3
    refine ⟨?_, h2, e1.trans h3, e2⟩
    show r.read + q.read ≤ src.length
    omega
  · exact ⟨h1, h2, h3, fun b hb => fun he => by
      obtain ⟨k1, w, h', k2, k3, k4⟩ := h5 b hb he
      exact ⟨k1, w, h', k2, k3, fun c hc => (k4 c hc).more (by omega)⟩⟩

end Jp2.T2

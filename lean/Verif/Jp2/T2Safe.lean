import Verif.Jp2.T2Seg
import Verif.Jp2.T2Round
import Verif.Jp2.TgtProps
import Verif.Jp2.MathProps
import Verif.Jp2.T2SafeSpec
/-!
# Helpers for C47: decoding packets from any bytes
-/
namespace Jp2.T2
open Jp2.Bio Jp2.Tgt

/-- No panic, and `P` of the result if there is one. -/
def Safe {α : Type} (P : α → Prop) : Except Err α → Prop
  | .error .panic => False
  | .error .refused => True
  | .ok a => P a

theorem Safe.bind {α β : Type} {Q : α → Prop} {P : β → Prop} {x : Except Err α} {f : α → Except Err β} (hx : Safe Q x)
    (hf : ∀ a, Q a → Safe P (f a)) : Safe P (x >>= f) := by
  cases x with
  | ok a => exact hf a hx
  | error e => cases e with
    | panic => exact hx.elim
    | refused => trivial

theorem Safe.mono {α : Type} {Q P : α → Prop} {x : Except Err α} (hx : Safe Q x) (h : ∀ a, Q a → P a) : Safe P x := by
  cases x with
  | ok a => exact h a hx
  | error e => cases e with
    | panic => exact hx.elim
    | refused => trivial

theorem safe_ofOpt {α : Type} {P : α → Prop} {o : Option α} (h : ∃ a, o = some a ∧ P a) : Safe P (ofOpt o) := by
  obtain ⟨a, rfl, h⟩ := h; exact h

/-- What a segment in use looks like. -/
structure Fine (sty i : Nat) (sg : Seg) : Prop where
  is : sg.maxpasses = capAt sty i
  cap : sty &&& 0x40 = 0 → sg.numpasses ≤ sg.maxpasses

theorem capAt_range (sty i : Nat) : 0 < capAt sty i ∧ capAt sty i ≤ 109 := by
  unfold capAt; repeat' split
  all_goals omega

theorem Fine.pos {sty i : Nat} {sg : Seg} (h : Fine sty i sg) : 0 < sg.maxpasses := by rw [h.is]; exact (capAt_range sty i).1
theorem Fine.max {sty i : Nat} {sg : Seg} (h : Fine sty i sg) : sg.maxpasses ≤ 109 := by rw [h.is]; exact (capAt_range sty i).2

/-- The bytes the first `n` segments lay claim to. -/
def claim (segs : List Seg) (n : Nat) : Nat := ((segs.take n).map fun s => s.len).sum

def held (c : DecCblk) : Nat := c.chunks.flatten.length

/-- A segment all of whose passes have been received. -/
def AllIn (sg : Seg) : Prop := sg.realNumPasses = sg.numpasses

/-- A block between two packets, at most `B` segments. Levels: 0 not strict; 1 strict, and packets may have been skipped; 2 strict,
none skipped. -/
structure Ready (lvl sty B : Nat) (c : DecCblk) : Prop where
  range : c.numsegs ≤ c.segs.length
  few : c.numsegs ≤ B
  real : c.realNumSegs ≤ c.numsegs
  bits : 0 < c.numsegs → 3 ≤ c.numlenbits ∧ c.numlenbits ≤ 32
  fine : ∀ i sg, i < c.numsegs → c.segs[i]? = some sg → Fine sty i sg
  enough : 1 ≤ lvl → claim c.segs c.numsegs ≤ held c
  aligned : 1 ≤ lvl → sty &&& 0x40 = 0 → Aligned sty ((c.segs.take c.realNumSegs).map fun s => s.realNumPasses)
  synced : 2 ≤ lvl → sty &&& 0x40 = 0 → c.realNumSegs = c.numsegs ∧
    ∀ i sg, i < c.numsegs → c.segs[i]? = some sg → AllIn sg ∧ (i + 1 < c.numsegs → sg.numpasses = sg.maxpasses)

/-- From segment `i` on, the segments wait for `n` new passes. -/
inductive Waits (sty : Nat) (segs : List Seg) : Nat → Nat → Prop
  | last (i n : Nat) (sg : Seg) : segs[i]? = some sg → sg.numnewpasses = n → 0 < n → Fine sty i sg →
      (sty &&& 0x40 = 0 → sg.numpasses + n ≤ sg.maxpasses) → Waits sty segs i n
  | more (i n : Nat) (sg : Seg) : segs[i]? = some sg → 0 < sg.numnewpasses → sg.numnewpasses < n → Fine sty i sg →
      (sty &&& 0x40 = 0 → sg.numpasses + sg.numnewpasses = sg.maxpasses) →
      (∀ sg', segs[i + 1]? = some sg' → sg'.len = 0) → Waits sty segs (i + 1) (n - sg.numnewpasses) → Waits sty segs i n

theorem Waits.head {sty : Nat} {segs : List Seg} {i n : Nat} (h : Waits sty segs i n) :
    ∃ sg, segs[i]? = some sg ∧ 0 < sg.numnewpasses ∧ sg.numnewpasses ≤ n ∧ Fine sty i sg ∧
      (sty &&& 0x40 = 0 → sg.numpasses + sg.numnewpasses ≤ sg.maxpasses) ∧
      (sg.numnewpasses < n → (sty &&& 0x40 = 0 → sg.numpasses + sg.numnewpasses = sg.maxpasses) ∧ Waits sty segs (i + 1) (n - sg.numnewpasses) ∧ ∀ sg', segs[i + 1]? = some sg' → sg'.len = 0) := by
  cases h with
  | last i n sg h1 h2 h3 h4 h5 => exact ⟨sg, h1, by omega, by omega, h4, by rw [h2]; exact h5, by omega⟩
  | more i n sg h1 h2 h3 h4 h5 h6 h7 => exact ⟨sg, h1, h2, by omega, h4, fun h => Nat.le_of_eq (h5 h), fun _ => ⟨h5, h7, h6⟩⟩

theorem Waits.congr {sty : Nat} {segs segs' : List Seg} {i n : Nat} (h : Waits sty segs i n)
    (he : ∀ j, i ≤ j → segs'[j]? = segs[j]?) : Waits sty segs' i n := by
  induction h with
  | last i n sg h1 h2 h3 h4 h5 => exact .last i n sg (by rw [he i (by omega)]; exact h1) h2 h3 h4 h5
  | more i n sg h1 h2 h3 h4 h5 h6 _ ih =>
    exact .more i n sg (by rw [he i (by omega)]; exact h1) h2 h3 h4 h5 (by rw [he (i + 1) (by omega)]; exact h6)
      (ih fun j hj => he j (by omega))

theorem Waits.length {sty : Nat} {segs : List Seg} {i n : Nat} (h : Waits sty segs i n) : i < segs.length := by
  obtain ⟨sg, h1, _⟩ := h.head
  exact (List.getElem?_eq_some_iff.mp h1).1

/-! ## The header -/

theorem initSeg_safe (segs : List Seg) (i sty : Nat) (first : Bool) (hi : i ≤ segs.length) (hf : first = false ↔ 0 < i)
    (hp : ∀ sg, segs[i - 1]? = some sg → 0 < i → sg.maxpasses = capAt sty (i - 1)) :
    ∃ segs' m, initSeg segs i sty first = some segs' ∧ i < segs'.length ∧ segs.length ≤ segs'.length ∧ m = capAt sty i ∧
      segs'[i]? = some { maxpasses := m } ∧ ∀ j, j < i → segs'[j]? = segs[j]? := by
  obtain ⟨s1, hs1⟩ : ∃ s1, s1 = if segs.length < i + 1 then segs ++ List.replicate 10 ({} : Seg) else segs := ⟨_, rfl⟩
  have hl : i < s1.length ∧ segs.length ≤ s1.length ∧ ∀ j, j < i → s1[j]? = segs[j]? := by
    rw [hs1]
    split
    · simp only [List.length_append, List.length_replicate]
      refine ⟨by omega, by omega, fun j hj => ?_⟩
      rw [List.getElem?_append_left (by omega)]
    · exact ⟨by omega, Nat.le_refl _, fun _ _ => rfl⟩
  have key : ∃ m, (if sty &&& 4 ≠ 0 then some 1
      else if sty &&& 1 ≠ 0 then
        if first then some 10
        else if i = 0 then none
        else (s1[i - 1]?).map fun p => if p.maxpasses = 1 ∨ p.maxpasses = 10 then 2 else 1
      else some 109) = some m ∧ m = capAt sty i := by
    unfold capAt
    by_cases h4 : sty &&& 4 ≠ 0
    · rw [if_pos h4, if_pos h4]; exact ⟨1, rfl, rfl⟩
    · rw [if_neg h4, if_neg h4]
      by_cases h1 : sty &&& 1 ≠ 0
      · rw [if_pos h1, if_pos h1]
        cases first with
        | true =>
          have : i = 0 := by
            rcases Nat.eq_zero_or_pos i with e | e
            · exact e
            · cases hf.mpr e
          exact ⟨10, rfl, (if_pos this).symm⟩
        | false =>
          have hi0 := hf.mp rfl
          have hlt : i - 1 < segs.length := by omega
          have hne : i ≠ 0 := Nat.pos_iff_ne_zero.mp hi0
          rw [if_neg (by decide), if_neg hne, if_neg hne, hl.2.2 (i - 1) (by omega), List.getElem?_eq_getElem hlt, Option.map_some]
          have hq := hp _ (List.getElem?_eq_getElem hlt) hi0
          unfold capAt at hq
          rw [if_neg h4, if_pos h1] at hq
          refine ⟨_, rfl, ?_⟩
          rw [hq]
          by_cases e0 : i - 1 = 0
          · rw [if_pos e0, if_pos (by omega), if_pos (by omega)]
          · rw [if_neg e0]
            by_cases e1 : (i - 1) % 2 = 1
            · rw [if_pos e1, if_neg (by omega), if_neg (by omega)]
            · rw [if_neg e1, if_pos (by omega), if_pos (by omega)]
      · rw [if_neg h1, if_neg h1]; exact ⟨109, rfl, rfl⟩
  obtain ⟨m, hm, hm0⟩ := key
  refine ⟨s1.set i { maxpasses := m }, m, ?_, by simp only [List.length_set]; exact hl.1, by simp only [List.length_set]; exact hl.2.1, hm0, ?_, ?_⟩
  · unfold initSeg
    simp only
    rw [← hs1, if_neg (by omega), hm, Option.map_some]
  · rw [List.getElem?_set_self hl.1]
  · intro j hj
    rw [List.getElem?_set_ne (by omega)]
    exact hl.2.2 j hj

/-- The bit reader stays on the same data, within bounds. -/
structure Rd (mem : List UInt8) (s : Bio) : Prop where
  safe : DecSafe s
  mem : s.mem = mem

theorem asI32_small (x : Nat) (h : x < 2 ^ 31) : asI32 x = x := by unfold asI32; rw [if_pos h]

theorem take_range (sty i : Nat) (sg : Seg) (n : Nat) (hn : 0 < n) (hn2 : n ≤ 164) (hf : Fine sty i sg)
    (hlt : sty &&& 0x40 = 0 → sg.numpasses < sg.maxpasses) :
    ∃ m : Nat, takePasses sty i sg n = m ∧ 0 < m ∧ m ≤ n ∧
      (sty &&& 0x40 = 0 → sg.numpasses + m ≤ sg.maxpasses ∧ (m < n → sg.numpasses + m = sg.maxpasses)) := by
  unfold takePasses
  by_cases h : sty &&& 0x40 = 0
  · rw [if_neg (by simp [h])]
    have h1 := hlt h
    have h2 := hf.max
    have e : (2 ^ 32 + sg.maxpasses - sg.numpasses) % 2 ^ 32 = sg.maxpasses - sg.numpasses := by omega
    rw [e, asI32_small _ (by omega)]
    refine ⟨min (sg.maxpasses - sg.numpasses) n, by omega, by omega, by omega, fun _ => ⟨by omega, by omega⟩⟩
  · rw [if_pos h]
    split
    · exact ⟨1, rfl, by omega, by omega, fun e => absurd e h⟩
    · exact ⟨n, rfl, by omega, by omega, fun e => absurd e h⟩

theorem segLoop_safe (sty nlb : Nat) (mem : List UInt8) (h3 : 3 ≤ nlb) (hw : nlb < 2 ^ 32 - 64) (fuel : Nat) (s : Bio) (segs : List Seg) (i n : Nat)
    (hs : Rd mem s) (hn : 0 < n) (hn2 : n ≤ 164) (hfu : n ≤ fuel) (sg : Seg) (hi : segs[i]? = some sg) (hf : Fine sty i sg)
    (hlt : sty &&& 0x40 = 0 → sg.numpasses < sg.maxpasses) :
    Safe (fun r => Rd mem r.1 ∧ segs.length ≤ r.2.length ∧ nlb ≤ 32 ∧ Waits sty r.2 i n ∧ (∀ j, j < i → r.2[j]? = segs[j]?) ∧
      ∃ sg', r.2[i]? = some sg' ∧ sg'.len = sg.len ∧ sg'.numpasses = sg.numpasses ∧ sg'.maxpasses = sg.maxpasses ∧
        sg'.realNumPasses = sg.realNumPasses)
      (segLoop sty nlb fuel s segs i n) := by
  induction fuel generalizing s segs i n sg with
  | zero => omega
  | succ fuel ih =>
    have hil : i < segs.length := (List.getElem?_eq_some_iff.mp hi).1
    obtain ⟨m, hm, m0, m1, m2⟩ := take_range sty i sg n hn hn2 hf hlt
    unfold segLoop
    rw [hi, ofOpt_some, ok_bind]
    simp only [hm]
    have e1 : ((m : Int) % 2 ^ 32).toNat = m := by omega
    rw [e1]
    obtain ⟨fl, f1, f2, f3⟩ := (Math.C26_floorlog2 m m0 (by omega)).1
    have hfl : fl < 8 := by
      by_contra hc
      have : 2 ^ 8 ≤ 2 ^ fl := Nat.pow_le_pow_right (by omega) (by omega)
      omega
    rw [f1, ofOpt_some, ok_bind]
    have e2 : (nlb + fl) % 2 ^ 32 = nlb + fl := by omega
    rw [e2]
    by_cases hb : 32 < nlb + fl
    · rw [if_pos hb]; trivial
    rw [if_neg hb]
    obtain ⟨s', r1, r2, r3, _⟩ := read_spec s hs.safe (nlb + fl) (by omega) (by omega)
    rw [r1, ofOpt_some, ok_bind]
    simp only
    obtain ⟨v, hv⟩ : ∃ v, v = valOf ((List.range (nlb + fl)).map (stream s)) := ⟨_, rfl⟩
    rw [← hv]
    have hc : chk ((n : Int) - m) = some ((n - m : Nat) : Int) := by
      unfold chk; rw [if_pos (by omega)]; congr 1; omega
    rw [hc, ofOpt_some, ok_bind]
    have hset : (segs.set i { sg with numnewpasses := m, newlen := v })[i]? = some { sg with numnewpasses := m, newlen := v } := by
      rw [List.getElem?_set_self hil]
    have hF : Fine sty i { sg with numnewpasses := m, newlen := v } := ⟨hf.is, hf.cap⟩
    by_cases hz : n - m = 0
    · rw [if_neg (by omega)]
      refine ⟨⟨r2, r3.trans hs.mem⟩, by simp, by omega, ?_, ?_, _, hset, rfl, rfl, rfl, rfl⟩
      · refine .last i n _ hset (by show m = n; omega) hn hF (fun h => ?_)
        have := (m2 h).1
        show sg.numpasses + n ≤ sg.maxpasses
        omega
      · intro j hj; rw [List.getElem?_set_ne (by omega)]
    · rw [if_pos (by omega)]
      obtain ⟨segs', mx, g1, g2, g3, g4, g5, g6⟩ := initSeg_safe (segs.set i { sg with numnewpasses := m, newlen := v }) (i + 1) sty false
        (by rw [List.length_set]; omega) (by simp) (fun x hx _ => by
          rw [Nat.add_sub_cancel, hset] at hx
          simp only [Option.some.injEq] at hx
          subst hx
          exact hf.is)
      rw [g1, ofOpt_some, ok_bind]
      have := ih s' segs' (i + 1) (n - m) ⟨r2, r3.trans hs.mem⟩ (by omega) (by omega) (by omega) _ g5 ⟨g4, fun _ => Nat.zero_le _⟩
        (fun _ => by show 0 < mx; rw [g4]; exact (capAt_range sty (i + 1)).1)
      refine this.mono fun r ⟨k1, k2, k3, k4, k5, sg2, k6, k7, k8, k9, k10⟩ => ?_
      have hri : r.2[i]? = some { sg with numnewpasses := m, newlen := v } := by rw [k5 i (by omega), g6 i (by omega), hset]
      refine ⟨k1, by rw [List.length_set] at g3; omega, k3, ?_, ?_, _, hri, rfl, rfl, rfl, rfl⟩
      · refine .more i n _ hri m0 (by show m < n; omega) hF (fun h => (m2 h).2 (by omega)) (fun sg' h => ?_) k4
        rw [k6] at h
        simp only [Option.some.injEq] at h
        rw [← h, k7]
      · intro j hj
        rw [k5 j (by omega), g6 j (by omega), List.getElem?_set_ne (by omega)]

theorem claim_congr {a b : List Seg} {n : Nat} (h : ∀ i : Nat, i < n → (a[i]?).map (fun s => s.len) = (b[i]?).map fun s => s.len) :
    claim a n = claim b n := by
  unfold claim
  congr 1
  apply List.ext_getElem?
  intro i
  simp only [List.getElem?_map, List.getElem?_take]
  split
  · exact h i (by assumption)
  · rfl

theorem claim_succ {a : List Seg} {n : Nat} {sg : Seg} (h : a[n]? = some sg) : claim a (n + 1) = claim a n + sg.len := by
  unfold claim
  rw [List.take_add_one, h]
  simp

/-- A block after its header: ready, and if there are new passes, the segments wait for them. -/
structure Pending (lvl sty B : Nat) (c : DecCblk) : Prop where
  ready : Ready lvl sty B c
  new : c.numnewpasses ≠ 0 → c.numnewpasses ≤ 164 ∧ 3 ≤ c.numlenbits ∧ c.numlenbits ≤ 32 ∧
    ∃ i, dataSeg c = some (i, i + 1) ∧ i ≤ c.numsegs ∧ Waits sty c.segs i c.numnewpasses ∧
      (∀ j sg, j < i → c.segs[j]? = some sg → Fine sty j sg) ∧ (1 ≤ lvl → claim c.segs (i + 1) ≤ held c) ∧
      (2 ≤ lvl → sty &&& 0x40 = 0 → ∀ j sg, j < i → c.segs[j]? = some sg → AllIn sg ∧ sg.numpasses = sg.maxpasses)

theorem aligned_congr {sty n : Nat} {a b : List Seg} (h : ∀ j : Nat, j < n → (a[j]?).map (fun s => s.realNumPasses) = (b[j]?).map fun s => s.realNumPasses)
    (hb : Aligned sty ((b.take n).map fun s => s.realNumPasses)) : Aligned sty ((a.take n).map fun s => s.realNumPasses) := by
  have : (a.take n).map (fun s => s.realNumPasses) = (b.take n).map fun s => s.realNumPasses := by
    apply List.ext_getElem?
    intro i
    simp only [List.getElem?_map, List.getElem?_take]
    split
    · exact h i (by assumption)
    · rfl
  rw [this]; exact hb

theorem header_safe {lvl sty B : Nat} {c : DecCblk} (hr : Ready lvl sty B c) (mem : List UInt8) (s : Bio) (hs : Rd mem s)
    (n nlb : Nat) (hn : 0 < n) (hn2 : n ≤ 164) (h3 : 3 ≤ nlb) (hw : nlb < 2 ^ 32 - 64) :
    Safe (fun (r : Bio × DecCblk) => Rd mem r.1 ∧ Pending lvl sty B r.2 ∧ r.2.numsegs = c.numsegs) (do
      let (segs, segno) ← ofOpt (firstSeg sty c)
      let (s, segs) ← segLoop sty nlb 165 s segs segno n
      return (s, { c with numnewpasses := n, numlenbits := nlb, segs := segs })) := by
  -- where the new passes go first
  have key : ∃ segs i sg, firstSeg sty c = some (segs, i) ∧ segs[i]? = some sg ∧ Fine sty i sg ∧
      (sty &&& 0x40 = 0 → sg.numpasses < sg.maxpasses) ∧ c.numsegs ≤ segs.length ∧ i ≤ c.numsegs ∧ c.numsegs ≤ i + 1 ∧
      (i = c.numsegs → sg.len = 0) ∧ (∀ j : Nat, j < c.numsegs → segs[j]? = c.segs[j]?) ∧
      (c.numsegs ≠ 0 → ∃ sl, segs[c.numsegs - 1]? = some sl ∧ (i = c.numsegs ↔ sl.numpasses = sl.maxpasses)) := by
    unfold firstSeg
    by_cases h0 : c.numsegs = 0
    · rw [if_pos h0]
      obtain ⟨segs', m, g1, g2, g3, g4, g5, g6⟩ := initSeg_safe c.segs 0 sty true (by omega) (by simp) (fun _ _ h => absurd h (Nat.lt_irrefl 0))
      rw [g1, Option.map_some]
      exact ⟨segs', 0, _, rfl, g5, ⟨g4, fun _ => Nat.zero_le _⟩, fun _ => by show 0 < m; rw [g4]; exact (capAt_range _ _).1, by omega, by omega, by omega, fun _ => rfl,
        fun j hj => by omega, fun h => absurd h0 h⟩
    · rw [if_neg h0]
      have hl : c.numsegs - 1 < c.segs.length := by have := hr.range; omega
      obtain ⟨sg, hsg⟩ : ∃ sg, c.segs[c.numsegs - 1]? = some sg := ⟨_, List.getElem?_eq_getElem hl⟩
      have hf := hr.fine _ sg (by omega) hsg
      rw [hsg, Option.bind_some]
      by_cases he : sg.numpasses = sg.maxpasses
      · rw [if_pos he]
        obtain ⟨segs', m, g1, g2, g3, g4, g5, g6⟩ := initSeg_safe c.segs c.numsegs sty false hr.range (by simp; omega) (fun x hx _ => by
          rw [hsg] at hx
          simp only [Option.some.injEq] at hx
          rw [← hx]; exact hf.is)
        rw [g1, Option.map_some]
        exact ⟨segs', c.numsegs, _, rfl, g5, ⟨g4, fun _ => Nat.zero_le _⟩, fun _ => by show 0 < m; rw [g4]; exact (capAt_range _ _).1, by omega, by omega, by omega, fun _ => rfl,
          fun j hj => g6 j hj, fun _ => ⟨sg, by rw [g6 _ (by omega), hsg], by simp [he]⟩⟩
      · rw [if_neg he]
        exact ⟨c.segs, c.numsegs - 1, sg, rfl, hsg, hf, fun h => by have := hf.cap h; omega, hr.range, by omega, by omega, by omega,
          fun _ _ => rfl, fun _ => ⟨sg, hsg, by constructor <;> omega⟩⟩
  obtain ⟨segs, i, sg, e1, e2, e3, e4, e5, e6, e7, e8, e9, e10⟩ := key
  rw [e1, ofOpt_some, ok_bind]
  simp only
  refine Safe.bind (segLoop_safe sty nlb mem h3 hw 165 s segs i n hs hn hn2 (by omega) sg e2 e3 e4) ?_
  rintro ⟨s', segs'⟩ ⟨k1, k2, k3, k4, k5, sg', k6, k7, k8, k9, k10⟩
  simp only at k1 k2 k3 k4 k5 k6
  show Rd mem s' ∧ Pending lvl sty B _ ∧ c.numsegs = c.numsegs
  have hfine : ∀ j sg, j < c.numsegs → segs'[j]? = some sg → Fine sty j sg := by
    intro j x hj hx
    by_cases hji : j < i
    · rw [k5 j hji, e9 j hj] at hx
      exact hr.fine j x hj hx
    · have : j = i := by omega
      subst this
      rw [k6] at hx
      simp only [Option.some.injEq] at hx
      subst hx
      exact ⟨by rw [k9]; exact e3.is, by rw [k8, k9]; exact e3.cap⟩
  have hreal : ∀ j : Nat, j < c.numsegs → (segs'[j]?).map (fun s => s.realNumPasses) = (c.segs[j]?).map fun s => s.realNumPasses := by
    intro j hj
    by_cases hji : j < i
    · rw [k5 j hji, e9 j hj]
    · have : j = i := by omega
      subst this
      rw [← e9 j hj, k6, e2]
      simp [k10]
  have hsync : 2 ≤ lvl → sty &&& 0x40 = 0 → ∀ j sg, j < c.numsegs → segs'[j]? = some sg → AllIn sg ∧ (j + 1 < c.numsegs → sg.numpasses = sg.maxpasses) := by
    intro h2 h40 j x hj hx
    have hs2 := (hr.synced h2 h40).2
    by_cases hji : j < i
    · rw [k5 j hji, e9 j hj] at hx
      exact hs2 j x hj hx
    · have : j = i := by omega
      subst this
      rw [e9 j hj] at e2
      obtain ⟨q1, q2⟩ := hs2 j sg hj e2
      rw [k6] at hx
      simp only [Option.some.injEq] at hx
      subst hx
      exact ⟨by unfold AllIn at *; omega, by rw [k8, k9]; exact q2⟩
  have hlen : ∀ j : Nat, j < c.numsegs → (segs'[j]?).map (fun s => s.len) = (c.segs[j]?).map fun s => s.len := by
    intro j hj
    by_cases hji : j < i
    · rw [k5 j hji, e9 j hj]
    · have : j = i := by omega
      subst this
      rw [← e9 j hj, k6, e2]
      simp [k7]
  have hcl : claim segs' c.numsegs = claim c.segs c.numsegs := claim_congr hlen
  refine ⟨k1, ⟨⟨?_, hr.few, hr.real, fun _ => ⟨h3, k3⟩, hfine, ?_, ?_, fun h2 h40 => ⟨(hr.synced h2 h40).1, hsync h2 h40⟩⟩,
    fun _ => ⟨hn2, h3, k3, i, ?_, e6, k4, ?_, ?_, ?_⟩⟩, rfl⟩
  · show c.numsegs ≤ segs'.length
    omega
  · intro hfu
    show claim segs' c.numsegs ≤ held c
    rw [hcl]
    exact hr.enough hfu
  · exact fun h1 h40 => aligned_congr (fun j hj => hreal j (by have := hr.real; show j < c.numsegs; have : j < c.realNumSegs := hj; omega)) (hr.aligned h1 h40)
  · unfold dataSeg
    show (if c.numsegs = 0 then some (0, 1) else (segs'[c.numsegs - 1]?).map fun sg =>
      if sg.numpasses = sg.maxpasses then (c.numsegs, c.numsegs + 1) else (c.numsegs - 1, c.numsegs)) = some (i, i + 1)
    by_cases h0 : c.numsegs = 0
    · rw [if_pos h0]
      have : i = 0 := by omega
      rw [this]
    · rw [if_neg h0]
      obtain ⟨sl, l1, l2⟩ := e10 h0
      by_cases hi : i = c.numsegs
      · rw [k5 _ (by omega), l1, Option.map_some, if_pos (l2.mp hi), hi]
      · have hi' : c.numsegs - 1 = i := by omega
        rw [hi', k6, Option.map_some]
        rw [hi', e2] at l1
        simp only [Option.some.injEq] at l1
        subst l1
        rw [if_neg (by rw [k8, k9]; exact fun h => hi (l2.mpr h)), show c.numsegs = i + 1 by omega]
  · intro j x hj hx
    exact hfine j x (by omega) hx
  · intro hfu
    show claim segs' (i + 1) ≤ held c
    by_cases hi : i = c.numsegs
    · rw [claim_succ k6, k7, e8 hi, hi, hcl]
      exact hr.enough hfu
    · rw [show i + 1 = c.numsegs by omega, hcl]
      exact hr.enough hfu
  · intro h2 h40 j x hj hx
    obtain ⟨q1, q2⟩ := hsync h2 h40 j x (by omega) hx
    refine ⟨q1, ?_⟩
    by_cases hj1 : j + 1 < c.numsegs
    · exact q2 hj1
    · have hic : i = c.numsegs := by omega
      obtain ⟨sl, l1, l2⟩ := e10 (by omega)
      have hx2 : segs'[j]? = some x := hx
      rw [k5 j hj, show j = c.numsegs - 1 by omega, l1] at hx2
      simp only [Option.some.injEq] at hx2
      rw [← hx2]; exact l2.mp hic

theorem Ready.of_eq {lvl sty B : Nat} {c d : DecCblk} (h : Ready lvl sty B c) (h1 : d.segs = c.segs) (h2 : d.numsegs = c.numsegs)
    (h3 : d.realNumSegs = c.realNumSegs) (h4 : 0 < c.numsegs → d.numlenbits = c.numlenbits) (h5 : d.chunks = c.chunks) : Ready lvl sty B d where
  range := by rw [h1, h2]; exact h.range
  few := by rw [h2]; exact h.few
  real := by rw [h2, h3]; exact h.real
  bits := fun h0 => by rw [h2] at h0; rw [h4 h0]; exact h.bits h0
  fine := by rw [h1, h2]; exact h.fine
  enough := by unfold held; rw [h1, h2, h5]; exact h.enough
  aligned := by rw [h1, h3]; exact h.aligned
  synced := by rw [h1, h2, h3]; exact h.synced

/-- The state of the header loop stays within bounds. -/
structure StOk (t0 : Mem Node) (mem : List UInt8) (q : DecSt) : Prop where
  rd : Rd mem q.s
  incl : Tame t0 q.incl
  imsb : Tame t0 q.imsb

theorem readImsb_safe {lvl sty B : Nat} {c : DecCblk} (hr : Ready lvl sty B c) (h0 : c.numsegs = 0) {t0 : Mem Node} (hm : Mono t0) {k : Nat}
    (hk : Reaches t0 k) {mem : List UInt8} {q : DecSt} (hq : StOk t0 mem q) {bps : Int} (hb : 0 ≤ bps ∧ bps < 2 ^ 31 - 1) :
    ∃ r, readImsb bps k q c = some r ∧ StOk t0 mem r.1 ∧ Ready lvl sty B r.2 ∧ r.2.numlenbits = 3 := by
  obtain ⟨j, s', d', g1, ⟨g2, g3⟩, ⟨g4, g5⟩, g6⟩ := firstTrue_any t0 q.imsb hm k hk hq.imsb q.s hq.rd.safe 1001 0 (by omega) (by omega)
  unfold readImsb
  rw [g1, Option.bind_some]
  simp only
  have hn : (bps % 2 ^ 32).toNat = bps.toNat := by omega
  rw [hn, if_pos (by omega)]
  have key : ∃ r, (if (bps.toNat : Int) + 1 < j then (chk (bps + 1)).bind fun a => (chk (a - j)).map fun r => (r % 2 ^ 32).toNat
     else some (bps.toNat + 1 - j.toNat)) = some r := by
    split
    · unfold chk
      rw [if_pos (by omega), Option.bind_some, if_pos (by omega)]
      exact ⟨_, rfl⟩
    · exact ⟨_, rfl⟩
  obtain ⟨r, hr'⟩ := key
  rw [hr', Option.map_some]
  exact ⟨_, rfl, ⟨⟨g4, g5.trans hq.rd.mem⟩, hq.incl, g6⟩, hr.of_eq rfl rfl rfl (fun h => by omega) rfl, rfl⟩

theorem decBlock_safe {lvl sty B : Nat} {c : DecCblk} (hr : Ready lvl sty B c) {t0 : Mem Node} (hm : Mono t0) {k : Nat}
    (hk : Reaches t0 k) {mem : List UInt8} (hl : mem.length + 16 < 2 ^ 29) {q : DecSt} (hq : StOk t0 mem q) {bps : Int} (hb : 0 ≤ bps ∧ bps < 2 ^ 31 - 1)
    (layno : Nat) :
    Safe (fun r => StOk t0 mem r.1 ∧ Pending lvl sty B r.2) (decBlock sty layno bps k q c) := by
  unfold decBlock
  refine Safe.bind (Q := fun r : Bool × DecSt => StOk t0 mem r.2) (safe_ofOpt ?_) ?_
  · split
    · obtain ⟨b, s', d', g1, ⟨g2, g3⟩, g4, _⟩ := decode_any t0 q.incl hm k hk hq.incl (asI32 ((layno + 1) % 2 ^ 32)) q.s hq.rd.safe
      rw [g1]
      exact ⟨_, rfl, ⟨g2, g3.trans hq.rd.mem⟩, g4, hq.imsb⟩
    · obtain ⟨s', g1, g2, g3, _⟩ := read_spec q.s hq.rd.safe 1 (by omega) (by omega)
      rw [g1]
      exact ⟨_, rfl, ⟨g2, g3.trans hq.rd.mem⟩, hq.incl, hq.imsb⟩
  rintro ⟨b, q1⟩ hq1
  simp only at hq1 ⊢
  by_cases hbf : b = false
  · rw [if_pos hbf]
    exact ⟨hq1, hr.of_eq rfl rfl rfl (fun _ => rfl) rfl, fun h => absurd rfl h⟩
  rw [if_neg hbf]
  refine Safe.bind (Q := fun r : DecSt × DecCblk => StOk t0 mem r.1 ∧ Ready lvl sty B r.2 ∧ 3 ≤ r.2.numlenbits ∧ r.2.numlenbits ≤ 32) (safe_ofOpt ?_) ?_
  · split
    · rename_i h0
      obtain ⟨r, g1, g2, g3, g4⟩ := readImsb_safe hr h0 hm hk hq1 hb
      exact ⟨r, g1, g2, g3, by omega, by omega⟩
    · rename_i h0
      exact ⟨_, rfl, hq1, hr, hr.bits (by omega)⟩
  rintro ⟨q2, c2⟩ ⟨hq2, hr2, hb1, hb2⟩
  simp only at hq2 hr2 hb1 hb2 ⊢
  obtain ⟨n, s1, g1, ⟨g2, g3⟩, g4, g5⟩ := numpasses_total q2.s hq2.rd.safe
  rw [g1, ofOpt_some, ok_bind]
  simp only
  have hm1 : s1.mem = mem := g5.trans hq2.rd.mem
  obtain ⟨inc, s2, e1, e2, e3, e4⟩ := getcomma_total s1 g4 (by rw [hm1]; omega)
  rw [e1, ofOpt_some, ok_bind]
  simp only
  have hct := g4.ct
  rw [hm1] at e2
  have hnl : (c2.numlenbits + inc) % 2 ^ 32 = c2.numlenbits + inc := by omega
  rw [hnl]
  have := header_safe hr2 mem s2 ⟨e3, e4.trans hm1⟩ n (c2.numlenbits + inc) (by omega) g3 (by omega) (by omega)
  have h2 := Safe.bind (P := fun r : DecSt × DecCblk => StOk t0 mem r.1 ∧ Pending lvl sty B r.2) (f := fun r => pure ({ q2 with s := r.1 }, r.2)) this
    (fun a ha => by
      obtain ⟨k1, k2, _⟩ := ha
      exact ⟨⟨k1, hq2.incl, hq2.imsb⟩, k2⟩)
  simp only [bind_assoc, pure_bind] at h2
  exact h2

theorem decBlocks_safe {lvl sty B : Nat} {t0 : Mem Node} (hm : Mono t0) {mem : List UInt8} (hl : mem.length + 16 < 2 ^ 29)
    {bps : Int} (hb : 0 ≤ bps ∧ bps < 2 ^ 31 - 1) (layno : Nat) (cs : List DecCblk) (k : Nat) (q : DecSt) (hq : StOk t0 mem q)
    (hk : ∀ i, k ≤ i → i < k + cs.length → Reaches t0 i) (hr : ∀ c ∈ cs, Ready lvl sty B c) :
    Safe (fun r => StOk t0 mem r.1 ∧ r.2.length = cs.length ∧ ∀ c ∈ r.2, Pending lvl sty B c) (decBlocks sty layno bps k q cs) := by
  induction cs generalizing k q with
  | nil => exact ⟨hq, rfl, by simp⟩
  | cons c cs ih =>
    unfold decBlocks
    refine Safe.bind (decBlock_safe (hr c (by simp)) hm (hk k (by omega) (by simp)) hl hq hb layno) ?_
    rintro ⟨q1, c1⟩ ⟨g1, g2⟩
    refine Safe.bind (ih (k + 1) q1 g1 (fun i h1 h2 => hk i (by omega) (by simp only [List.length_cons]; omega)) (fun c hc => hr c (by simp [hc]))) ?_
    rintro ⟨q2, cs2⟩ ⟨e1, e2, e3⟩
    refine ⟨e1, congrArg (· + 1) e2, fun x hx => ?_⟩
    rcases List.mem_cons.mp hx with rfl | hx
    · exact g2
    · exact e3 x hx

/-- Both trees of a precinct with `w × h` blocks. -/
def Trees (m : Mode) (w h : Nat) (p : DecPrec) : Prop :=
  w * h ≤ 2 ^ 30 ∧ (w * h = 0 → p.nodes = 0) ∧
  (w * h ≠ 0 → ∃ t0, create m w h = some (some (p.nodes, t0)) ∧ Tame t0 p.incl ∧ Tame t0 p.imsb)

/-- A band with `P` of every block. -/
def BandIs (m : Mode) (P : DecCblk → Prop) (b : DecBand) : Prop :=
  b.empty = false → (0 ≤ b.numbps ∧ b.numbps < 2 ^ 31 - 1) ∧ ∃ w h, b.prec.cblks.length = w * h ∧ Trees m w h b.prec ∧ ∀ c ∈ b.prec.cblks, P c

theorem decBands_safe {lvl sty B : Nat} {m : Mode} {mem : List UInt8} (hl : mem.length + 16 < 2 ^ 29) (layno : Nat) (bs : List DecBand)
    (s : Bio) (hs : Rd mem s) (hb : ∀ b ∈ bs, BandIs m (Ready lvl sty B) b) :
    Safe (fun r => Rd mem r.1 ∧ r.2.length = bs.length ∧ ∀ b ∈ r.2, BandIs m (Pending lvl sty B) b) (decBands sty layno s bs) := by
  induction bs generalizing s with
  | nil => exact ⟨hs, rfl, by simp⟩
  | cons b bs ih =>
    have ih' := fun s hs => ih s hs fun b hb' => hb b (by simp [hb'])
    unfold decBands
    by_cases he : b.empty = true
    · rw [if_pos he]
      refine Safe.bind (ih' s hs) ?_
      rintro ⟨s2, bs2⟩ ⟨g1, g2, g3⟩
      refine ⟨g1, congrArg (· + 1) g2, fun x hx => ?_⟩
      rcases List.mem_cons.mp hx with rfl | hx
      · intro h; rw [he] at h; cases h
      · exact g3 x hx
    · rw [if_neg he]
      obtain ⟨hbps, w, h, hc, ⟨ht1, ht2, ht3⟩, hr⟩ := hb b (by simp) (by simpa using he)
      have key : Safe (fun r : DecSt × List DecCblk => Rd mem r.1.s ∧ r.2.length = b.prec.cblks.length ∧
          Trees m w h { b.prec with incl := r.1.incl, imsb := r.1.imsb, cblks := r.2 } ∧ ∀ c ∈ r.2, Pending lvl sty B c)
          (decBlocks sty layno b.numbps 0 ⟨s, b.prec.incl, b.prec.imsb⟩ b.prec.cblks) := by
        by_cases h0 : w * h = 0
        · have : b.prec.cblks = [] := List.length_eq_zero_iff.mp (by omega)
          rw [this]
          exact ⟨hs, rfl, ⟨ht1, ht2, fun h => absurd h0 h⟩, by simp⟩
        · obtain ⟨t0, c1, c2, c3⟩ := ht3 h0
          have hw : 0 < w := by rcases Nat.eq_zero_or_pos w with rfl | e; simp at h0; exact e
          have hh : 0 < h := by rcases Nat.eq_zero_or_pos h with rfl | e; simp at h0; exact e
          obtain ⟨hst, _⟩ := st_create m w h _ t0 hw hh ht1 c1
          refine (decBlocks_safe hst.mono hl hbps layno b.prec.cblks 0 ⟨s, b.prec.incl, b.prec.imsb⟩ ⟨hs, c2, c3⟩
            (fun i _ hi => hst.reach i (by omega)) hr).mono ?_
          rintro ⟨q, cs⟩ ⟨g1, g2, g3⟩
          exact ⟨g1.rd, g2, ⟨ht1, ht2, fun _ => ⟨t0, c1, g1.incl, g1.imsb⟩⟩, g3⟩
      refine Safe.bind key ?_
      rintro ⟨q, cs⟩ ⟨g1, g2, g3, g4⟩
      simp only at g1 g2 g3 g4 ⊢
      refine Safe.bind (ih' q.s g1) ?_
      rintro ⟨s2, bs2⟩ ⟨e1, e2, e3⟩
      refine ⟨e1, congrArg (· + 1) e2, fun x hx => ?_⟩
      rcases List.mem_cons.mp hx with rfl | hx
      · exact fun _ => ⟨hbps, w, h, by show cs.length = _; omega, g3, g4⟩
      · exact e3 x hx

theorem startDec_safe {m : Mode} {P Q : DecCblk → Prop} (h : ∀ c, P c → Q { c with numsegs := 0, realNumSegs := 0 }) (bs : List DecBand)
    (hb : ∀ b ∈ bs, BandIs m P b) : ∃ bs', startDecBands bs = some bs' ∧ bs'.length = bs.length ∧ ∀ b ∈ bs', BandIs m Q b := by
  induction bs with
  | nil => exact ⟨[], rfl, rfl, by simp⟩
  | cons b bs ih =>
    obtain ⟨bs', g1, g2, g3⟩ := ih fun b hb' => hb b (by simp [hb'])
    have key : ∃ b', (if b.empty then some b else (startDec b.prec).map fun p => { b with prec := p }) = some b' ∧ BandIs m Q b' := by
      by_cases he : b.empty = true
      · rw [if_pos he]
        exact ⟨b, rfl, fun h => by rw [he] at h; cases h⟩
      · rw [if_neg he]
        obtain ⟨hbps, w, hh, hc, ⟨ht1, ht2, ht3⟩, hr⟩ := hb b (by simp) (by simpa using he)
        have tr : ∃ i1 i2, reset b.prec.nodes b.prec.incl = some i1 ∧ reset b.prec.nodes b.prec.imsb = some i2 ∧
            Trees m w hh { b.prec with incl := i1, imsb := i2, cblks := b.prec.cblks.map fun c => { c with numsegs := 0, realNumSegs := 0 } } := by
          by_cases h0 : w * hh = 0
          · have hn := ht2 h0
            refine ⟨b.prec.incl, b.prec.imsb, by rw [hn]; rfl, by rw [hn]; rfl, ht1, ht2, fun h => absurd h0 h⟩
          · obtain ⟨t0, c1, c2, c3⟩ := ht3 h0
            have T1 : TreeOk m w hh b.prec.nodes b.prec.incl := by
              unfold TreeOk; rw [if_neg h0]; exact ⟨t0, c1, c2.1⟩
            have T2 : TreeOk m w hh b.prec.nodes b.prec.imsb := by
              unfold TreeOk; rw [if_neg h0]; exact ⟨t0, c1, c3.1⟩
            obtain ⟨u1, a1, a2, a3, _⟩ := (reset_tree ht1 T1).2 h0
            obtain ⟨u2, b1, b2, b3, _⟩ := (reset_tree ht1 T2).2 h0
            rw [c1] at a1 b1
            simp only [Option.some.injEq, Prod.mk.injEq, true_and] at a1 b1
            subst a1
            subst b1
            have tm : Tame t0 t0 := ⟨fun _ => rfl, fun i nd hi => a3.inv.v999 i nd hi⟩
            exact ⟨t0, t0, a2, b2, ht1, ht2, fun _ => ⟨t0, c1, tm, tm⟩⟩
        obtain ⟨i1, i2, r1, r2, r3⟩ := tr
        unfold startDec
        rw [r1, Option.bind_some, r2, Option.map_some, Option.map_some]
        refine ⟨_, rfl, fun _ => ⟨hbps, w, hh, by simp only [List.length_map]; exact hc, r3, fun c hc => ?_⟩⟩
        simp only [List.mem_map] at hc
        obtain ⟨c0, hc0, rfl⟩ := hc
        exact h c0 (hr c0 hc0)
    obtain ⟨b', k1, k2⟩ := key
    unfold startDecBands
    rw [k1, Option.bind_some, g1, Option.map_some]
    refine ⟨_, rfl, by simp only [List.length_cons]; omega, fun x hx => ?_⟩
    rcases List.mem_cons.mp hx with rfl | hx
    · exact k2
    · exact g3 x hx

end Jp2.T2

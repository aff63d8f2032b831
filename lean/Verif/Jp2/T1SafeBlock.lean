import Verif.Jp2.T1Safe
import Verif.Jp2.T2SafeSpec
/-!
# Helpers for C48: whole blocks on any bytes
-/
namespace Jp2.T1
open Jp2.Mqc (Mqc startCtxs CtxsOk DSafe)
open Jp2.T2 (capAt)

/-- The coder while it reads a segment of `len` bytes at `start` of `mem`. -/
structure Reads (raw : Bool) (mem : List UInt8) (start len : Nat) (s : Mqc) : Prop where
  memE : s.mem = mem
  startE : s.start = start
  room : start + len + 1 < mem.length
  g1 : mem[start + len]? = some 255
  g2 : mem[start + len + 1]? = some 255
  ct : s.ct ≤ 8
  ok : CtxsOk s.ctxs
  lenE : s.ctxs.length = 19
  mq : raw = false → s.bp ≤ start + len ∧ 0x8000 ≤ s.a ∧ s.a < 2 ^ 16
  rd : raw = true → s.bp ≤ start + len ∨ (s.bp = start + len + 1 ∧ s.c = 255)

theorem reads_runs (raw : Bool) (mem : List UInt8) (start len : Nat) : Runs mqcCoder (Reads raw mem start len) raw := by
  refine ⟨fun hr s cx h hcx => ?_, fun hr s h => ?_⟩
  · obtain ⟨m1, m2, m3⟩ := h.mq hr
    have hD : DSafe s len := ⟨by rw [h.startE]; exact m1, by rw [h.startE, h.memE]; exact h.room, by rw [h.startE, h.memE]; exact h.g1,
      by rw [h.startE, h.memE]; exact h.g2⟩
    obtain ⟨d, s', k1, _, k2, k3, k4, k5, k6, k7, k8, k9⟩ := Mqc.decode_safe hD h.ct m2 m3 h.ok (by rw [h.lenE]; exact hcx)
    have hst := k9.trans h.startE
    exact ⟨d, s', k1, k8.trans h.memE, hst, h.room, h.g1, h.g2, k3, k6, by rw [k7, h.lenE], fun _ => ⟨by have := k2.bp; rw [hst] at this; exact this, k4, k5⟩,
      fun h => by rw [hr] at h; cases h⟩
  · obtain ⟨d, s', k1, _, k2, k3, k4, k5⟩ := Mqc.rawDecode_safe (s := s) (len := len) (by rw [h.startE, h.memE]; exact h.room) (by rw [h.startE, h.memE]; exact h.g1)
      (by rw [h.startE, h.memE]; exact h.g2) (by rw [h.startE]; exact h.rd hr) h.ct
    obtain ⟨_, _, k6⟩ := Mqc.rawDecode_mem k1
    have hst := k3.trans h.startE
    exact ⟨d, s', k1, k2.trans h.memE, hst, h.room, h.g1, h.g2, k5, by rw [k6]; exact h.ok, by rw [k6]; exact h.lenE, fun h => (by rw [hr] at h; cases h),
      fun _ => by rw [hst] at k4; exact k4⟩

/-- What the coefficients can reach before pass `t` of bit plane `bp1`. -/
def reach (bp1 t : Nat) : Int := 2 ^ 31 - ((2 ^ (if t = 2 then bp1 - 1 else bp1) : Nat) : Int)

structure Bnd (bp1 t L : Nat) (d : List Int) : Prop where
  bp : bp1 ≤ 30
  tE : t ≤ 2
  low : t ≠ 2 → bp1 ≤ 29
  len : d.length = L
  all : ∀ (i : Nat) v, d[i]? = some v → -reach bp1 t ≤ v ∧ v ≤ reach bp1 t

theorem oph_eq : ∀ b < 30, 2 ^ (b + 1) ||| 2 ^ b = 3 * 2 ^ b := by decide
/-- One pass on any bits. -/
theorem decPass_safe {raw : Bool} {mem : List UInt8} {start len o w h : Nat} (ho : o < 4) (st : Style) (b t : Nat) (hr : raw = true → t < 2)
    (s : DS Mqc) (hc : Reads raw mem start len s.c) (hg : s.g.length = cells w h) (hd : Bnd (b + 1) t (w * h) s.d) :
    ∃ s', decPass mqcCoder o w h st raw (b + 1) t s = some s' ∧ Reads raw mem start len s'.c ∧ s'.g.length = cells w h ∧
      Bnd (if t = 2 then b else b + 1) (if t = 2 then 0 else t + 1) (w * h) s'.d := by
  have hC := reads_runs raw mem start len
  have hb := hd.bp
  have ht := hd.tE
  have hP : 2 ^ b ≤ 2 ^ 29 := Nat.pow_le_pow_right (by omega) (by omega)
  have hP1 : 2 ^ (b + 1) = 2 * 2 ^ b := by rw [Nat.pow_succ]; omega
  have hP0 : 0 < 2 ^ b := Nat.pow_pos (by omega)
  have hop := oph_eq b (by omega)
  unfold decPass
  simp only [half_eq, hop]
  obtain ⟨P, hPe⟩ : ∃ P, P = 2 ^ b := ⟨_, rfl⟩
  rw [← hPe] at hP hP1 hP0
  rw [← hPe]
  have hall := hd.all
  by_cases h0 : t = 0
  · subst h0
    have hl := hd.low (by omega)
    have hP2 : P ≤ 2 ^ 28 := hPe ▸ Nat.pow_le_pow_right (by omega) (by omega)
    have e : reach (b + 1) 0 = 2 ^ 31 - 2 * (P : Int) := by
      unfold reach; rw [if_neg (by omega), hP1, Int.natCast_mul]; rfl
    obtain ⟨s', k1, k2, k3, k4, k5, _⟩ := decSigPass_op (M0 := reach (b + 1) 0) (M1 := reach (b + 1) 0) rfl rfl hC ho (oph := ((3 * P : Nat) : Int))
      (by rw [e]; omega) st.vsc s hc hg hd.len hall (fun i v _ => hall i v)
    rw [if_pos rfl, if_neg (by omega), if_neg (by omega)]
    exact ⟨s', k1, k2, k3, hd.bp, by omega, fun _ => hl, k4, k5⟩
  · rw [if_neg h0]
    by_cases h1 : t = 1
    · subst h1
      have hl := hd.low (by omega)
      have e : reach (b + 1) 1 = 2 ^ 31 - 2 * (P : Int) := by
        unfold reach; rw [if_neg (by omega), hP1, Int.natCast_mul]; rfl
      have e2 : reach (b + 1) 2 = 2 ^ 31 - (P : Int) := by
        unfold reach; rw [if_pos rfl, Nat.add_sub_cancel, ← hPe]
      obtain ⟨s', k1, k2, k3, k4, k5, _⟩ := decRefPass_op (M0 := reach (b + 1) 1) (M1 := reach (b + 1) 2) rfl rfl hC (p := (P : Int))
        (by omega) (by rw [e, e2]; omega) (by rw [e2]; omega) s hc hg hd.len (fun i v hv => by have := hall i v hv; rw [e] at this; rw [e2]; omega)
        (fun i v _ => hall i v)
      rw [if_pos rfl, if_neg (by omega), if_neg (by omega)]
      exact ⟨s', k1, k2, k3, hd.bp, by omega, fun h => absurd rfl h, k4, k5⟩
    · rw [if_neg h1]
      have h2 : t = 2 := by omega
      subst h2
      have hr' : raw = false := by
        cases raw with
        | false => rfl
        | true => exact absurd (hr rfl) (by omega)
      subst hr'
      have e2 : reach (b + 1) 2 = 2 ^ 31 - (P : Int) := by
        unfold reach; rw [if_pos rfl, Nat.add_sub_cancel, ← hPe]
      have e0 : reach b 0 = reach (b + 1) 2 := by
        rw [e2]; unfold reach; rw [if_neg (by omega), ← hPe]
      obtain ⟨s', k1, k2, k3, k4, k5, _⟩ := (decClnPass_op (M0 := reach (b + 1) 2) (M1 := reach (b + 1) 2) rfl rfl hC ho (oph := ((3 * P : Nat) : Int))
        (by rw [e2]; omega) st.vsc |>.seqr (b := if st.segsym then decSegsym mqcCoder else Dec.skip)
          (Op.ite (fun _ => decSegsym_op hC) fun _ => Op.skip _)) s hc hg hd.len hall (fun i v _ => hall i v)
      rw [if_pos rfl, if_pos rfl]
      exact ⟨s', k1, k2, k3, by omega, by omega, fun _ => by omega, k4, by rw [e0]; exact k5⟩

theorem start_ok : CtxsOk startCtxs ∧ startCtxs.length = 19 := by
  refine ⟨?_, by decide⟩
  unfold CtxsOk
  decide

/-- The passes of a segment on any bits. -/
theorem decPasses_safe {raw : Bool} {mem : List UInt8} {start len o w h : Nat} (ho : o < 4) (st : Style) (k bp1 t : Nat) (hr : raw = true → bp1 = 0 ∨ t + k ≤ 2)
    (s : DS Mqc) (hc : Reads raw mem start len s.c) (hg : s.g.length = cells w h) (hd : Bnd bp1 t (w * h) s.d) :
    ∃ bp1' t' s', decPasses o w h st raw k bp1 t s = some (bp1', t', s') ∧ Reads raw mem start len s'.c ∧ s'.g.length = cells w h ∧
      Bnd bp1' t' (w * h) s'.d ∧ (bp1' = 0 ∨ t' = (t + k) % 3) ∧ (bp1 = 0 → bp1' = 0) := by
  induction k generalizing bp1 t s with
  | zero =>
    cases bp1 with
    | zero => exact ⟨0, t, s, rfl, hc, hg, hd, Or.inl rfl, fun h => h⟩
    | succ b =>
      refine ⟨b + 1, t, s, rfl, hc, hg, hd, Or.inr ?_, fun h => h⟩
      have := hd.tE; omega
  | succ k ih =>
    cases bp1 with
    | zero => exact ⟨0, t, s, rfl, hc, hg, hd, Or.inl rfl, fun h => h⟩
    | succ b =>
      have ht := hd.tE
      obtain ⟨s1, k1, k2, k3, k4⟩ := decPass_safe ho st b t (fun h => by rcases hr h with h | h <;> omega) s hc hg hd
      unfold decPasses
      rw [k1, Option.bind_some]
      obtain ⟨s2, hs2⟩ : ∃ s2 : DS Mqc, s2 = if st.reset = true ∧ raw = false then { s1 with c := { s1.c with ctxs := startCtxs } } else s1 := ⟨_, rfl⟩
      have hc2 : Reads raw mem start len s2.c ∧ s2.g = s1.g ∧ s2.d = s1.d := by
        rw [hs2]
        split
        · exact ⟨⟨k2.memE, k2.startE, k2.room, k2.g1, k2.g2, k2.ct, start_ok.1, start_ok.2, k2.mq, k2.rd⟩, rfl, rfl⟩
        · exact ⟨k2, rfl, rfl⟩
      simp only [← hs2]
      by_cases h2 : t = 2
      · rw [if_pos h2, if_pos h2] at k4
        rw [if_pos (by omega)]
        obtain ⟨b', t', s', e1, e2, e3, e4, e5, _⟩ := ih b 0 (fun h => by rcases hr h with h | h <;> omega) s2 hc2.1 (by rw [hc2.2.1]; exact k3) (by rw [hc2.2.2]; exact k4)
        exact ⟨b', t', s', e1, e2, e3, e4, by omega, fun h => by omega⟩
      · rw [if_neg h2, if_neg h2] at k4
        rw [if_neg (by omega)]
        obtain ⟨b', t', s', e1, e2, e3, e4, e5, _⟩ := ih (b + 1) (t + 1) (fun h => by rcases hr h with h | h <;> omega) s2 hc2.1 (by rw [hc2.2.1]; exact k3) (by rw [hc2.2.2]; exact k4)
        exact ⟨b', t', s', e1, e2, e3, e4, by omega, fun h => by omega⟩

structure SegInv (w h D : Nat) (q : SegSt) : Prop where
  buf : q.buf.length = D + 2
  ok : CtxsOk q.ctxs
  len : q.ctxs.length = 19
  g : q.g.length = cells w h
  d : Bnd q.bp1 q.t (w * h) q.d

theorem decSegment_safe {o w h n D : Nat} (ho : o < 4) (st : Style) (q : SegSt) (hq : SegInv w h D q) (seg : Nat × Nat) (hl : q.pos + seg.1 ≤ D)
    (hr : rawD st n q.bp1 q.t = true → q.bp1 = 0 ∨ q.t + seg.2 ≤ 2) :
    ∃ q', decSegment o w h n st q seg = some q' ∧ SegInv w h D q' ∧ q'.pos = q.pos + seg.1 ∧ (q'.bp1 = 0 ∨ q'.t = (q.t + seg.2) % 3) ∧
      (q.bp1 = 0 → q'.bp1 = 0) := by
  obtain ⟨raw, hraw⟩ : ∃ raw, raw = rawD st n q.bp1 q.t := ⟨_, rfl⟩
  rw [← hraw] at hr
  have hb := hq.buf
  have hroom : q.pos + seg.1 + 1 < q.buf.length := by omega
  obtain ⟨mem, hmem⟩ : ∃ mem, mem = (q.buf.set (q.pos + seg.1) (255 : UInt8)).set (q.pos + seg.1 + 1) 255 := ⟨_, rfl⟩
  have hgd := Mqc.guard_any hroom
  obtain ⟨hg1, hg2, hg3⟩ := Mqc.guard_get hroom
  rw [← hmem] at hgd hg1 hg2 hg3
  have hinit : ∃ c, (if raw = true then Mqc.rawInitDec q.buf q.pos seg.1 q.ctxs else Mqc.initDec q.buf q.pos seg.1 q.ctxs) = some c ∧
      Reads raw mem q.pos seg.1 c := by
    cases raw with
    | true =>
      rw [if_pos rfl]
      refine ⟨⟨mem, q.pos, q.pos, 0, 0, 0, q.ctxs⟩, ?_, rfl, rfl, by rw [hg3]; exact hroom, hg1, hg2, by show 0 ≤ 8; omega, hq.ok, hq.len, fun h => (by cases h),
        fun _ => Or.inl (Nat.le_add_right _ _)⟩
      unfold Mqc.rawInitDec
      rw [hgd]; rfl
    | false =>
      rw [if_neg (by decide)]
      obtain ⟨c, k1, k2, k3, k4, k5, k6, k7⟩ := Mqc.initDec_safe q.ctxs hroom
      refine ⟨c, k1, k7.trans hmem.symm, k6, by rw [hg3]; exact hroom, hg1, hg2, k3, by rw [k5]; exact hq.ok, by rw [k5]; exact hq.len,
        fun _ => ⟨by have := k2.bp; rw [k6] at this; exact this, by omega, by omega⟩, fun h => by cases h⟩
  obtain ⟨c, c1, c2⟩ := hinit
  obtain ⟨bp1', t', s', p1, p2, p3, p4, p5, p6⟩ := decPasses_safe ho st seg.2 q.bp1 q.t hr ⟨c, q.g, q.d⟩ c2 hq.g hq.d
  have hfin : Mqc.guard q.buf q.pos seg.1 = some s'.c.mem := by rw [hgd, p2.memE]
  obtain ⟨b0, b1, c', f1, f2, f3, f4, f5⟩ := Mqc.finish_any (by omega) hfin p2.startE
  refine ⟨⟨c'.mem, c'.ctxs, s'.g, s'.d, bp1', t', q.pos + seg.1⟩, ?_, ⟨by show c'.mem.length = _; rw [f4]; exact hb, by show CtxsOk c'.ctxs; rw [f5]; exact p2.ok,
    by show c'.ctxs.length = _; rw [f5]; exact p2.lenE, p3, p4⟩, rfl, p5, p6⟩
  unfold decSegment
  rw [f1, Option.bind_some, f2, Option.bind_some]
  simp only [← hraw]
  rw [c1, Option.bind_some, p1, Option.bind_some]
  simp only [f3, Option.map_some]

/-- The pass a segment starts with. -/
def startsWith (i : Nat) : Nat := if i % 2 = 1 then 0 else 2

theorem decSegments_safe {o w h n D sty : Nat} (ho : o < 4) (st : Style) (hb : st.bypass = true → sty &&& 1 ≠ 0) (ht : st.termall = decide (sty &&& 4 ≠ 0))
    (l : List (Nat × Nat)) (i : Nat) (q : SegSt) (hq : SegInv w h D q) (hl : q.pos + (l.map Prod.fst).sum ≤ D)
    (hal : st.bypass = true → ∀ (j p : Nat), (l.map Prod.snd)[j]? = some p → p ≤ capAt sty (i + j) ∧ (j + 1 < l.length → p = capAt sty (i + j)))
    (hs : l ≠ [] → st.bypass = true → st.termall = false → q.bp1 = 0 ∨ q.t = startsWith i) :
    ∃ q', decSegments o w h n st q l = some q' ∧ SegInv w h D q' := by
  induction l generalizing i q with
  | nil => exact ⟨q, rfl, hq⟩
  | cons sg l ih =>
    rw [List.map_cons, List.sum_cons] at hl
    have hcap : st.bypass = true → capAt sty i = if st.termall = true then 1 else if i = 0 then 10 else if i % 2 = 1 then 2 else 1 := by
      intro h
      unfold capAt
      rw [ht]
      by_cases h4 : sty &&& 4 ≠ 0
      · rw [if_pos h4, if_pos (decide_eq_true h4)]
      · rw [if_neg h4, if_pos (hb h), if_neg (c := decide (sty &&& 4 ≠ 0) = true) (fun h => h4 (of_decide_eq_true h))]
    have h0 : st.bypass = true → sg.2 ≤ capAt sty i ∧ (0 < l.length → sg.2 = capAt sty i) := fun h => by
      obtain ⟨a, b⟩ := hal h 0 sg.2 (by simp)
      exact ⟨a, fun hl => b (by rw [List.length_cons]; omega)⟩
    obtain ⟨q1, k1, k2, k3, k4, k5⟩ := decSegment_safe (n := n) ho st q hq sg (by omega) (by
      intro hraw
      unfold rawD at hraw
      simp only [Bool.and_eq_true, decide_eq_true_eq] at hraw
      obtain ⟨⟨_, hlt⟩, hby⟩ := hraw
      have h1 := (h0 hby).1
      rw [hcap hby] at h1
      by_cases htm : st.termall = true
      · rw [if_pos htm] at h1; right; omega
      · rw [if_neg htm] at h1
        rcases hs (by simp) hby (by simpa using htm) with h | h
        · exact Or.inl h
        · unfold startsWith at h
          split at h
          · rw [if_neg (by omega), if_pos (by assumption)] at h1
            right; omega
          · omega)
    unfold decSegments
    rw [k1, Option.bind_some]
    refine ih (i + 1) q1 k2 (by omega) (fun h j p hp => ?_) (fun hne hby htm => ?_)
    · obtain ⟨a, b⟩ := hal h (j + 1) p (by simpa using hp)
      rw [show i + 1 + j = i + (j + 1) by omega]
      exact ⟨a, fun hlt => b (by rw [List.length_cons]; omega)⟩
    · have h1 := (h0 hby).2 (List.length_pos_iff.mpr hne)
      rw [hcap hby, if_neg (by simpa using htm)] at h1
      rcases k4 with k4 | k4
      · exact Or.inl k4
      · rcases hs (by simp) hby htm with h | h
        · exact Or.inl (k5 h)
        · right
          rw [k4, h, h1]
          unfold startsWith
          by_cases e0 : i = 0
          · subst e0; decide
          · rw [if_neg e0]
            by_cases e1 : i % 2 = 1
            · rw [if_pos e1, if_pos e1, if_neg (by omega)]
            · rw [if_neg e1, if_neg e1, if_pos (by omega)]

end Jp2.T1

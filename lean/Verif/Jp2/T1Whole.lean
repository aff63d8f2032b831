import Verif.Jp2.T1Code
/-!
# A whole code block: encoder, segments, decoder
-/
namespace Jp2.T1
open Jp2.Mqc (Mqc startCtxs RE0 bytes Fresh)

/-- A segment, from the state the coder is in when its first pass starts. -/
theorem seg_from {st : Style} {raw : Bool} {mem0 : List UInt8} {p start : Nat} {ctxs0 : List Nat} {s0 s' : Mqc} {init rest : List PI} {last : PI} {ps : List Pass}
    (hroom : mem0.length + 4 ≤ 2 ^ 32) (hst : start ≤ p) (hstart : s0.start = start)
    (hs0 : (raw = false ∧ Fresh s0 ∧ p = s0.bp + 1 ∧ s0.mem = mem0 ∧ s0.ctxs = ctxs0) ∨
      (raw = true ∧ ∃ s, Mqc.bypassInitEnc s = some s0 ∧ (st.reset = true → s.ctxs = startCtxs) ∧ p = s.bp ∧ s.mem = mem0 ∧ s.ctxs = ctxs0 ∧ s.start = start))
    (hinit : ∀ x ∈ init, x.term = false ∧ x.raw = raw) (hlast : last.term = true ∧ last.raw = raw)
    (hb : ∀ x ∈ init ++ [last], ∀ q ∈ x.tr, q.2 ≤ 1) (h : codeLoop st false s0 (init ++ last :: rest) = some (s', ps)) :
    ∃ s1 qs ps', SegR mem0 p ctxs0 s1 raw st.reset ((init ++ [last]).map PI.tr) ∧ s1.start = start ∧
      codeLoop st true (rst st.reset s1) rest = some (s', ps') ∧ ps = qs ++ ⟨true, numbytes32 s1, 0⟩ :: ps' ∧ qs.length = init.length ∧
      ∀ q ∈ qs, q.term = false ∧ p - start ≤ q.rate := by
  have hmid : Mid raw mem0 p s0 := by
    rcases hs0 with ⟨h1, h2, h3, h4, h5⟩ | ⟨h1, s, h2, h3, h4, h5, h6, h7⟩
    · subst h1
      unfold Mid
      simp only [Bool.false_eq_true, if_false]
      exact ⟨s0.bp, [], h3, by rw [← h4]; exact Mqc.fresh_es h2, by rw [h2.a]⟩
    · subst h1
      unfold Mid
      simp only [if_true]
      obtain ⟨i1, _⟩ := Mqc.bypassInit_spec h2
      exact ⟨[], [], by rw [h4, ← h5]; exact i1⟩
  obtain ⟨t, t1, s1, qs, ps', k1, k2, k3, k4, k5, k6, k7⟩ := mid_run hlast hst hroom init hmid hstart hinit
    (fun x hx => hb x (List.mem_append_left _ hx)) h
  have hmap : (init ++ [last]).map PI.tr = init.map PI.tr ++ [last.tr] := by simp
  have hbt : ∀ x ∈ init.map PI.tr ++ [last.tr], ∀ q ∈ x, q.2 ≤ 1 := by
    rw [← hmap]
    intro x hx
    obtain ⟨z, hz, rfl⟩ := List.mem_map.mp hx
    exact hb z hz
  rw [hmap]
  rcases hs0 with ⟨h1, h2, h3, h4, h5⟩ | ⟨h1, s, h2, h3, h4, h5, h6, h7⟩
  · subst h1
    obtain ⟨g1, g2⟩ := mqSeg_ok h2 hbt k1 k2 k3
    rw [h4, ← h3, h5] at g1
    exact ⟨s1, qs, ps', g1, g2.trans hstart, k4, k5, k6, k7⟩
  · subst h1
    obtain ⟨g1, g2⟩ := rawSeg_ok h2 h3 hbt k1 k2 k3
    rw [h5, ← h4, h6] at g1
    exact ⟨s1, qs, ps', g1, g2.trans h7, k4, k5, k6, k7⟩

theorem codeLoop_start {st : Style} {s : Mqc} {x : PI} {l : List PI} {r : Mqc × List Pass} (h : codeLoop st true s (x :: l) = some r) :
    ∃ s0, (if x.raw then Mqc.bypassInitEnc s else Mqc.restartInitEnc s) = some s0 ∧ codeLoop st false s0 (x :: l) = some r := by
  unfold codeLoop codeItem at h
  rw [Option.bind_eq_some_iff] at h
  obtain ⟨q, h1, h⟩ := h
  rw [if_pos rfl, Option.bind_eq_some_iff] at h1
  obtain ⟨s0, h2, h1⟩ := h1
  refine ⟨s0, h2, ?_⟩
  unfold codeLoop codeItem
  rw [if_neg (by simp), Option.bind_some, h1, Option.bind_some]
  exact h

theorem codeLoop_startsAt {st : Style} {s : Mqc} {x : PI} {l : List PI} {r : Mqc × List Pass} (h : codeLoop st true s (x :: l) = some r) : s.start ≤ s.bp := by
  obtain ⟨s0, h0, _⟩ := codeLoop_start h
  split at h0
  · unfold Mqc.bypassInitEnc at h0
    split at h0
    · simp at h0
    · omega
  · unfold Mqc.restartInitEnc at h0
    split at h0
    · simp at h0
    · omega

section
variable (o w h n : Nat) (st : Style) (data : List Nat)

/-- What the decoder makes of the first `m` segments of a block, starting with `b1` planes to go and pass `t`. -/
def Decodes (mem : List UInt8) (p : Nat) (ctxs0 : List Nat) (items : List PI) (segs : List (Nat × Nat)) : Prop :=
  ∀ (fuel b1 t : Nat) (F F' G : List Word) (D : List Int), t < 3 → b1 ≤ 25 → traceLoop o w h n st data fuel b1 t F = some (items, F') →
    Inv w h data b1 t F G D → ∀ (m : Nat) (buf : List UInt8) (off : Nat), m ≤ segs.length →
    bytes buf off (off + ((segs.take m).map Prod.fst).sum) = bytes mem p (p + ((segs.take m).map Prod.fst).sum) →
    off + ((segs.take m).map Prod.fst).sum + 2 ≤ buf.length →
    ∃ q fuel' F'', decSegments o w h n st ⟨buf, ctxs0, G, D, b1, t, off⟩ (segs.take m) = some q ∧ q.t < 3 ∧ q.bp1 ≤ 25 ∧
      traceLoop o w h n st data fuel' q.bp1 q.t F'' = some (items.drop ((segs.take m).map Prod.snd).sum, F') ∧ Inv w h data q.bp1 q.t F'' q.g q.d

/-- What the coder guarantees of all the remaining passes. -/
structure RestOk (mem0 : List UInt8) (p start : Nat) (ctxs0 : List Nat) (items : List PI) (s' : Mqc) (ps : List Pass) (segs : List (Nat × Nat)) : Prop where
  len : s'.mem.length = mem0.length
  le : p ≤ s'.bp
  fits : s'.bp ≤ mem0.length
  low : ∀ i, i < p → s'.mem[i]? = mem0[i]?
  startEq : s'.start = start
  rates : Rates s'.mem start (p - start) ps segs
  sum : (segs.map Prod.fst).sum = s'.bp - p
  cnt : (segs.map Prod.snd).sum = items.length
  dec : Decodes o w h n st data s'.mem p ctxs0 items segs

theorem rest_cons {o w h n : Nat} {st : Style} {data : List Nat} (hd : ∀ i, data.getD i 0 < 2 ^ 32)
    {mem0 : List UInt8} {p start : Nat} {ctxs0 : List Nat} {raw : Bool} {init rest : List PI} {last : PI} {s1 s' : Mqc} {qs ps' : List Pass} {segs : List (Nat × Nat)}
    (hinit : ∀ x ∈ init, x.term = false ∧ x.raw = raw) (hlast : last.raw = raw)
    (hroom : mem0.length + 4 ≤ 2 ^ 32) (hst : start ≤ p) (hseg : SegR mem0 p ctxs0 s1 raw st.reset ((init ++ [last]).map PI.tr)) (hs1 : s1.start = start)
    (hqs : qs.length = init.length) (hq : ∀ q ∈ qs, q.term = false ∧ p - start ≤ q.rate)
    (hrest : RestOk o w h n st data s1.mem s1.bp start (rst st.reset s1).ctxs rest s' ps' segs) :
    RestOk o w h n st data mem0 p start ctxs0 (init ++ last :: rest) s' (qs ++ ⟨true, numbytes32 s1, 0⟩ :: ps') ((s1.bp - p, init.length + 1) :: segs) := by
  have hle := hseg.le
  have hfit := hseg.fits
  have hr' : numbytes32 s1 = s1.bp - start := by unfold numbytes32; rw [hs1]; omega
  have hlen := hrest.len
  have hrl := hrest.le
  refine ⟨hlen.trans hseg.len, by omega, by rw [← hseg.len]; exact hrest.fits, fun i hi => (hrest.low i (by omega)).trans (hseg.low i hi), hrest.startEq, ?_, ?_, ?_, ?_⟩
  · rw [hr']
    have hg : Good s'.mem start (s1.bp - start) := by
      intro h1
      obtain ⟨b, hb, hne⟩ := hseg.last
      refine ⟨b, ?_, hne⟩
      rw [show start + (s1.bp - start - 1) = s1.bp - 1 by omega, hrest.low _ (by omega)]
      exact hb
    have := Rates.seg hq (show p - start ≤ s1.bp - start by omega) hg hrest.rates
    rw [hqs, show s1.bp - start - (p - start) = s1.bp - p by omega] at this
    exact this
  · have := hrest.sum
    simp only [List.map_cons, List.sum_cons]
    omega
  · have := hrest.cnt
    simp only [List.map_cons, List.sum_cons, List.length_append, List.length_cons]
    omega
  · intro fuel b1 t F F' G D ht hb1 htr hI m buf off hm hbuf hbl
    cases m with
    | zero =>
      refine ⟨⟨buf, ctxs0, G, D, b1, t, off⟩, fuel, F, rfl, ht, hb1, ?_, hI⟩
      simpa using htr
    | succ m =>
      simp only [List.take_succ_cons, List.map_cons, List.sum_cons] at hbuf hbl ⊢
      obtain ⟨L, hL⟩ : ∃ L, L = ((segs.take m).map Prod.fst).sum := ⟨_, rfl⟩
      rw [← hL] at hbuf hbl
      have hLle : L ≤ s'.bp - s1.bp := by
        rw [hL, ← hrest.sum]
        have := List.take_append_drop m segs
        conv_rhs => rw [← this]
        rw [List.map_append, List.sum_append]
        omega
      have hbA := Mqc.bytes_sub' hbuf 0 (s1.bp - p) (by omega)
      have hbB := Mqc.bytes_sub' hbuf (s1.bp - p) L (by omega)
      rw [Nat.add_zero, Nat.add_zero, show p + (s1.bp - p) = s1.bp by omega, Mqc.bytes_congr hrest.low] at hbA
      rw [show p + (s1.bp - p) = s1.bp by omega] at hbB
      obtain ⟨b0, bb1, c, c', cf, z1, z2, z3, z4, z5, z6, z7⟩ := hseg.dec buf off hbA (by omega)
      have htake : (init ++ last :: rest).take (init.length + 1) = init ++ [last] := by
        rw [show init ++ last :: rest = (init ++ [last]) ++ rest by simp, List.take_left' (by simp)]
      have hdrop : (init ++ last :: rest).drop (init.length + 1) = rest := by
        rw [show init ++ last :: rest = (init ++ [last]) ++ rest by simp, List.drop_left' (by simp)]
      obtain ⟨fuel', b1', t', F1, G', D', g1, g2, g3, g4, g5⟩ := decPasses_sim hd (raw := raw) (init.length + 1) fuel b1 t ht hb1 htr
        (by simp) (by
          rw [htake]
          intro x hx
          rcases List.mem_append.mp hx with hx | hx
          · exact (hinit x hx).2
          · simp at hx; rw [hx]; exact hlast) (by rw [htake]; exact z4) hI
      rw [hdrop] at g4
      have hraw : rawD st n b1 t = raw := by
        rcases trace_head htr with ⟨_, g⟩ | ⟨b', x, l, e1, e2, e3, e4⟩
        · simp at g
        · have : x.raw = raw := by
            cases init with
            | nil => simp at e2; rw [← e2.1]; exact hlast
            | cons y init => simp at e2; rw [← e2.1]; exact (hinit y List.mem_cons_self).2
          rw [← this, e3, e1]
          unfold rawD rawE
          congr 2
      have hseg1 : decSegment o w h n st ⟨buf, ctxs0, G, D, b1, t, off⟩ (s1.bp - p, init.length + 1) =
          some ⟨buf, (rst st.reset s1).ctxs, G', D', b1', t', off + (s1.bp - p)⟩ := by
        unfold decSegment
        dsimp only
        rw [hraw, z1, Option.bind_some, z2, Option.bind_some, z3, Option.bind_some, g1, Option.bind_some]
        simp only [z5, Option.map_some, z6, z7]
      obtain ⟨q, fuel2, F2, k1, k2, k3, k4, k5⟩ := hrest.dec fuel' b1' t' F1 F' G' D' g2 g3 g4 g5 m buf (off + (s1.bp - p)) (by simpa using hm)
        (by rw [← hL]; exact hbB) (by rw [← hL]; omega)
      refine ⟨q, fuel2, F2, ?_, k2, k3, ?_, k5⟩
      · unfold decSegments
        rw [hseg1, Option.bind_some]
        exact k1
      · rw [← List.drop_drop, hdrop]
        exact k4

theorem rest_nil {o w h n : Nat} {st : Style} {data : List Nat} {s : Mqc} (hle : s.bp ≤ s.mem.length) :
    RestOk o w h n st data s.mem s.bp s.start s.ctxs [] s [] [] := by
  refine ⟨rfl, Nat.le_refl _, hle, fun _ _ => rfl, rfl, .nil _, by simp, rfl, ?_⟩
  intro fuel b1 t F F' G D ht hb1 htr hI m buf off hm hbuf hbl
  refine ⟨⟨buf, s.ctxs, G, D, b1, t, off⟩, fuel, F, by simp [decSegments], ht, hb1, ?_, hI⟩
  simpa using htr

theorem rest_all {o w h n : Nat} {st : Style} {data : List Nat} (hd : ∀ i, data.getD i 0 < 2 ^ 32) :
    ∀ (N : Nat) (items : List PI) {s s' : Mqc} {ps : List Pass}, items.length ≤ N → Chain items → (∀ p ∈ items, ∀ q ∈ p.tr, q.2 ≤ 1) →
    s.mem.length + 4 ≤ 2 ^ 32 → s.bp ≤ s.mem.length → (st.reset = true → s.ctxs = startCtxs) → codeLoop st true s items = some (s', ps) →
    ∃ segs, RestOk o w h n st data s.mem s.bp s.start s.ctxs items s' ps segs := by
  intro N
  induction N with
  | zero =>
    intro items s s' ps hN _ _ _ hle _ h
    have : items = [] := List.length_eq_zero_iff.mp (by omega)
    subst this
    injection h with h
    injection h with h1 h2
    subst h1 h2
    exact ⟨[], rest_nil hle⟩
  | succ N ih =>
    intro items s s' ps hN hch hb hroom hle hrs h
    cases hi : items with
    | nil =>
      subst hi
      injection h with h
      injection h with h1 h2
      subst h1 h2
      exact ⟨[], rest_nil hle⟩
    | cons x l =>
      rw [← hi]
      obtain ⟨init, last, rest, h1, h2, h3, h4, h5⟩ := chain_split items (by rw [hi]; simp) hch
      have hxraw := h5 x (by rw [hi]; rfl)
      have hst : s.start ≤ s.bp := by rw [hi] at h; exact codeLoop_startsAt h
      obtain ⟨s0, g1, g2⟩ : ∃ s0, (if x.raw then Mqc.bypassInitEnc s else Mqc.restartInitEnc s) = some s0 ∧ codeLoop st false s0 items = some (s', ps) := by
        rw [hi] at h ⊢; exact codeLoop_start h
      rw [hxraw] at g1
      rw [h1] at g2
      have hb' : ∀ z ∈ init ++ [last], ∀ q ∈ z.tr, q.2 ≤ 1 := by
        intro z hz
        apply hb z
        rw [h1]
        rcases List.mem_append.mp hz with hz | hz
        · exact List.mem_append_left _ hz
        · simp at hz; rw [hz]; simp
      have hfrom : ∃ s1 qs ps', SegR s.mem s.bp s.ctxs s1 last.raw st.reset ((init ++ [last]).map PI.tr) ∧ s1.start = s.start ∧
          codeLoop st true (rst st.reset s1) rest = some (s', ps') ∧ ps = qs ++ ⟨true, numbytes32 s1, 0⟩ :: ps' ∧ qs.length = init.length ∧
          ∀ q ∈ qs, q.term = false ∧ s.bp - s.start ≤ q.rate := by
        cases hr : last.raw with
        | true =>
          rw [hr] at g1 h2
          simp only [if_true] at g1
          exact seg_from hroom hst (Mqc.bypassInit_spec g1).2.1 (Or.inr ⟨rfl, s, g1, hrs, rfl, rfl, rfl, rfl⟩) h2 ⟨h3, hr⟩ hb' g2
        | false =>
          rw [hr] at g1 h2
          simp only [Bool.false_eq_true, if_false] at g1
          obtain ⟨r1, r2, r3, r4, r5⟩ := Mqc.restart_fresh g1
          exact seg_from hroom hst r5 (Or.inl ⟨rfl, r1, r2.symm, r3, r4⟩) h2 ⟨h3, hr⟩ hb' g2
      obtain ⟨s1, qs, ps', k1, k2, k3, k4, k5, k6⟩ := hfrom
      obtain ⟨r1, r2, r3, _⟩ := rst_fields st.reset s1
      have hk1 := k1.len
      have hk2 := k1.fits
      obtain ⟨segs, hrest⟩ := ih rest (by rw [h1] at hN; simp at hN; omega) h4
        (fun p hp => hb p (by rw [h1]; exact List.mem_append_right _ (List.mem_cons_of_mem _ hp)))
        (by rw [r1]; omega) (by rw [r1, r3]; omega) (fun hr => by unfold rst; rw [if_pos hr]) k3
      rw [r1, r3, r2, k2] at hrest
      rw [h1, k4]
      exact ⟨_, rest_cons hd h2 rfl hroom hst k1 k2 k5 k6 hrest⟩

/-- All the passes of a block. -/
theorem block_all {o w h n : Nat} {st : Style} {data : List Nat} (hd : ∀ i, data.getD i 0 < 2 ^ 32) {items : List PI} {s0 s' : Mqc} {ps : List Pass}
    (hf : Fresh s0) (hstart : s0.start = s0.bp + 1) (hcx : s0.ctxs = startCtxs) (hroom : s0.mem.length + 4 ≤ 2 ^ 32) (hne : items ≠ [])
    (hch : Chain items) (hraw : ∀ x, items.head? = some x → x.raw = false)
    (hb : ∀ p ∈ items, ∀ q ∈ p.tr, q.2 ≤ 1) (hc : codeLoop st false s0 items = some (s', ps)) :
    ∃ segs, RestOk o w h n st data s0.mem s0.start s0.start startCtxs items s' ps segs := by
  obtain ⟨init, last, rest, h1, h2, h3, h4, h5⟩ := chain_split items hne hch
  have hlr : last.raw = false := by
    obtain ⟨x, hx⟩ : ∃ x, items.head? = some x := by
      cases items with
      | nil => exact absurd rfl hne
      | cons x l => exact ⟨x, rfl⟩
    rw [← h5 x hx]
    exact hraw x hx
  rw [hlr] at h2
  have hb' : ∀ z ∈ init ++ [last], ∀ q ∈ z.tr, q.2 ≤ 1 := by
    intro z hz
    apply hb z
    rw [h1]
    rcases List.mem_append.mp hz with hz | hz
    · exact List.mem_append_left _ hz
    · simp at hz; rw [hz]; simp
  rw [h1] at hc
  obtain ⟨s1, qs, ps', k1, k2, k3, k4, k5, k6⟩ := seg_from hroom (Nat.le_refl s0.start) rfl (Or.inl ⟨rfl, hf, hstart, rfl, hcx⟩) h2 ⟨h3, hlr⟩ hb' hc
  obtain ⟨r1, r2, r3, _⟩ := rst_fields st.reset s1
  have hk1 := k1.len
  have hk2 := k1.fits
  obtain ⟨segs, hrest⟩ := rest_all (o := o) (w := w) (h := h) (n := n) hd rest.length rest (Nat.le_refl _) h4
    (fun p hp => hb p (by rw [h1]; exact List.mem_append_right _ (List.mem_cons_of_mem _ hp)))
    (by rw [r1]; omega) (by rw [r1, r3]; omega) (fun hr => by unfold rst; rw [if_pos hr]) k3
  rw [r1, r3, r2, k2] at hrest
  rw [h1, k4]
  exact ⟨_, rest_cons hd h2 hlr hroom (Nat.le_refl _) k1 k2 k5 k6 hrest⟩

end
end Jp2.T1

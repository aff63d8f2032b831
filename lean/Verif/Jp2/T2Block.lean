import Verif.Jp2.T2Head
/-!
# Packet headers: one block
-/
namespace Jp2.T2
open Jp2.Bio Jp2.Tgt
open T1 (segsOf)

def view (s : Seg) : Nat × Nat := (s.len, s.realNumPasses)

/-- Where the last segment stands: full and followed by `rest` in new segments, or open. -/
def Stand (sty : Nat) (qs rest : List T1.Pass) (mp kk : Nat) : Prop :=
  (qs.getLast?.map (fun p => p.term) = some true ∧ kk = mp ∧ Agr sty (nextCap sty mp) 0 rest) ∨
  (qs.getLast?.map (fun p => p.term) = some false ∧ kk < mp ∧ Agr sty mp kk rest)

/-- Encoder and decoder agree on a block of which `K` passes have been sent. -/
structure Sync (sty K : Nat) (c : EncCblk) (d : DecCblk) : Prop where
  ok : BlockOk sty c
  np : c.numpasses = K
  le : K ≤ c.passes.length
  zero : K = 0 → d.numsegs = 0 ∧ d.numbps = 0 ∧ d.chunks = []
  real : d.realNumSegs = d.numsegs
  segs : (d.segs.take d.numsegs).map view = segsOf 0 0 (c.passes.take K)
  data : d.chunks.flatten = c.data.take (size (c.passes.take K))
  later : K ≠ 0 → 3 ≤ c.numlenbits ∧ c.numlenbits ≤ 25 ∧ d.numlenbits = c.numlenbits ∧ d.numbps = c.numbps ∧
    ∃ pre cur, d.numsegs = pre.length + 1 ∧ d.segs.take d.numsegs = pre ++ [cur] ∧ cur.maxpasses ≤ 109 ∧ cur.realNumPasses = cur.numpasses ∧
      (c.passes.drop K ≠ [] → Stand sty (c.passes.take K) (c.passes.drop K) cur.maxpasses cur.numpasses)

/-- The decoder has read the header announcing `n` more passes of a block. -/
structure Mid (sty K n : Nat) (c : EncCblk) (d : DecCblk) : Prop where
  new : d.numnewpasses = n
  none : n = 0 → Sync sty K c d
  ok : BlockOk sty c
  np : c.numpasses = K
  le : K + n ≤ c.passes.length
  some : n ≠ 0 → 3 ≤ c.numlenbits ∧ c.numlenbits ≤ 25 ∧ d.numlenbits = c.numlenbits ∧ d.numbps = c.numbps ∧
    d.chunks.flatten = c.data.take (size (c.passes.take K)) ∧
    ∃ pre cur junk, d.segs = pre ++ (pend sty cur (segsOf 0 0 ((c.passes.drop K).take n)) ++ junk) ∧
      dataSeg d = some (pre.length, pre.length + 1) ∧ cur.maxpasses ≤ 109 ∧ cur.numpasses ≤ cur.maxpasses ∧
      Caps sty cur.maxpasses cur.numpasses (segsOf 0 0 ((c.passes.drop K).take n)) ∧
      pre.map view ++ segsOf cur.len cur.numpasses ((c.passes.drop K).take n) = segsOf 0 0 (c.passes.take (K + n)) ∧
      (c.passes.drop (K + n) ≠ [] → Stand sty (c.passes.take (K + n)) (c.passes.drop (K + n))
        (endPos sty cur.maxpasses cur.numpasses (segsOf 0 0 ((c.passes.drop K).take n))).1
        (endPos sty cur.maxpasses cur.numpasses (segsOf 0 0 ((c.passes.drop K).take n))).2)

theorem take_add' {α : Type} (l : List α) (K n : Nat) : l.take (K + n) = l.take K ++ (l.drop K).take n := by
  rw [List.take_add]

theorem getLast?_take_add (ps : List T1.Pass) (K n : Nat) (h : (ps.drop K).take n ≠ []) :
    (ps.take (K + n)).getLast? = some (((ps.drop K).take n).getLast h) := by
  rw [take_add', List.getLast?_append_of_ne_nil _ h, List.getLast?_eq_some_getLast h]

/-- Which segment new passes go to. -/
theorem firstSeg_eq {sty K n : Nat} {c : EncCblk} {d : DecCblk} (h : Sync sty K c d) (hn : n ≠ 0) (hle : K + n ≤ c.passes.length) :
    ∃ pre cur junk, firstSeg sty d = some (pre ++ cur :: junk, pre.length) ∧
      (∀ d' : DecCblk, d'.numsegs = d.numsegs → ∀ a b rest, d'.segs = pre ++ { cur with numnewpasses := a, newlen := b } :: rest →
        dataSeg d' = some (pre.length, pre.length + 1)) ∧
      cur.maxpasses ≤ 109 ∧ cur.numpasses ≤ cur.maxpasses ∧ Agr sty cur.maxpasses cur.numpasses (c.passes.drop K) ∧
      pre.map view ++ segsOf cur.len cur.numpasses ((c.passes.drop K).take n) = segsOf 0 0 (c.passes.take (K + n)) := by
  have hps : (c.passes.drop K).take n ≠ [] := by
    intro e
    have := congrArg List.length e
    rw [List.length_take, List.length_drop] at this
    simp at this; omega
  have hdrop : c.passes.drop K ≠ [] := by
    intro e; rw [e] at hps; simp at hps
  rcases Nat.eq_zero_or_pos K with rfl | hK
  · obtain ⟨junk, hj⟩ := initSeg_first d.segs sty
    refine ⟨[], { maxpasses := firstCap sty }, junk, ?_, ?_, firstCap_le _, Nat.zero_le _, ?_, ?_⟩
    · unfold firstSeg; rw [if_pos (h.zero rfl).1, hj]; rfl
    · intro d' hd' a b rest _
      unfold dataSeg; rw [if_pos (by rw [hd']; exact (h.zero rfl).1)]; rfl
    · rw [List.drop_zero]
      exact agr_all sty c.passes h.ok.term h.ok.cap
    · rw [Nat.zero_add]; rfl
  · obtain ⟨_, _, _, _, pre, cur, e1, e2, e3, e4, e5⟩ := h.later (by omega)
    have e5 := e5 hdrop
    have hsegs : d.segs = pre ++ cur :: d.segs.drop d.numsegs := by
      conv_lhs => rw [← List.take_append_drop d.numsegs d.segs, e2]
      simp
    have hlast : d.segs[d.numsegs - 1]? = some cur := by
      rw [e1, Nat.add_sub_cancel, hsegs]
      exact getElem?_mid _ _ _
    have hv := h.segs
    rw [e2, List.map_append, List.map_singleton] at hv
    have htk : c.passes.take K ≠ [] := by
      intro e
      have := congrArg List.length e
      rw [List.length_take, List.length_nil] at this
      have := h.le
      omega
    rw [take_add']
    rcases e5 with ⟨t1, t2, t3⟩ | ⟨t1, t2, t3⟩
    · -- the last segment is full
      rw [List.getLast?_eq_some_getLast htk, Option.map_some, Option.some.injEq] at t1
      obtain ⟨junk, hj⟩ := initSeg_next pre (d.segs.drop d.numsegs) cur sty
      rw [← hsegs, ← e1] at hj
      refine ⟨pre ++ [cur], { maxpasses := nextCap sty cur.maxpasses }, junk, ?_, ?_, nextCap_le _ _, Nat.zero_le _, t3, ?_⟩
      · unfold firstSeg
        rw [if_neg (by omega), hlast, Option.bind_some, if_pos t2, hj, Option.map_some, e1]
        simp
      · intro d' hd' a b rest hs
        unfold dataSeg
        have : d'.segs[d'.numsegs - 1]? = some cur := by
          rw [hd', e1, Nat.add_sub_cancel, hs, List.append_assoc]
          exact getElem?_mid _ _ _
        rw [if_neg (by omega), this, Option.map_some, if_pos t2, hd', e1]
        simp
      · rw [segsOf_append_term _ _ htk t1, List.map_append, List.map_singleton, hv]
    · -- it is open
      rw [List.getLast?_eq_some_getLast htk, Option.map_some, Option.some.injEq] at t1
      refine ⟨pre, cur, d.segs.drop d.numsegs, ?_, ?_, e3, by omega, t3, ?_⟩
      · unfold firstSeg
        rw [if_neg (by omega), hlast, Option.bind_some, if_neg (by omega), ← hsegs, e1]
        simp
      · intro d' hd' a b rest hs
        unfold dataSeg
        have : d'.segs[d'.numsegs - 1]? = some { cur with numnewpasses := a, newlen := b } := by
          rw [hd', e1, Nat.add_sub_cancel, hs]
          exact getElem?_mid _ _ _
        rw [if_neg (by omega), this, Option.map_some, if_neg (by show cur.numpasses ≠ cur.maxpasses; omega), hd', e1]
        simp
      · obtain ⟨F, l', k', f1, f2, f3⟩ := segsOf_append_open (c.passes.take K) ((c.passes.drop K).take n) htk t1 0 0
        rw [f1] at hv
        have hv' := List.append_inj' hv (by simp)
        rw [f3, hv'.1]
        have : (cur.len, cur.realNumPasses) = (l', k') := by
          have := hv'.2
          simp only [List.cons.injEq, and_true] at this
          exact this
        rw [e4] at this
        simp only [Prod.mk.injEq] at this
        rw [this.1, this.2]

theorem stand_end {sty K n mp kk : Nat} {ps : List T1.Pass} (hps : (ps.drop K).take n ≠ []) (h : Agr sty mp kk (ps.drop K)) :
    Caps sty mp kk (segsOf 0 0 ((ps.drop K).take n)) ∧
    (ps.drop (K + n) ≠ [] → Stand sty (ps.take (K + n)) (ps.drop (K + n))
      (endPos sty mp kk (segsOf 0 0 ((ps.drop K).take n))).1 (endPos sty mp kk (segsOf 0 0 ((ps.drop K).take n))).2) := by
  have e : ps.drop K = (ps.drop K).take n ++ ps.drop (K + n) := by
    conv_lhs => rw [← List.take_append_drop n (ps.drop K)]
    rw [List.drop_drop]
  rw [e] at h
  obtain ⟨h1, h2⟩ := agr_split sty (ps.drop (K + n)) _ hps mp kk 0 0 h
  refine ⟨h1, fun hr => ?_⟩
  unfold Stand
  rw [getLast?_take_add ps K n hps]
  simpa using h2 hr

theorem Sync.numsegs {sty K : Nat} {c : EncCblk} {d : DecCblk} (h : Sync sty K c d) : d.numsegs = 0 ↔ K = 0 := by
  refine ⟨fun e => ?_, fun e => (h.zero e).1⟩
  by_contra hK
  obtain ⟨_, _, _, _, pre, cur, e1, _⟩ := h.later hK
  omega

/-- Whether the block is in this layer. -/
theorem block_incl {sty lay K N k n : Nat} {c : EncCblk} {d : DecCblk} {val : Nat → Int} {incl : Mem Node} (imsb : Mem Node)
    (hs : Sync sty K c d) (hlay : lay + 1 ≤ 999) (hk : k < N) (h1 : St N ((lay : Int) + 1) val incl)
    (hval : K = 0 → val k = if n ≠ 0 then (lay : Int) else 999) :
    ∃ bits incl', St N ((lay : Int) + 1) val incl' ∧
      (∀ s, (if c.numpasses = 0 then (encode s incl k (asI32 ((lay + 1) % 2 ^ 32))).map fun (s, t) => (⟨s, t, imsb⟩ : EncSt)
        else (putbit s (if n ≠ 0 then 1 else 0)).map fun s => (⟨s, incl, imsb⟩ : EncSt)) =
          (putBits s bits).map fun s => ⟨s, incl', imsb⟩) ∧
      ∀ s, DecSafe s → Starts s bits → ∃ s',
        (if d.numsegs = 0 then (decode s (mir incl) k (asI32 ((lay + 1) % 2 ^ 32))).map fun (b, s, t) => (b, (⟨s, t, mir imsb⟩ : DecSt))
          else (read s 1).map fun (b, s) => (decide (b ≠ 0), (⟨s, mir incl, mir imsb⟩ : DecSt))) =
            some (decide (n ≠ 0), ⟨s', mir incl', mir imsb⟩) ∧ Adv s s' bits.length := by
  have hthr : asI32 ((lay + 1) % 2 ^ 32) = (lay : Int) + 1 := by
    rw [Nat.mod_eq_of_lt (by omega)]; unfold asI32; rw [if_pos (by omega)]; push_cast; rfl
  rw [hthr]
  by_cases hK : K = 0
  · obtain ⟨bits, t', q1, q2, q3⟩ := query_step h1 hk (Or.inl (by omega)) (Int.le_refl _)
    refine ⟨bits, t', q1, fun s => ?_, fun s hd hst => ?_⟩
    · rw [if_pos (by rw [hs.np]; exact hK), q2, Option.map_map]; rfl
    · obtain ⟨s', e1, e2⟩ := q3 s hd hst
      refine ⟨s', ?_, e2⟩
      rw [if_pos (hs.numsegs.mpr hK), e1, Option.map_some, hval hK]
      congr 2
      by_cases hn : n ≠ 0
      · rw [if_pos hn]; simp [hn]
      · rw [if_neg hn]
        have : ¬ ((999 : Int) < (lay : Int) + 1) := by omega
        simp only [this, hn]
  · refine ⟨[decide (n ≠ 0)], incl, h1, fun s => ?_, fun s hd hst => ?_⟩
    · rw [if_neg (by rw [hs.np]; exact hK), ← putbit_eq]
      by_cases hn : n ≠ 0
      · simp [hn]
      · simp [hn]
    · obtain ⟨s', e1, e2, e3, e4⟩ := read_starts s hd 1 [decide (n ≠ 0)] rfl (by omega) (by omega) hst
      refine ⟨s', ?_, e2, e3, e4⟩
      rw [if_neg (fun e => hK (hs.numsegs.mp e)), e1, Option.map_some]
      congr 2
      by_cases hn : n ≠ 0
      · simp [hn, valOf]
      · simp [hn, valOf]

/-- The zero bit planes of a block that is in this layer. -/
theorem block_imsb {sty K N k : Nat} {c : EncCblk} {d : DecCblk} {vi : Nat → Int} {imsb : Mem Node} (incl : Mem Node) {bps : Int}
    (hs : Sync sty K c d) (hk : k < N) (h2 : St N 999 vi imsb) (hvi : vi k = bps - asI32 c.numbps) (hb : 0 ≤ bps ∧ bps < 999)
    (hc : Fits bps c.numbps) :
    ∃ bits imsb' nlb mb, 3 ≤ nlb ∧ nlb ≤ 25 ∧ St N 999 vi imsb' ∧
      (∀ s, (if c.numpasses = 0 then (encode s imsb k 999).map fun (s, t) => ((⟨s, incl, t⟩ : EncSt), 3)
        else some ((⟨s, incl, imsb⟩ : EncSt), c.numlenbits)) = (putBits s bits).map fun s => (⟨s, incl, imsb'⟩, nlb)) ∧
      ∀ s, DecSafe s → Starts s bits → ∃ s',
        (if d.numsegs = 0 then readImsb bps k ⟨s, mir incl, mir imsb⟩ d else some (⟨s, mir incl, mir imsb⟩, d)) =
            some (⟨s', mir incl, mir imsb'⟩, { d with Mb := mb, numbps := c.numbps, numlenbits := nlb }) ∧ Adv s s' bits.length := by
  by_cases hK : K = 0
  · obtain ⟨bits, t', q1, q2, q3⟩ := full_step h2 hk (by have := hc.2; omega)
    refine ⟨bits, t', 3, bps.toNat, by omega, by omega, q1, fun s => ?_, fun s hd hst => ?_⟩
    · rw [if_pos (by rw [hs.np]; exact hK), q2, Option.map_map]; rfl
    · obtain ⟨s', e1, e2⟩ := q3 s hd hst
      refine ⟨s', ?_, e2⟩
      rw [if_pos (hs.numsegs.mpr hK)]
      unfold readImsb
      rw [e1, Option.bind_some]
      dsimp only
      obtain ⟨f1, f2, f3⟩ := hc
      rw [show bps % 2 ^ 32 = bps by omega, if_pos (by omega)]
      have key : (if ((bps.toNat : Nat) : Int) + 1 < vi k + 1 then
          (chk (bps + 1)).bind fun a => (chk (a - (vi k + 1))).map fun r => (r % 2 ^ 32).toNat
          else some (bps.toNat + 1 - (vi k + 1).toNat)) = some c.numbps := by
        rw [hvi]
        unfold asI32 at f2 f3 ⊢
        generalize c.numbps = n at *
        by_cases hn : n < 2 ^ 31
        · rw [if_pos hn] at f2 f3 ⊢
          rw [if_neg (by omega)]
          congr 1; omega
        · rw [if_neg hn] at f2 f3 ⊢
          rw [if_pos (by omega)]
          unfold chk
          rw [if_pos (by omega), Option.bind_some, if_pos (by omega), Option.map_some]
          congr 1; omega
      rw [key, Option.map_some]
  · obtain ⟨n3, n25, hl, hbp, _⟩ := hs.later hK
    refine ⟨[], imsb, c.numlenbits, d.Mb, n3, n25, h2, fun s => ?_, fun s hd hst => ?_⟩
    · rw [if_neg (by rw [hs.np]; exact hK)]; rfl
    · refine ⟨s, ?_, Adv.refl s hd⟩
      rw [if_neg (fun e => hK (hs.numsegs.mp e)), ← hl, ← hbp]

/-- The header of one block. -/
theorem block_head {sty lay K N k : Nat} {c : EncCblk} {d : DecCblk} {val vi : Nat → Int} {incl imsb : Mem Node} {bps : Int} {ly : Layer}
    (h40 : sty &&& 0x40 = 0) (hs : Sync sty K c d) (hly : c.layers[lay]? = some ly) (hle : K + ly.numpasses ≤ c.passes.length)
    (hlay : lay + 1 ≤ 999) (hk : k < N) (h1 : St N ((lay : Int) + 1) val incl) (h2 : St N 999 vi imsb)
    (hval : K = 0 → val k = if ly.numpasses ≠ 0 then (lay : Int) else 999)
    (hvi : vi k = bps - asI32 c.numbps) (hb : 0 ≤ bps ∧ bps < 999) (hc : Fits bps c.numbps) :
    ∃ bits nlb d' incl' imsb', St N ((lay : Int) + 1) val incl' ∧ St N 999 vi imsb' ∧
      Mid sty K ly.numpasses { c with numlenbits := nlb } d' ∧
      (∀ s, encBlock lay k ⟨s, incl, imsb⟩ c = (putBits s bits).map fun s => (⟨s, incl', imsb'⟩, { c with numlenbits := nlb })) ∧
      ∀ s, DecSafe s → Starts s bits → ∃ s', decBlock sty lay bps k ⟨s, mir incl, mir imsb⟩ d =
        .ok (⟨s', mir incl', mir imsb'⟩, d') ∧ Adv s s' bits.length := by
  obtain ⟨bA, incl', a1, a2, a3⟩ := block_incl (n := ly.numpasses) imsb hs hlay hk h1 hval
  by_cases hn : ly.numpasses = 0
  · refine ⟨bA, c.numlenbits, { d with numnewpasses := 0 }, incl', imsb, a1, h2, ?_, fun s => ?_, fun s hd hst => ?_⟩
    · refine ⟨hn.symm, fun _ => ?_, hs.ok, hs.np, hle, fun h => absurd hn h⟩
      exact ⟨hs.ok, hs.np, hs.le, hs.zero, hs.real, hs.segs, hs.data, hs.later⟩
    · unfold encBlock
      rw [hly, Option.bind_some]
      have := a2 s
      rw [this]
      cases putBits s bA with
      | none => rfl
      | some s1 => simp only [Option.map_some, Option.bind_some, if_pos hn]
    · obtain ⟨s', e1, e2⟩ := a3 s hd hst
      refine ⟨s', ?_, e2⟩
      unfold decBlock
      dsimp only
      rw [e1]
      simp only [ofOpt_some, ok_bind]
      rw [if_pos (by simp [hn])]
      rfl
  · have hps : (c.passes.drop K).take ly.numpasses ≠ [] := by
      intro e
      have := congrArg List.length e
      rw [List.length_take, List.length_drop] at this
      simp at this; omega
    have hlen : ((c.passes.drop K).take ly.numpasses).length = ly.numpasses := by
      rw [List.length_take, List.length_drop]; omega
    have hsz : size ((c.passes.drop K).take ly.numpasses) ≤ size c.passes := by
      have e : c.passes = c.passes.take K ++ ((c.passes.drop K).take ly.numpasses ++ (c.passes.drop K).drop ly.numpasses) := by
        rw [List.take_append_drop, List.take_append_drop]
      conv_rhs => rw [e]
      unfold size
      simp only [List.map_append, List.sum_append]
      omega
    obtain ⟨bB, imsb', nlb, mb, n3, n25, b1, b2, b3⟩ := block_imsb incl' hs hk h2 hvi hb hc
    obtain ⟨pre, cur, junk, f1, f2, f3, f4, f5, f6⟩ := firstSeg_eq hs hn hle
    obtain ⟨g1, g2⟩ := stand_end hps f5
    obtain ⟨bC, nlb', junk', c1, c2, c3, c4⟩ := lengths_eq sty nlb h40 n3 n25 ((c.passes.drop K).take ly.numpasses) hps
      (by rw [hlen]; exact hs.ok.few ly (List.mem_of_getElem? hly)) (by have := hs.ok.bytes; have := hs.ok.small; omega) cur pre junk f3 g1
    rw [hlen] at c3 c4
    refine ⟨bA ++ (bB ++ bC), nlb', { d with Mb := mb, numbps := c.numbps, numnewpasses := ly.numpasses, numlenbits := nlb', segs := pre ++ (pend sty cur (segsOf 0 0 ((c.passes.drop K).take ly.numpasses)) ++ junk') }, incl', imsb', a1, b1, ?_,
      fun s => ?_, fun s hd hst => ?_⟩
    · refine ⟨rfl, fun h => absurd h hn, ⟨hs.ok.few, hs.ok.enough, hs.ok.term, hs.ok.cap, hs.ok.many, hs.ok.bytes, hs.ok.small, hs.ok.place⟩,
        hs.np, hle, fun _ => ⟨by show 3 ≤ nlb'; omega, c2, rfl, rfl, hs.data, pre, cur, junk', rfl, ?_, f3, f4, g1, f6, g2⟩⟩
      obtain ⟨g, G, hG⟩ := List.exists_cons_of_ne_nil (segsOf_ne _ hps 0 0)
      refine f2 _ rfl g.2 g.1 (pend sty { maxpasses := nextCap sty cur.maxpasses } G ++ junk') ?_
      show pre ++ _ = _
      rw [hG]; rfl
    · unfold encBlock
      rw [hly, Option.bind_some]
      have := a2 s
      rw [this, putBits_append]
      cases putBits s bA with
      | none => rfl
      | some s1 =>
        simp only [Option.map_some, Option.bind_some, if_neg hn]
        rw [b2 s1, putBits_append]
        cases putBits s1 bB with
        | none => rfl
        | some s2 =>
          simp only [Option.map_some, Option.bind_some]
          unfold layerPasses
          rw [hs.np, if_pos hle, Option.bind_some, c3 s2, Option.map_map]
          rfl
    · obtain ⟨s1, e1, e2⟩ := a3 s hd hst.left
      have hst1 := Adv.starts hst e2
      obtain ⟨s2, u1, u2⟩ := b3 s1 e2.1 hst1.left
      have hst2 := Adv.starts hst1 u2
      obtain ⟨s3, s4, s5, inc, v1, v2, v3, v4, v5⟩ := c4 s2 u2.1 hst2
      refine ⟨s5, ?_, by rw [List.length_append, List.length_append]; exact e2.trans (u2.trans v5)⟩
      unfold decBlock
      dsimp only
      rw [e1]
      simp only [ofOpt_some, ok_bind]
      rw [if_neg (by simp [hn]), u1]
      simp only [ofOpt_some, ok_bind]
      rw [v1]
      simp only [ofOpt_some, ok_bind]
      rw [v2]
      simp only [ofOpt_some, ok_bind]
      rw [v3]
      have : firstSeg sty { d with Mb := mb, numbps := c.numbps, numlenbits := nlb } = firstSeg sty d := rfl
      rw [this, f1]
      simp only [ofOpt_some, ok_bind]
      rw [v4]
      rfl

end Jp2.T2

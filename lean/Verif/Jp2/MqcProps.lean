import Verif.Jp2.MqcSpec
import Verif.Jp2.MqcTable
/-!
# Property theorems about the arithmetic coder and raw coding (C32, C33, C34, C42)

`bytes mem a b` is the slice of `mem` from `a` up to `b`. The encoder works in a buffer `mem` of which it may use the bytes from
`start` on; the byte before `start` must exist (`tcd.rs` allocates one extra byte in front). `numbytes s` is the length reported.
-/
namespace Jp2.Mqc
open Jp2.Bio (store)

/-- A buffer of `n` zero bytes preceded by one byte. -/
def blank (n : Nat) : List UInt8 := List.replicate (n + 1) 0

/-! ## C32: round trip -/

/-- Encode any decisions in any contexts, terminate in either way; the decoder, given a copy of the bytes with two bytes of
room behind them and asked for the same contexts, returns the same decisions. -/
theorem C32_round_trip (mem : List UInt8) (start : Nat) (ctxs : List Nat) (syms : List (Nat × Nat)) (hbin : ∀ p ∈ syms, p.2 ≤ 1)
    (s0 s1 s2 : Mqc) (h0 : initEnc mem start ctxs = some s0) (h1 : encodeAll s0 syms = some s1)
    (h2 : flush s1 = some s2 ∨ ertermEnc s1 = some s2)
    (buf : List UInt8) (o : Nat) (hcopy : bytes buf o (o + numbytes s2) = bytes s2.mem start (start + numbytes s2))
    (hroom : o + numbytes s2 + 2 ≤ buf.length) :
    ∃ sd sd', initDec buf o (numbytes s2) ctxs = some sd ∧
      decodeAll sd (syms.map Prod.fst) = some (syms.map Prod.snd, sd') := by
  obtain ⟨f1, f2, f3, f4, f5⟩ := initEnc_fresh h0
  obtain ⟨d, g1, g2, g3, g4, g5, g6, g7, g8⟩ := segment f1 hbin h1 h2
  rw [f2] at g3 g4
  have hn : numbytes s2 = d.length := by unfold numbytes; rw [g7, f5, g3]; omega
  rw [hn] at hcopy hroom ⊢
  rw [bytes_eq rfl g4] at hcopy
  unfold bytes at hcopy
  rw [Nat.add_sub_cancel_left] at hcopy
  obtain ⟨sd, sd', k1, k2, _⟩ := g8 buf o hcopy hroom
  exact ⟨sd, sd', by rw [← f4]; exact k1, k2⟩

/-- A whole code block: any mixture of arithmetic-coded and raw segments, each terminated in either way, with the contexts
running on from segment to segment. From a copy of the final bytes and the segment lengths the decoder recovers every
segment, and gives the buffer back as it was. -/
theorem C32_code_block (mem : List UInt8) (start : Nat) (ctxs : List Nat) (er : Bool) (syms : List (Nat × Nat)) (segs : List Seg)
    (hbin0 : (Seg.mq er syms).Bin) (hbin : ∀ sg ∈ segs, sg.Bin) (lens : List Nat) (s : Mqc)
    (h : encBlock mem start ctxs er syms segs = some (lens, s))
    (buf : List UInt8) (o : Nat) (hcopy : bytes buf o (o + lens.sum) = bytes s.mem start (start + lens.sum))
    (hroom : o + lens.sum + 2 ≤ buf.length) :
    decSegs buf o ctxs (lens.zip ((Seg.mq er syms :: segs).map Seg.shape)) = some ((Seg.mq er syms :: segs).map Seg.bits, buf) := by
  obtain ⟨_, _, _, _, g5, _, g7⟩ := encBlock_ok hbin0 hbin h
  exact g7 buf o (by rw [g5]; exact hcopy) hroom

/-- The reported length is the sum of the segments' lengths, one per segment. -/
theorem C32_code_block_lengths (mem : List UInt8) (start : Nat) (ctxs : List Nat) (er : Bool) (syms : List (Nat × Nat)) (segs : List Seg)
    (hbin0 : (Seg.mq er syms).Bin) (hbin : ∀ sg ∈ segs, sg.Bin) (lens : List Nat) (s : Mqc)
    (h : encBlock mem start ctxs er syms segs = some (lens, s)) : numbytes s = lens.sum ∧ lens.length = segs.length + 1 := by
  obtain ⟨_, _, g3, _, _, g6, _⟩ := encBlock_ok hbin0 hbin h
  exact ⟨g3, g6⟩

/-- The encoder never fails, and never writes outside its buffer, when the buffer has room for 15/7 bytes per decision and
two more. Contexts must be valid (`< 94`, the size of the state table). -/
theorem C32_encoder_total (mem : List UInt8) (start : Nat) (ctxs : List Nat) (syms : List (Nat × Nat)) (hbin : ∀ p ∈ syms, p.2 ≤ 1)
    (hctx : ∀ i ∈ ctxs, i < 94) (hcx : ∀ p ∈ syms, p.1 < ctxs.length) (hstart : 0 < start) (hprev : ∀ b, mem[start - 1]? = some b → b ≠ 255)
    (hroom : 15 * syms.length + 14 ≤ 7 * (mem.length - start)) :
    ∃ s0 s1 s2, initEnc mem start ctxs = some s0 ∧ encodeAll s0 syms = some s1 ∧ flush s1 = some s2 ∧ numbytes s2 ≤ mem.length - start := by
  have hlt : start - 1 < mem.length := by omega
  have hne := hprev _ (List.getElem?_eq_getElem hlt)
  have h0 : initEnc mem start ctxs = some ⟨mem, start, start - 1, 0, 0x8000, 12, ctxs⟩ := by
    unfold initEnc
    rw [if_neg (by omega), List.getElem?_eq_getElem hlt, Option.bind_some, if_neg hne]
  obtain ⟨f1, f2, f3, f4, f5⟩ := initEnc_fresh h0
  obtain ⟨s1, s2, k1, k2⟩ := segment_total f1 (by rw [f4]; exact hctx) syms (by rw [f4]; exact hcx) (by rw [f3]; show _ ≤ 7 * (mem.length - (start - 1) - 1); omega)
  refine ⟨_, s1, s2, h0, k1, k2, ?_⟩
  obtain ⟨d, g1, g2, g3, g4, g5, g6, g7, g8⟩ := segment f1 hbin k1 (Or.inl k2)
  rw [f2] at g3 g4
  have hsl := slice_len g4 (by rw [g5, f3]; omega)
  rw [g5, f3] at hsl
  unfold numbytes
  rw [g7, f5]
  omega

/-- Decoding any bytes whatever: initialisation and every decision succeed, no read goes beyond the two marker bytes behind
the data, each decision is 0 or 1, and afterwards the two borrowed bytes can be put back, giving the buffer as it was. -/
theorem C32_decoder_any_bytes (buf : List UInt8) (o len : Nat) (ctxs cxs : List Nat) (hctx : ∀ i ∈ ctxs, i < 94)
    (hcx : ∀ c ∈ cxs, c < ctxs.length) (hroom : o + len + 2 ≤ buf.length) :
    ∃ ds ctxs', decSeg buf o ctxs len (.mq cxs) = some (ds, buf, ctxs') ∧ ds.length = cxs.length ∧ ∀ d ∈ ds, d ≤ 1 := by
  obtain ⟨s, h1, h2, h3, h4, h5, h6, h7⟩ := initDec_safe ctxs (show o + len + 1 < buf.length by omega)
  obtain ⟨ds, s', k1, k2, k3, k4, k5, k6⟩ := decodeAll_safe cxs h2 h3 (by rw [h4]) (by rw [h4]; norm_num)
    (by rw [h5]; exact hctx) (by rw [h5]; exact hcx)
  obtain ⟨b0, b1, sf, q1, q2, q3, q4, q5⟩ := finish_any (s := s') hroom (by rw [k5, h7, guard_any (by omega)]) (k6.trans h6)
  refine ⟨ds, s'.ctxs, ?_, k2, k3⟩
  simp only [decSeg]
  rw [q1, Option.bind_some, q2, Option.bind_some, h1, Option.bind_some, k1, Option.bind_some]
  simp only [q3, Option.map_some, q4, q5]

/-- The same for raw decoding. -/
theorem C34_decoder_any_bytes (buf : List UInt8) (o len n : Nat) (ctxs : List Nat) (hroom : o + len + 2 ≤ buf.length) :
    ∃ ds, decSeg buf o ctxs len (.raw n) = some (ds, buf, ctxs) ∧ ds.length = n ∧ ∀ d ∈ ds, d ≤ 1 := by
  obtain ⟨g1, g2, g3⟩ := guard_get (mem := buf) (start := o) (len := len) (by omega)
  have h1 : rawInitDec buf o len ctxs = some ⟨(buf.set (o + len) 255).set (o + len + 1) 255, o, o, 0, 0, 0, ctxs⟩ := by
    unfold rawInitDec; rw [guard_any (by omega)]; rfl
  obtain ⟨ds, s', k1, k2, k3, k4, k5⟩ := rawDecodeAll_safe (len := len) n (s := ⟨(buf.set (o + len) 255).set (o + len + 1) 255, o, o, 0, 0, 0, ctxs⟩)
    (by show o + len + 1 < List.length _; rw [g3]; omega) g1 g2 (Or.inl (by show o ≤ o + len; omega)) (by show 0 ≤ 8; omega)
  obtain ⟨b0, b1, sf, q1, q2, q3, q4, q5⟩ := finish_any (s := s') hroom (by rw [k4, guard_any (by omega)]) k5
  refine ⟨ds, ?_, k2, k3⟩
  have hm := rawDecodeAll_mem _ k1
  simp only [decSeg]
  rw [q1, Option.bind_some, q2, Option.bind_some, h1, Option.bind_some, k1, Option.bind_some]
  simp only [q3, Option.map_some, q4, q5, hm.2.2]

/-! ## C33: no marker emulation -/

/-- In the bytes of any terminated arithmetic-coded segment no byte above `8F` follows `FF`, the last byte is not `FF`, and no
byte before the segment has changed. -/
theorem C33_no_marker (mem : List UInt8) (start : Nat) (ctxs : List Nat) (syms : List (Nat × Nat)) (hbin : ∀ p ∈ syms, p.2 ≤ 1)
    (s0 s1 s2 : Mqc) (h0 : initEnc mem start ctxs = some s0) (h1 : encodeAll s0 syms = some s1)
    (h2 : flush s1 = some s2 ∨ ertermEnc s1 = some s2) :
    (∀ (i : Nat) (x : UInt8), (bytes s2.mem start (start + numbytes s2))[i]? = some 255 →
      (bytes s2.mem start (start + numbytes s2))[i + 1]? = some x → x.toNat ≤ 0x8F) ∧
    (bytes s2.mem start (start + numbytes s2)).getLast? ≠ some 255 ∧
    (∀ i, i < start → s2.mem[i]? = mem[i]?) ∧ s2.mem.length = mem.length := by
  obtain ⟨f1, f2, f3, f4, f5⟩ := initEnc_fresh h0
  obtain ⟨d, g1, g2, g3, g4, g5, g6, g7, g8⟩ := segment f1 hbin h1 h2
  rw [f2] at g3 g4
  have hn : numbytes s2 = d.length := by unfold numbytes; rw [g7, f5, g3]; omega
  rw [hn, bytes_eq rfl g4]
  exact ⟨g1, g2, fun i hi => by rw [g6 i (by omega), f3], by rw [g5, f3]⟩

/-- The same for every segment that follows in the block, arithmetic-coded or raw. -/
theorem C33_no_marker_next (s s1 : Mqc) (sg : Seg) (hbin : sg.Bin) (h : encSeg s sg = some s1) :
    (∀ (i : Nat) (x : UInt8), (bytes s1.mem s.bp s1.bp)[i]? = some 255 → (bytes s1.mem s.bp s1.bp)[i + 1]? = some x → x.toNat ≤ 0x8F) ∧
    (bytes s1.mem s.bp s1.bp).getLast? ≠ some 255 ∧ (∀ i, i < s.bp → s1.mem[i]? = s.mem[i]?) ∧ s1.mem.length = s.mem.length := by
  obtain ⟨k, _, _⟩ := encSeg_ok hbin h
  exact ⟨k.nm, k.last, k.low, k.len⟩

/-! ## C34: raw coding -/

/-- Raw bits written after a terminated segment and flushed in either way are read back unchanged. -/
theorem C34_round_trip (s0 s s1 s2 : Mqc) (bits : List Nat) (er : Bool) (hbin : ∀ d ∈ bits, d ≤ 1) (h0 : bypassInitEnc s0 = some s)
    (h1 : bypassEncAll s bits = some s1) (h2 : bypassFlushEnc s1 er = some s2)
    (buf : List UInt8) (o : Nat) (ctxs : List Nat) (hcopy : bytes buf o (o + (s2.bp - s0.bp)) = bytes s2.mem s0.bp s2.bp)
    (hroom : o + (s2.bp - s0.bp) + 2 ≤ buf.length) :
    s0.bp ≤ s2.bp ∧ ∃ sd sd', rawInitDec buf o (s2.bp - s0.bp) ctxs = some sd ∧ rawDecodeAll bits.length sd = some (bits, sd') := by
  obtain ⟨d, g1, g2, g3, g4, g5, g6, g7, g8, g9⟩ := raw_segment h0 hbin h1 h2
  have hn : s2.bp - s0.bp = d.length := by omega
  rw [bytes_eq g3 g4, hn] at hcopy
  rw [hn] at hroom ⊢
  unfold bytes at hcopy
  rw [Nat.add_sub_cancel_left] at hcopy
  exact ⟨by omega, g9 buf o ctxs hcopy hroom⟩

/-- With room for one byte per seven bits and one more, raw coding never fails: no write outside the buffer and none of the
code's assertions. -/
theorem C34_encoder_total (s0 s : Mqc) (bits : List Nat) (er : Bool) (hbin : ∀ d ∈ bits, d ≤ 1) (h0 : bypassInitEnc s0 = some s)
    (hroom : bits.length + 7 ≤ 7 * (s0.mem.length - s0.bp)) :
    ∃ s1 s2, bypassEncAll s bits = some s1 ∧ bypassFlushEnc s1 er = some s2 :=
  raw_total er h0 hbin (by omega)

/-- Raw data never contains a byte with the top bit set after `FF`, and never ends in `FF`. -/
theorem C34_stuffed (s0 s s1 s2 : Mqc) (bits : List Nat) (er : Bool) (hbin : ∀ d ∈ bits, d ≤ 1) (h0 : bypassInitEnc s0 = some s)
    (h1 : bypassEncAll s bits = some s1) (h2 : bypassFlushEnc s1 er = some s2) :
    (∀ (i : Nat) (x : UInt8), (bytes s2.mem s0.bp s2.bp)[i]? = some 255 → (bytes s2.mem s0.bp s2.bp)[i + 1]? = some x → x.toNat < 0x80) ∧
    (bytes s2.mem s0.bp s2.bp).getLast? ≠ some 255 := by
  obtain ⟨d, g1, g2, g3, g4, _⟩ := raw_segment h0 hbin h1 h2
  rw [bytes_eq g3 g4]
  exact ⟨g1, g2⟩

/-! ## C42: the probability state machine is that of the standard -/

/-- The table of the coder is Table C.2 for both senses of the more probable symbol: entry `2 i + mps` stands for index `i`. -/
theorem C42_state_table (i mps : Nat) (hi : i < 47) (hm : mps < 2) :
    states.length = 94 ∧
    states[2 * i + mps]? = (tableC2[i]?).map fun (qe, nm, nl, sw) =>
      ⟨qe, mps, 2 * nm + mps, 2 * nl + if sw = 1 then 1 - mps else mps⟩ := by
  have h : states.length = 94 ∧ ∀ i < 47, ∀ mps < 2, states[2 * i + mps]? = (tableC2[i]?).map fun (qe, nm, nl, sw) =>
      ⟨qe, mps, 2 * nm + mps, 2 * nl + if sw = 1 then 1 - mps else mps⟩ := by decide +kernel
  exact ⟨h.1, h.2 i hi mps hm⟩

theorem states_split {n : Nat} {st : State} (h : states[n]? = some st) :
    n / 2 < 47 ∧ (tableC2[n / 2]?).map (fun (qe, nm, nl, sw) =>
      (⟨qe, n % 2, 2 * nm + n % 2, 2 * nl + if sw = 1 then 1 - n % 2 else n % 2⟩ : State)) = some st := by
  have h1 := (List.getElem?_eq_some_iff.1 h).1
  have h2 := (C42_state_table 0 0 (by omega) (by omega)).1
  have h3 := (C42_state_table (n / 2) (n % 2) (by omega) (by omega)).2
  rw [show 2 * (n / 2) + n % 2 = n by omega, h] at h3
  exact ⟨by omega, h3.symm⟩

theorem moved_std {st : State} {c c' : List Nat} {cx d n : Nat} (hst : states[n]? = some st) (h : Moved st c c' cx d) :
    (d = n % 2 ∧ c' = c) ∨ ∃ i' m', nextC2 (n / 2) (n % 2) d = some (i', m') ∧ c' = c.set cx (2 * i' + m') := by
  obtain ⟨_, h2⟩ := states_split hst
  unfold nextC2
  rw [Option.map_eq_some_iff] at h2
  obtain ⟨⟨qe, nm, nl, sw⟩, h3, h4⟩ := h2
  rw [h3]
  dsimp only at h4
  subst h4
  unfold Moved at h
  dsimp only at h
  rcases h with h | h | h
  · exact Or.inl h
  · refine Or.inr ⟨nm, n % 2, ?_, h.2⟩
    simp [h.1]
  · refine Or.inr ⟨nl, if sw = 1 then 1 - n % 2 else n % 2, ?_, h.2⟩
    have hd : ¬ d = n % 2 := by rw [h.1]; split <;> omega
    simp [hd]

/-- Every decision read leaves the other contexts alone and moves the one used as the standard prescribes: index `n / 2` and
sense `n % 2` go to `NMPS` or `NLPS`, or stay when the more probable symbol needs no renormalisation. -/
theorem C42_decode_adapts (s s' : Mqc) (cx d : Nat) (h : decode s cx = some (d, s')) :
    ∃ n, s.ctxs[cx]? = some n ∧ ((d = n % 2 ∧ s'.ctxs = s.ctxs) ∨
      ∃ i' m', nextC2 (n / 2) (n % 2) d = some (i', m') ∧ s'.ctxs = s.ctxs.set cx (2 * i' + m')) := by
  obtain ⟨st, h1, h2⟩ := decode_moved h
  unfold ctxState at h1
  rw [Option.bind_eq_some_iff] at h1
  obtain ⟨n, h3, h4⟩ := h1
  exact ⟨n, h3, moved_std h4 h2⟩

/-- The same for every decision written. -/
theorem C42_encode_adapts (s s' : Mqc) (cx d : Nat) (hd : d ≤ 1) (h : encode s cx d = some s') :
    ∃ n, s.ctxs[cx]? = some n ∧ ((d = n % 2 ∧ s'.ctxs = s.ctxs) ∨
      ∃ i' m', nextC2 (n / 2) (n % 2) d = some (i', m') ∧ s'.ctxs = s.ctxs.set cx (2 * i' + m')) := by
  obtain ⟨st, h1, h2⟩ := encode_moved hd h
  unfold ctxState at h1
  rw [Option.bind_eq_some_iff] at h1
  obtain ⟨n, h3, h4⟩ := h1
  exact ⟨n, h3, moved_std h4 h2⟩

/-- Every context starts with the index of Table D.7 and the more probable symbol 0. -/
theorem C42_initial_contexts (cx : Nat) (h : cx < 19) : startCtxs[cx]? = some (2 * tableD7 cx) := by
  have : ∀ cx < 19, startCtxs[cx]? = some (2 * tableD7 cx) := by decide +kernel
  exact this cx h

/-! ## The hypotheses are met -/

example : ((initEnc (blank 40) 1 startCtxs).bind fun s => encode s 0 1).isSome = true := by decide +kernel
example : ((initDec (blank 40) 1 3 startCtxs).bind fun s => decode s 17).isSome = true := by decide +kernel


/-- A block of three segments, the second one raw and ending in bits that the flush drops. -/
def sampleSyms : List (Nat × Nat) := [(0, 1), (17, 0), (18, 1), (0, 0), (9, 1), (0, 1), (0, 1)]
def sampleSegs : List Seg :=
  [.raw false [0, 1, 1, 0, 1, 0, 0, 1, 1, 1, 1, 1, 1, 1, 1, 1, 1, 1, 1, 1, 1, 1, 1], .mq true [(0, 1), (5, 1), (0, 0)], .raw true [1, 0, 1]]

example : (Seg.mq false sampleSyms).Bin ∧ (∀ sg ∈ sampleSegs, sg.Bin) := by
  unfold Seg.Bin; decide +kernel

/-- The first raw segment's 23 bits take one byte: the trailing `FF 7F` is dropped. -/
example : (encBlock (blank 40) 1 startCtxs false sampleSyms sampleSegs).map (fun r => r.1) = some [2, 1, 1, 1] := by decide +kernel

example : ∃ s0 s1 s2, initEnc (blank 40) 1 startCtxs = some s0 ∧ encodeAll s0 sampleSyms = some s1 ∧ flush s1 = some s2 ∧ numbytes s2 ≤ 41 - 1 :=
  C32_encoder_total (blank 40) 1 startCtxs sampleSyms (by decide) (by decide) (by decide) (by decide)
    (by intro b hb; replace hb : some (0 : UInt8) = some b := hb; injection hb with hb; rw [← hb]; decide) (by decide)

end Jp2.Mqc

import Verif.Jp2.MqcRaw
/-!
# A code block: a chain of arithmetic-coded and raw segments
-/
namespace Jp2.Mqc
open Jp2.Bio (store)

/-- One terminated segment: arithmetic-coded (context, decision) pairs, or raw bits; with or without predictable
termination (`ERTERM`). -/
inductive Seg where
  | mq (er : Bool) (syms : List (Nat × Nat))
  | raw (er : Bool) (bits : List Nat)

/-- What the decoder knows of a segment: the contexts it asks for, or a number of bits. -/
inductive Shape where
  | mq (cxs : List Nat)
  | raw (n : Nat)

def Seg.shape : Seg → Shape
  | .mq _ syms => .mq (syms.map Prod.fst)
  | .raw _ bits => .raw bits.length

def Seg.bits : Seg → List Nat
  | .mq _ syms => syms.map Prod.snd
  | .raw _ bits => bits

/-- The decisions of a pass and its termination, `t1.rs:2849-2857`. -/
def codeMq (s : Mqc) (er : Bool) (syms : List (Nat × Nat)) : Option Mqc :=
  (encodeAll s syms).bind fun s => if er then ertermEnc s else flush s

/-- A segment after a terminated one: the coder is restarted, `t1.rs:2812-2818`, used, and terminated, `t1.rs:2849-2857`. -/
def encSeg (s : Mqc) : Seg → Option Mqc
  | .mq er syms => (restartInitEnc s).bind fun s => codeMq s er syms
  | .raw er bits => (bypassInitEnc s).bind fun s => (bypassEncAll s bits).bind fun s => bypassFlushEnc s er

/-- Segments in a row, with the lengths given by `opj_mqc_numbytes`. -/
def encSegs : Mqc → List Seg → Option (List Nat × Mqc)
  | s, [] => some ([], s)
  | s, sg :: l => (encSeg s sg).bind fun s1 => (encSegs s1 l).map fun (ls, s2) => ((numbytes s1 - numbytes s) :: ls, s2)

/-- A code block, `t1.rs:2795-2860`: the first segment is arithmetic-coded and starts with `opj_mqc_init_enc`. -/
def encBlock (mem : List UInt8) (start : Nat) (ctxs : List Nat) (er : Bool) (syms : List (Nat × Nat)) (l : List Seg) :
    Option (List Nat × Mqc) :=
  (initEnc mem start ctxs).bind fun s => (codeMq s er syms).bind fun s1 =>
    (encSegs s1 l).map fun (ls, s2) => (numbytes s1 :: ls, s2)

/-- One segment of the decoder, `t1.rs:2329-2389`: set up, decode, put the two borrowed bytes back. The results are the
decisions, the buffer and the contexts. -/
def decSeg (buf : List UInt8) (o : Nat) (ctxs : List Nat) (len : Nat) : Shape → Option (List Nat × List UInt8 × List Nat)
  | .mq cxs =>
    (buf[o + len]?).bind fun b0 => (buf[o + len + 1]?).bind fun b1 =>
    (initDec buf o len ctxs).bind fun s => (decodeAll s cxs).bind fun (ds, s) => (finishDec s len b0 b1).map fun s => (ds, s.mem, s.ctxs)
  | .raw n =>
    (buf[o + len]?).bind fun b0 => (buf[o + len + 1]?).bind fun b1 =>
    (rawInitDec buf o len ctxs).bind fun s => (rawDecodeAll n s).bind fun (ds, s) => (finishDec s len b0 b1).map fun s => (ds, s.mem, s.ctxs)

/-- Segments in a row. -/
def decSegs (buf : List UInt8) (o : Nat) (ctxs : List Nat) : List (Nat × Shape) → Option (List (List Nat) × List UInt8)
  | [] => some ([], buf)
  | (len, sh) :: l => (decSeg buf o ctxs len sh).bind fun (ds, buf, ctxs) =>
    (decSegs buf (o + len) ctxs l).map fun (dss, buf) => (ds :: dss, buf)

/-! ## The decoder leaves its buffer alone -/

theorem bytein_mem {s s' : Mqc} (h : bytein s = some s') : s'.mem = s.mem ∧ s'.start = s.start ∧ s'.ctxs = s.ctxs := by
  unfold bytein at h
  rw [Option.bind_eq_some_iff] at h
  obtain ⟨l, _, h⟩ := h
  rw [Option.map_eq_some_iff] at h
  obtain ⟨b, _, h⟩ := h
  subst h
  split
  · split <;> exact ⟨rfl, rfl, rfl⟩
  · exact ⟨rfl, rfl, rfl⟩

theorem renormd_mem : ∀ (fuel : Nat) {s s' : Mqc}, renormd fuel s = some s' → s'.mem = s.mem ∧ s'.start = s.start := by
  intro fuel
  induction fuel with
  | zero => intro s s' h; simp [renormd] at h
  | succ fuel ih =>
    intro s s' h
    unfold renormd at h
    rw [Option.bind_eq_some_iff] at h
    obtain ⟨u, hu, h⟩ := h
    have hum : u.mem = s.mem ∧ u.start = s.start := by
      split at hu
      · have := bytein_mem hu; exact ⟨this.1, this.2.1⟩
      · injection hu with hu; subst hu; exact ⟨rfl, rfl⟩
    dsimp only at h
    split at h
    · injection h with h
      subst h
      exact hum
    · have := ih h
      exact ⟨this.1.trans hum.1, this.2.trans hum.2⟩

theorem decode_mem {s s' : Mqc} {cx d : Nat} (h : decode s cx = some (d, s')) : s'.mem = s.mem ∧ s'.start = s.start := by
  have hR : ∀ s s' : Mqc, renormd 32 s = some s' → s'.mem = s.mem ∧ s'.start = s.start := fun s s' h => renormd_mem 32 h
  unfold decode at h
  generalize renormd 32 = R at h hR
  have key : ∀ (t : Mqc) (v : Nat) (dd : Nat), t.mem = s.mem → t.start = s.start →
      (R (setCtx t cx v)).map (fun s => (dd, s)) = some (d, s') → s'.mem = s.mem ∧ s'.start = s.start := by
    intro t v dd h1 h2 h3
    rw [Option.map_eq_some_iff] at h3
    obtain ⟨u, hu, h3⟩ := h3
    injection h3 with _ h3
    subst h3
    have := hR _ _ hu
    exact ⟨this.1.trans h1, this.2.trans h2⟩
  rw [Option.bind_eq_some_iff] at h
  obtain ⟨st, _, h⟩ := h
  dsimp only at h
  generalize wsub s.a st.qe = a1 at h
  generalize wsub s.c (shl st.qe 16) = c1 at h
  split at h
  · split at h
    · exact key { s with a := st.qe } _ _ rfl rfl h
    · exact key { s with a := st.qe } _ _ rfl rfl h
  · split at h
    · split at h
      · exact key { s with a := a1, c := c1 } _ _ rfl rfl h
      · exact key { s with a := a1, c := c1 } _ _ rfl rfl h
    · injection h with h
      injection h with _ h
      subst h
      exact ⟨rfl, rfl⟩

theorem decodeAll_mem : ∀ (cxs : List Nat) {s s' : Mqc} {ds : List Nat}, decodeAll s cxs = some (ds, s') → s'.mem = s.mem ∧ s'.start = s.start := by
  intro cxs
  induction cxs with
  | nil => intro s s' ds h; injection h with h; injection h with _ h; subst h; exact ⟨rfl, rfl⟩
  | cons cx cxs ih =>
    intro s s' ds h
    unfold decodeAll at h
    rw [Option.bind_eq_some_iff] at h
    obtain ⟨⟨d, t⟩, ht, h⟩ := h
    rw [Option.map_eq_some_iff] at h
    obtain ⟨⟨ds', t'⟩, ht', h⟩ := h
    injection h with _ h
    subst h
    have h1 := decode_mem ht
    have h2 := ih ht'
    exact ⟨h2.1.trans h1.1, h2.2.trans h1.2⟩

theorem initDec_mem {buf : List UInt8} {o len : Nat} {ctxs : List Nat} {s : Mqc} (h : initDec buf o len ctxs = some s) :
    guard buf o len = some s.mem ∧ s.start = o := by
  unfold initDec at h
  rw [Option.bind_eq_some_iff] at h
  obtain ⟨mem, hm, h⟩ := h
  rw [Option.bind_eq_some_iff] at h
  obtain ⟨c, _, h⟩ := h
  rw [Option.map_eq_some_iff] at h
  obtain ⟨t, ht, h⟩ := h
  subst h
  have := bytein_mem ht
  exact ⟨by rw [hm, this.1], this.2.1⟩

theorem rawDecode_mem {s s' : Mqc} {d : Nat} (h : rawDecode s = some (d, s')) : s'.mem = s.mem ∧ s'.start = s.start ∧ s'.ctxs = s.ctxs := by
  unfold rawDecode at h
  rw [Option.bind_eq_some_iff] at h
  obtain ⟨t, ht, h⟩ := h
  have htm : t.mem = s.mem ∧ t.start = s.start ∧ t.ctxs = s.ctxs := by
    split at ht
    · rw [Option.map_eq_some_iff] at ht
      obtain ⟨b, _, ht⟩ := ht
      subst ht
      split
      · split <;> exact ⟨rfl, rfl, rfl⟩
      · exact ⟨rfl, rfl, rfl⟩
    · injection ht with ht; subst ht; exact ⟨rfl, rfl, rfl⟩
  dsimp only at h
  split at h
  · injection h with h
    injection h with _ h
    subst h
    exact htm
  · simp at h

theorem rawDecodeAll_mem : ∀ (n : Nat) {s s' : Mqc} {ds : List Nat}, rawDecodeAll n s = some (ds, s') →
    s'.mem = s.mem ∧ s'.start = s.start ∧ s'.ctxs = s.ctxs := by
  intro n
  induction n with
  | zero => intro s s' ds h; injection h with h; injection h with _ h; subst h; exact ⟨rfl, rfl, rfl⟩
  | succ n ih =>
    intro s s' ds h
    unfold rawDecodeAll at h
    rw [Option.bind_eq_some_iff] at h
    obtain ⟨⟨d, t⟩, ht, h⟩ := h
    rw [Option.map_eq_some_iff] at h
    obtain ⟨⟨ds', t'⟩, ht', h⟩ := h
    injection h with _ h
    subst h
    have h1 := rawDecode_mem ht
    have h2 := ih ht'
    exact ⟨h2.1.trans h1.1, h2.2.1.trans h1.2.1, h2.2.2.trans h1.2.2⟩

/-! ## One segment -/

/-- The bytes from `a` up to `b`. -/
def bytes (mem : List UInt8) (a b : Nat) : List UInt8 := (mem.drop a).take (b - a)

/-- All decisions of a segment are 0 or 1. -/
def Seg.Bin (sg : Seg) : Prop := ∀ d ∈ sg.bits, d ≤ 1

/-- What one segment guarantees, from position `p`. -/
structure SegOk (mem0 : List UInt8) (p : Nat) (ctxs0 : List Nat) (s1 : Mqc) (sg : Seg) : Prop where
  len : s1.mem.length = mem0.length
  le : p ≤ s1.bp
  fits : s1.bp ≤ mem0.length
  low : ∀ i, i < p → s1.mem[i]? = mem0[i]?
  nm : NoMarker (bytes s1.mem p s1.bp)
  last : (bytes s1.mem p s1.bp).getLast? ≠ some 255
  dec : ∀ (buf : List UInt8) (o : Nat), bytes buf o (o + (s1.bp - p)) = bytes s1.mem p s1.bp → o + (s1.bp - p) + 2 ≤ buf.length →
    decSeg buf o ctxs0 (s1.bp - p) sg.shape = some (sg.bits, buf, s1.ctxs)

theorem bytes_eq {mem d : List UInt8} {a b : Nat} (hb : b = a + d.length) (h : ∀ i, i < d.length → mem[a + i]? = d[i]?) : bytes mem a b = d := by
  unfold bytes
  rw [hb, Nat.add_sub_cancel_left]
  exact slice_eq h

theorem slice_len {mem d : List UInt8} {a : Nat} (h : ∀ i, i < d.length → mem[a + i]? = d[i]?) (ha : a ≤ mem.length) : a + d.length ≤ mem.length := by
  by_contra hc
  have h1 : mem.length - a < d.length := by omega
  have h2 := h (mem.length - a) h1
  rw [List.getElem?_eq_none (by omega), List.getElem?_eq_getElem h1] at h2
  simp at h2

theorem finish_any {s : Mqc} {buf : List UInt8} {o len : Nat} (hroom : o + len + 2 ≤ buf.length) (hg : guard buf o len = some s.mem) (hs : s.start = o) :
    ∃ b0 b1 s', buf[o + len]? = some b0 ∧ buf[o + len + 1]? = some b1 ∧ finishDec s len b0 b1 = some s' ∧ s'.mem = buf ∧ s'.ctxs = s.ctxs := by
  have h0 : buf[o + len]? = some (buf[o + len]'(by omega)) := List.getElem?_eq_getElem (by omega)
  have h1 : buf[o + len + 1]? = some (buf[o + len + 1]'(by omega)) := List.getElem?_eq_getElem (by omega)
  rw [guard_any (by omega)] at hg
  injection hg with hg
  obtain ⟨s', hf, hm⟩ := finish_restores (s := s) (by omega) h0 h1 hg.symm hs
  refine ⟨_, _, s', h0, h1, hf, hm, ?_⟩
  unfold finishDec at hf
  rw [Option.bind_eq_some_iff] at hf
  obtain ⟨m, _, hf⟩ := hf
  rw [Option.map_eq_some_iff] at hf
  obtain ⟨m', _, hf⟩ := hf
  rw [← hf]

theorem codeMq_ok {s0 s1 : Mqc} {er : Bool} {syms : List (Nat × Nat)} (h0 : Fresh s0) (hb : (Seg.mq er syms).Bin) (h : codeMq s0 er syms = some s1) :
    SegOk s0.mem (s0.bp + 1) s0.ctxs s1 (.mq er syms) ∧ s1.start = s0.start := by
  unfold codeMq at h
  rw [Option.bind_eq_some_iff] at h
  obtain ⟨t, ht, h⟩ := h
  have h2 : flush t = some s1 ∨ ertermEnc t = some s1 := by
    split at h
    · exact Or.inr h
    · exact Or.inl h
  obtain ⟨d, g1, g2, g3, g4, g5, g6, g7, g8⟩ := segment h0 (fun p hp => hb p.2 (List.mem_map_of_mem hp)) ht h2
  have hbd := bytes_eq g3 g4
  obtain ⟨b, hbb, _⟩ := h0.b
  have hlt : s0.bp < s0.mem.length := (List.getElem?_eq_some_iff.mp hbb).1
  have hsl := slice_len g4 (by omega)
  have hlen : s1.bp - (s0.bp + 1) = d.length := by omega
  refine ⟨⟨g5, by omega, by omega, fun i hi => g6 i (by omega), by rw [hbd]; exact g1, by rw [hbd]; exact g2, ?_⟩, g7⟩
  intro buf o hbuf hroom
  rw [hlen] at hbuf hroom ⊢
  rw [hbd] at hbuf
  unfold bytes at hbuf
  rw [Nat.add_sub_cancel_left] at hbuf
  obtain ⟨sd, sd', k1, k2, k3⟩ := g8 buf o hbuf hroom
  have m1 := initDec_mem k1
  have m2 := decodeAll_mem _ k2
  obtain ⟨b0, b1, sf, q1, q2, q3, q4, q5⟩ := finish_any (s := sd') hroom (by rw [m2.1]; exact m1.1) (by rw [m2.2]; exact m1.2)
  show decSeg buf o s0.ctxs d.length (.mq (syms.map Prod.fst)) = _
  simp only [decSeg]
  rw [q1, Option.bind_some, q2, Option.bind_some, k1, Option.bind_some, k2, Option.bind_some]
  simp only [q3, Option.map_some, q4, q5, k3]
  rfl

theorem encSeg_ok {s s1 : Mqc} {sg : Seg} (hb : sg.Bin) (h : encSeg s sg = some s1) : SegOk s.mem s.bp s.ctxs s1 sg ∧ s1.start = s.start ∧ s.start ≤ s.bp := by
  cases sg with
  | mq er syms =>
    unfold encSeg at h
    rw [Option.bind_eq_some_iff] at h
    obtain ⟨s0, h0, h⟩ := h
    obtain ⟨r1, r2, r3, r4, r5⟩ := restart_fresh h0
    obtain ⟨k1, k2⟩ := codeMq_ok r1 hb h
    rw [r2, r3, r4] at k1
    refine ⟨k1, k2.trans r5, ?_⟩
    unfold restartInitEnc at h0
    split at h0
    · simp at h0
    · omega
  | raw er bs =>
    unfold encSeg at h
    rw [Option.bind_eq_some_iff] at h
    obtain ⟨s0, h0, h⟩ := h
    rw [Option.bind_eq_some_iff] at h
    obtain ⟨t, ht, h⟩ := h
    obtain ⟨d, g1, g2, g3, g4, g5, g6, g7, g8, g9⟩ := raw_segment (bs := bs) h0 hb ht h
    have hbd := bytes_eq g3 g4
    have hpre : s.bp ≤ s.mem.length ∧ s.start ≤ s.bp := by
      unfold bypassInitEnc at h0
      split at h0
      · simp at h0
      · rw [Option.bind_eq_some_iff] at h0
        obtain ⟨b, hb', _⟩ := h0
        have := (List.getElem?_eq_some_iff.mp hb').1
        omega
    have hsl := slice_len g4 (by omega)
    have hlen : s1.bp - s.bp = d.length := by omega
    refine ⟨⟨g5, by omega, by omega, g6, by rw [hbd]; exact stuffed_nm g1, by rw [hbd]; exact g2, ?_⟩, g7, hpre.2⟩
    intro buf o hbuf hroom
    rw [hlen] at hbuf hroom ⊢
    rw [hbd] at hbuf
    unfold bytes at hbuf
    rw [Nat.add_sub_cancel_left] at hbuf
    obtain ⟨sd, sd', k1, k2⟩ := g9 buf o s.ctxs hbuf hroom
    have m2 := rawDecodeAll_mem _ k2
    have m1 : guard buf o d.length = some sd.mem ∧ sd.start = o ∧ sd.ctxs = s.ctxs := by
      unfold rawInitDec at k1
      rw [Option.map_eq_some_iff] at k1
      obtain ⟨m, hm, k1⟩ := k1
      subst k1
      exact ⟨hm, rfl, rfl⟩
    obtain ⟨b0, b1, sf, q1, q2, q3, q4, q5⟩ := finish_any (s := sd') hroom (by rw [m2.1]; exact m1.1) (by rw [m2.2.1]; exact m1.2.1)
    show decSeg buf o s.ctxs d.length (.raw bs.length) = _
    simp only [decSeg]
    rw [q1, Option.bind_some, q2, Option.bind_some, k1, Option.bind_some, k2, Option.bind_some]
    simp only [q3, Option.map_some, q4, q5, m2.2.2, m1.2.2, g8]
    rfl

/-! ## Segments in a row -/

theorem bytes_sub' {a b : List UInt8} {p q n : Nat} (h : bytes a p (p + n) = bytes b q (q + n)) (k l : Nat) (hl : k + l ≤ n) :
    bytes a (p + k) (p + k + l) = bytes b (q + k) (q + k + l) := by
  have h1 : ∀ i, i < n → a[p + i]? = b[q + i]? := by
    intro i hi
    unfold bytes at h
    rw [Nat.add_sub_cancel_left, Nat.add_sub_cancel_left] at h
    have h' : ((a.drop p).take n)[i]? = ((b.drop q).take n)[i]? := by rw [h]
    rw [List.getElem?_take_of_lt hi, List.getElem?_take_of_lt hi, List.getElem?_drop, List.getElem?_drop] at h'
    exact h'
  unfold bytes
  rw [Nat.add_sub_cancel_left, Nat.add_sub_cancel_left]
  apply List.ext_getElem?
  intro i
  rw [List.getElem?_take, List.getElem?_take]
  split
  · rw [List.getElem?_drop, List.getElem?_drop, Nat.add_assoc, Nat.add_assoc, h1 _ (by omega)]
  · rfl

theorem bytes_congr {a b : List UInt8} {p q : Nat} (h : ∀ i, i < q → a[i]? = b[i]?) : bytes a p q = bytes b p q := by
  unfold bytes
  apply List.ext_getElem?
  intro i
  rw [List.getElem?_take, List.getElem?_take]
  split
  · rw [List.getElem?_drop, List.getElem?_drop, h _ (by omega)]
  · rfl

theorem encSegs_ok : ∀ (l : List Seg) {s s2 : Mqc} {ls : List Nat}, (∀ sg ∈ l, sg.Bin) → encSegs s l = some (ls, s2) →
    s2.mem.length = s.mem.length ∧ (∀ i, i < s.bp → s2.mem[i]? = s.mem[i]?) ∧ s2.bp = s.bp + ls.sum ∧ s2.start = s.start ∧ ls.length = l.length ∧
    ∀ (buf : List UInt8) (o : Nat), bytes buf o (o + ls.sum) = bytes s2.mem s.bp s2.bp → o + ls.sum + 2 ≤ buf.length →
      decSegs buf o s.ctxs (ls.zip (l.map Seg.shape)) = some (l.map Seg.bits, buf) := by
  intro l
  induction l with
  | nil =>
    intro s s2 ls _ h
    injection h with h
    injection h with h1 h2
    subst h1 h2
    exact ⟨rfl, fun _ _ => rfl, rfl, rfl, rfl, fun _ _ _ _ => rfl⟩
  | cons sg l ih =>
    intro s s2 ls hb h
    unfold encSegs at h
    rw [Option.bind_eq_some_iff] at h
    obtain ⟨s1, h1, h⟩ := h
    rw [Option.map_eq_some_iff] at h
    obtain ⟨⟨ls', s2'⟩, h2, h⟩ := h
    injection h with e1 e2
    subst e2
    obtain ⟨k1, k2, k3⟩ := encSeg_ok (hb sg List.mem_cons_self) h1
    obtain ⟨i1, i2, i3, i4, i5, i6⟩ := ih (fun x hx => hb x (List.mem_cons_of_mem _ hx)) h2
    have hle := k1.le
    have hn : numbytes s1 - numbytes s = s1.bp - s.bp := by unfold numbytes; rw [k2]; omega
    rw [hn] at e1
    subst e1
    have hsum : ((s1.bp - s.bp) :: ls').sum = (s1.bp - s.bp) + ls'.sum := by simp
    rw [hsum]
    refine ⟨i1.trans k1.len, fun i hi => (i2 i (by omega)).trans (k1.low i hi), by omega, i4.trans k2, by simp [i5], ?_⟩
    intro buf o hbuf hroom
    have hs2 : s2'.bp = s.bp + ((s1.bp - s.bp) + ls'.sum) := by omega
    rw [hs2] at hbuf
    have hbA := bytes_sub' hbuf 0 (s1.bp - s.bp) (by omega)
    have hbB := bytes_sub' hbuf (s1.bp - s.bp) ls'.sum (by omega)
    rw [Nat.add_zero, Nat.add_zero, show s.bp + (s1.bp - s.bp) = s1.bp by omega, bytes_congr i2] at hbA
    rw [show s.bp + (s1.bp - s.bp) = s1.bp by omega, show s1.bp + ls'.sum = s2'.bp by omega] at hbB
    have hd := k1.dec buf o hbA (by omega)
    have ht := i6 buf (o + (s1.bp - s.bp)) hbB (by omega)
    show decSegs buf o s.ctxs ((s1.bp - s.bp, sg.shape) :: ls'.zip (l.map Seg.shape)) = _
    unfold decSegs
    rw [hd, Option.bind_some]
    simp only [ht, Option.map_some]
    rfl

theorem encBlock_ok {mem : List UInt8} {start : Nat} {ctxs : List Nat} {er : Bool} {syms : List (Nat × Nat)} {l : List Seg} {ls : List Nat} {s : Mqc}
    (hb0 : (Seg.mq er syms).Bin) (hb : ∀ sg ∈ l, sg.Bin) (h : encBlock mem start ctxs er syms l = some (ls, s)) :
    s.mem.length = mem.length ∧ (∀ i, i < start → s.mem[i]? = mem[i]?) ∧ numbytes s = ls.sum ∧ s.start = start ∧ s.bp = start + ls.sum ∧ ls.length = l.length + 1 ∧
    ∀ (buf : List UInt8) (o : Nat), bytes buf o (o + ls.sum) = bytes s.mem start s.bp → o + ls.sum + 2 ≤ buf.length →
      decSegs buf o ctxs (ls.zip ((Seg.mq er syms :: l).map Seg.shape)) = some ((Seg.mq er syms :: l).map Seg.bits, buf) := by
  unfold encBlock at h
  rw [Option.bind_eq_some_iff] at h
  obtain ⟨s0, h0, h⟩ := h
  rw [Option.bind_eq_some_iff] at h
  obtain ⟨s1, h1, h⟩ := h
  rw [Option.map_eq_some_iff] at h
  obtain ⟨⟨ls', s2⟩, h2, h⟩ := h
  injection h with e1 e2
  subst e2
  obtain ⟨f1, f2, f3, f4, f5⟩ := initEnc_fresh h0
  obtain ⟨k1, k2⟩ := codeMq_ok f1 hb0 h1
  rw [f2, f3, f4] at k1
  obtain ⟨i1, i2, i3, i4, i5, i6⟩ := encSegs_ok l hb h2
  have hle := k1.le
  have hst : s1.start = start := k2.trans f5
  have hn : numbytes s1 = s1.bp - start := by unfold numbytes; rw [hst]
  rw [hn] at e1
  subst e1
  have hsum : ((s1.bp - start) :: ls').sum = (s1.bp - start) + ls'.sum := by simp
  rw [hsum]
  refine ⟨i1.trans k1.len, fun i hi => (i2 i (by omega)).trans (k1.low i hi), ?_, i4.trans hst, by omega, by simp [i5], ?_⟩
  · unfold numbytes; rw [i4, hst]; omega
  intro buf o hbuf hroom
  have hs2 : s2.bp = start + ((s1.bp - start) + ls'.sum) := by omega
  rw [hs2] at hbuf
  have hbA := bytes_sub' hbuf 0 (s1.bp - start) (by omega)
  have hbB := bytes_sub' hbuf (s1.bp - start) ls'.sum (by omega)
  rw [Nat.add_zero, Nat.add_zero, show start + (s1.bp - start) = s1.bp by omega, bytes_congr i2] at hbA
  rw [show start + (s1.bp - start) = s1.bp by omega, show s1.bp + ls'.sum = s2.bp by omega] at hbB
  have hd := k1.dec buf o hbA (by omega)
  have ht := i6 buf (o + (s1.bp - start)) hbB (by omega)
  show decSegs buf o ctxs ((s1.bp - start, (Seg.mq er syms).shape) :: ls'.zip (l.map Seg.shape)) = _
  unfold decSegs
  rw [hd, Option.bind_some]
  simp only [ht, Option.map_some]
  rfl

end Jp2.Mqc

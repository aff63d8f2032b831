import Verif.Jp2.T1Sim
import Verif.Jp2.MqcSeg
/-!
# Segments made of several passes

The coder is not restarted between the passes of a segment, but its contexts may be reset.
-/
namespace Jp2.T1
open Jp2.Mqc (Mqc NoMarker Fresh Closed FutS DR Lv Qv keep startCtxs RE0 bytes)

/-- Reset of the contexts after a pass. -/
def rst (rs : Bool) (s : Mqc) : Mqc := if rs then { s with ctxs := startCtxs } else s

theorem rst_fields (rs : Bool) (s : Mqc) : (rst rs s).mem = s.mem ∧ (rst rs s).start = s.start ∧ (rst rs s).bp = s.bp ∧ (rst rs s).c = s.c ∧
    (rst rs s).a = s.a ∧ (rst rs s).ct = s.ct := by
  unfold rst; split <;> exact ⟨rfl, rfl, rfl, rfl, rfl, rfl⟩

theorem rst_ctxs {rs : Bool} {s t : Mqc} (h : s.ctxs = t.ctxs) : (rst rs s).ctxs = (rst rs t).ctxs := by
  unfold rst; split
  · rfl
  · exact h

theorem rst_es {rs : Bool} {s : Mqc} {mem0 : List UInt8} {base : Nat} {e : List UInt8} (h : Mqc.ES s mem0 base e) : Mqc.ES (rst rs s) mem0 base e := by
  unfold rst; split
  · exact ⟨⟨h.rel.bp, h.rel.len, h.rel.low, h.rel.fake, h.rel.bytes, h.rel.st⟩, h.inv, h.ct1, h.ct2, h.ct3⟩
  · exact h

theorem rst_dr {rs : Bool} {s : Mqc} {d : List UInt8} {L q k : Nat} (h : DR s d L q k) : DR (rst rs s) d L q k := by
  unfold rst; split
  · exact ⟨h.buf, h.bp, h.k1, h.ct, h.pos, h.c⟩
  · exact h

theorem rst_re {rs : Bool} {s : Mqc} {mem0 : List UInt8} {base : Nat} {e : List UInt8} {w : List Nat} (h : RE0 s mem0 base e w) :
    RE0 (rst rs s) mem0 base e w := by
  unfold rst; split
  · rcases h with h | ⟨h, h2⟩
    · exact Or.inl ⟨⟨h.m.bp, h.m.pos, h.m.len, h.m.low, h.m.prev, h.m.bytes, h.m.st⟩, h.ct1, h.ct2, h.c1, h.c2, h.bits, h.ne⟩
    · exact Or.inr ⟨⟨h.bp, h.pos, h.len, h.low, h.prev, h.bytes, h.st⟩, h2⟩
  · exact h

/-- The decisions of one pass go to the coder. -/
def codeTr (raw : Bool) (s : Mqc) (tr : List Sym) : Option Mqc := if raw then Mqc.bypassEncAll s (tr.map Prod.snd) else Mqc.encodeAll s tr

/-- Several passes, each followed by the optional reset. -/
def runAll (raw rs : Bool) : Mqc → List (List Sym) → Option Mqc
  | s, [] => some s
  | s, tr :: l => (codeTr raw s tr).bind fun s => runAll raw rs (rst rs s) l

/-- The decoder reads several passes; it resets the contexts only if they are not raw. -/
def PlaysR (raw rs : Bool) : Mqc → List (List Sym) → Mqc → Prop
  | s, [], s' => s = s'
  | s, tr :: l, s' => ∃ u, Plays mqcCoder raw s tr u ∧ PlaysR raw rs (rst (rs && !raw) u) l s'

theorem plays_mq : ∀ (l : List Sym) {s s' : Mqc}, Mqc.decodeAll s (l.map Prod.fst) = some (l.map Prod.snd, s') → Plays mqcCoder false s l s' := by
  intro l
  induction l with
  | nil => intro s s' h; injection h with h; injection h with _ h
  | cons p l ih =>
    intro s s' h
    obtain ⟨cx, d⟩ := p
    simp only [List.map_cons] at h
    unfold Mqc.decodeAll at h
    rw [Option.bind_eq_some_iff] at h
    obtain ⟨⟨d', u⟩, hu, h⟩ := h
    rw [Option.map_eq_some_iff] at h
    obtain ⟨⟨ds, u'⟩, hu', h⟩ := h
    injection h with h1 h2
    injection h1 with h1 h3
    subst h1 h2 h3
    exact ⟨u, hu, ih hu'⟩

theorem plays_raw : ∀ (l : List Sym) {s s' : Mqc}, Mqc.rawDecodeAll l.length s = some (l.map Prod.snd, s') → Plays mqcCoder true s l s' := by
  intro l
  induction l with
  | nil => intro s s' h; injection h with h; injection h with _ h
  | cons p l ih =>
    intro s s' h
    obtain ⟨cx, d⟩ := p
    simp only [List.map_cons, List.length_cons] at h
    unfold Mqc.rawDecodeAll at h
    rw [Option.bind_eq_some_iff] at h
    obtain ⟨⟨d', u⟩, hu, h⟩ := h
    rw [Option.map_eq_some_iff] at h
    obtain ⟨⟨ds, u'⟩, hu', h⟩ := h
    injection h with h1 h2
    injection h1 with h1 h3
    subst h1 h2 h3
    exact ⟨u, hu, ih hu'⟩

/-- Arithmetic-coded passes. -/
theorem encRuns_spec {rs : Bool} {mem0 : List UInt8} {base : Nat} : ∀ (l : List (List Sym)) {s s' : Mqc} {e : List UInt8},
    Mqc.ES s mem0 base e → 0x8000 ≤ s.a → (∀ tr ∈ l, ∀ p ∈ tr, p.2 ≤ 1) → runAll false rs s l = some s' →
    ∃ e', Mqc.ES s' mem0 base e' ∧ 0x8000 ≤ s'.a ∧ s'.start = s.start ∧ Qv e s.ct ≤ Qv e' s'.ct ∧
      (s.a = 0x8000 → s.c = 0 → Qv e s.ct < Qv e' s'.ct ∨ (s'.a = 0x8000 ∧ s'.c = 0)) ∧
      ∀ f : List UInt8, NoMarker f → FutS s'.c s'.a s'.ct e' f → FutS s.c s.a s.ct e f ∧
        ∀ (sd : Mqc) (k : Nat), DR sd (keep f) (Lv e s.ct s.c) (Qv e s.ct) k → sd.a = s.a → sd.ctxs = s.ctxs →
          ∃ sd' k', PlaysR false rs sd l sd' ∧ sd'.ctxs = s'.ctxs ∧ DR sd' (keep f) (Lv e' s'.ct s'.c) (Qv e' s'.ct) k' ∧ sd'.a = s'.a ∧
            sd'.mem = sd.mem ∧ sd'.start = sd.start := by
  intro l
  induction l with
  | nil =>
    intro s s' e hs ha _ h
    injection h with h
    subst h
    exact ⟨e, hs, ha, rfl, Nat.le_refl _, fun h1 h2 => Or.inr ⟨h1, h2⟩,
      fun f _ hf => ⟨hf, fun sd k hdr hsa hcx => ⟨sd, k, rfl, hcx, hdr, hsa, rfl, rfl⟩⟩⟩
  | cons tr l ih =>
    intro s s' e hs ha hb h
    unfold runAll codeTr at h
    rw [if_neg (by simp), Option.bind_eq_some_iff] at h
    obtain ⟨t, ht, h⟩ := h
    obtain ⟨e1, g1, g2, g3, g4, g5, g6⟩ := Mqc.encodeAll_spec tr hs ha (hb tr List.mem_cons_self) ht
    obtain ⟨r1, r2, r3, r4, r5, r6⟩ := rst_fields rs t
    obtain ⟨e', k1, k2, k3, k4, k5, k6⟩ := ih (rst_es g1) (by rw [r5]; exact g2) (fun x hx => hb x (List.mem_cons_of_mem _ hx)) h
    rw [r6] at k4 k5
    rw [r5, r4] at k5
    rw [r4, r5, r6] at k6
    refine ⟨e', k1, k2, k3.trans (r2.trans g3), by omega, ?_, ?_⟩
    · intro h1 h2
      by_cases hn : tr = []
      · subst hn
        injection ht with ht
        subst ht
        have hq := k5 h1 h2
        rcases hq with hq | hq
        · left; omega
        · right; exact hq
      · left
        have := g5 hn h1
        omega
    · intro f hnm hf
      obtain ⟨hf1, hdec⟩ := k6 f hnm hf
      obtain ⟨hf2, hdec1⟩ := g6 f hnm hf1
      refine ⟨hf2, ?_⟩
      intro sd k hdr hsa hcx
      obtain ⟨sd1, k1', d1, d2, d3, d4⟩ := hdec1 sd k hdr hsa hcx
      obtain ⟨q1, q2, q3, q4, q5, q6⟩ := rst_fields rs sd1
      obtain ⟨sd', k2', d5, d6, d7, d8, d9, d10⟩ := hdec (rst rs sd1) k1' (rst_dr d3) (by rw [q5, d4]) (rst_ctxs d2)
      have hm := Mqc.decodeAll_mem _ d1
      refine ⟨sd', k2', ⟨sd1, plays_mq _ d1, ?_⟩, d6, d7, d8, ?_, ?_⟩
      · rw [show (rs && !false) = rs by simp]; exact d5
      · rw [d9, q1, hm.1]
      · rw [d10, q2, hm.2]

/-- Termination of a pass. -/
def finTr (raw er : Bool) (s : Mqc) : Option Mqc := if raw then Mqc.bypassFlushEnc s er else if er then Mqc.ertermEnc s else Mqc.flush s

/-- What a segment of several passes, starting at offset `p`, guarantees. -/
structure SegR (mem0 : List UInt8) (p : Nat) (ctxs0 : List Nat) (s1 : Mqc) (raw rs : Bool) (trs : List (List Sym)) : Prop where
  len : s1.mem.length = mem0.length
  le : p ≤ s1.bp
  pos : 1 ≤ p
  fits : s1.bp ≤ mem0.length
  low : ∀ i, i < p → s1.mem[i]? = mem0[i]?
  last : ∃ b, s1.mem[s1.bp - 1]? = some b ∧ b ≠ 255
  dec : ∀ (buf : List UInt8) (o : Nat), bytes buf o (o + (s1.bp - p)) = bytes s1.mem p s1.bp → o + (s1.bp - p) + 2 ≤ buf.length →
    ∃ b0 b1 c c' cf, buf[o + (s1.bp - p)]? = some b0 ∧ buf[o + (s1.bp - p) + 1]? = some b1 ∧
      (if raw then Mqc.rawInitDec buf o (s1.bp - p) ctxs0 else Mqc.initDec buf o (s1.bp - p) ctxs0) = some c ∧
      PlaysR raw rs c trs c' ∧ Mqc.finishDec c' (s1.bp - p) b0 b1 = some cf ∧ cf.mem = buf ∧ cf.ctxs = (rst rs s1).ctxs

theorem last_byte {mem mem0 d : List UInt8} {p q : Nat} (hq : q = p + d.length) (hp : 1 ≤ p) (hd : ∀ i, i < d.length → mem[p + i]? = d[i]?)
    (hl : d.getLast? ≠ some 255) (hlow : mem[p - 1]? = mem0[p - 1]?) (h0 : ∃ b, mem0[p - 1]? = some b ∧ b ≠ 255) :
    ∃ b, mem[q - 1]? = some b ∧ b ≠ 255 := by
  rcases List.eq_nil_or_concat d with h | ⟨f, x, h⟩
  · subst h
    rw [hq, List.length_nil, Nat.add_zero, hlow]
    exact h0
  · have hlen : d.length = f.length + 1 := by rw [h]; simp
    refine ⟨x, ?_, ?_⟩
    · rw [show q - 1 = p + f.length by omega, hd _ (by omega), h]
      simp
    · intro hx
      apply hl
      rw [h, hx]
      simp

theorem playsR_snoc {raw rs : Bool} : ∀ {l : List (List Sym)} {tr : List Sym} {s u v : Mqc}, PlaysR raw rs s l u → Plays mqcCoder raw u tr v →
    PlaysR raw rs s (l ++ [tr]) (rst (rs && !raw) v) := by
  intro l
  induction l with
  | nil => intro tr s u v h1 h2; simp only [PlaysR] at h1; subst h1; exact ⟨v, h2, rfl⟩
  | cons x l ih => intro tr s u v h1 h2; obtain ⟨z, h3, h4⟩ := h1; exact ⟨z, h3, ih h4 h2⟩

theorem mqSeg_ok {rs er : Bool} {s0 t t1 s1 : Mqc} {trs : List (List Sym)} {tr : List Sym} (h0 : Fresh s0) (hb : ∀ x ∈ trs ++ [tr], ∀ p ∈ x, p.2 ≤ 1)
    (h1 : runAll false rs s0 trs = some t) (h2 : codeTr false t tr = some t1) (h3 : finTr false er t1 = some s1) :
    SegR s0.mem (s0.bp + 1) s0.ctxs s1 false rs (trs ++ [tr]) ∧ s1.start = s0.start := by
  have hes := Mqc.fresh_es h0
  obtain ⟨e', k1, k2, k3, k4, k5, k6⟩ := encRuns_spec trs hes (by rw [h0.a]) (fun x hx => hb x (List.mem_append_left _ hx)) h1
  have hbt : ∀ p ∈ tr, p.2 ≤ 1 := hb tr (by simp)
  unfold codeTr at h2
  rw [if_neg (by simp)] at h2
  obtain ⟨e2, g1, g2, g3, g4, g5, g6⟩ := Mqc.encodeAll_spec tr k1 k2 hbt h2
  have hfl : Mqc.flush t1 = some s1 ∨ Mqc.ertermEnc t1 = some s1 := by
    unfold finTr at h3
    rw [if_neg (by simp)] at h3
    split at h3
    · exact Or.inr h3
    · exact Or.inl h3
  obtain ⟨f, hcl, hst, hcx, hfut⟩ := Mqc.finish_closed h0 g1 g2 (by
    rcases k5 h0.a h0.c with hq | ⟨hq1, hq2⟩
    · left; omega
    · by_cases hn : tr = []
      · subst hn
        injection h2 with h2
        subst h2
        exact Or.inr hq2
      · have := g5 hn hq1
        left; omega) hfl
  obtain ⟨hf1, hdec2⟩ := g6 f hcl.nm hfut
  obtain ⟨_, hdec1⟩ := k6 f hcl.nm hf1
  obtain ⟨n1, n2⟩ := Mqc.nomarker_keep hcl.nm
  obtain ⟨b, hbb, hbne⟩ := h0.b
  have hlt : s0.bp < s0.mem.length := (List.getElem?_eq_some_iff.mp hbb).1
  have hlen := hcl.len
  have hsl := Mqc.slice_len hcl.bytes (by omega)
  have hbp := hcl.bp
  have hl : s1.bp - (s0.bp + 1) = (keep f).length := by omega
  have hbd := Mqc.bytes_eq hcl.bp hcl.bytes
  refine ⟨⟨hlen, by omega, by omega, by omega, fun i hi => hcl.low i (by omega), ?_, ?_⟩, hst.trans (g3.trans k3)⟩
  · exact last_byte hbp (by omega) hcl.bytes n2 (hcl.low _ (by omega)) ⟨b, by rw [Nat.add_sub_cancel]; exact hbb, hbne⟩
  · intro buf o hbuf hroom
    rw [hl] at hbuf hroom ⊢
    rw [hbd] at hbuf
    unfold bytes at hbuf
    rw [Nat.add_sub_cancel_left] at hbuf
    obtain ⟨sd, i1, i2, i3, i4⟩ := Mqc.initDec_spec n1 n2 s0.ctxs (Mqc.slice_get hbuf) (by omega)
    have hL : Lv [] s0.ct s0.c = 0 := by rw [h0.c]; unfold Mqc.Lv Mqc.Sv Mqc.W; simp
    have hQ : Qv [] s0.ct = 15 := by rw [h0.ct]; rfl
    obtain ⟨sd1, m1, d1, d2, d3, d4, d5, d6⟩ := hdec1 sd 2 (by rw [hL, hQ]; exact i2) (by rw [i3, h0.a]) i4
    obtain ⟨sd2, m2, f1, f2, f3, f4⟩ := hdec2 sd1 m1 d3 d4 d2
    have hm2 := Mqc.decodeAll_mem _ f1
    have hi := Mqc.initDec_mem i1
    obtain ⟨q1, q2, q3, q4, q5, q6⟩ := rst_fields rs sd2
    obtain ⟨b0, b1, sf, z1, z2, z3, z4, z5⟩ := Mqc.finish_any (s := rst rs sd2) hroom (by rw [q1, hm2.1, d5]; exact hi.1) (by rw [q2, hm2.2, d6]; exact hi.2)
    refine ⟨b0, b1, sd, rst rs sd2, sf, z1, z2, ?_, ?_, z3, z4, ?_⟩
    · rw [if_neg (by simp)]; exact i1
    · have := playsR_snoc d1 (plays_mq _ f1)
      rw [show (rs && !false) = rs by simp] at this
      exact this
    · rw [z5]
      exact rst_ctxs (f2.trans hcx.symm)

theorem bypassEncAll_append : ∀ (a b : List Nat) (s : Mqc), Mqc.bypassEncAll s (a ++ b) = (Mqc.bypassEncAll s a).bind fun s => Mqc.bypassEncAll s b := by
  intro a
  induction a with
  | nil => intro b s; rfl
  | cons d a ih =>
    intro b s
    simp only [List.cons_append, Mqc.bypassEncAll]
    cases Mqc.bypassEnc s d with
    | none => rfl
    | some t => simp only [Option.bind_some]; exact ih b t

theorem bypassEncAll_ctxs {s s' : Mqc} {mem0 : List UInt8} {base : Nat} {e : List UInt8} {w bs : List Nat} (h : RE0 s mem0 base e w) (hb : ∀ d ∈ bs, d ≤ 1)
    (hs : Mqc.bypassEncAll s bs = some s') : s'.ctxs = s.ctxs := (Mqc.bypassEncAll_spec bs h hb hs).choose_spec.2.2

/-- With raw passes the reset changes nothing: the contexts are the initial ones already. -/
theorem rst_idle {rs : Bool} {s : Mqc} (h : rs = true → s.ctxs = startCtxs) : rst rs s = s := by
  unfold rst; split
  · rename_i hr
    rw [← h hr]
  · rfl

theorem rawRuns {rs : Bool} {mem0 : List UInt8} {base : Nat} : ∀ (l : List (List Sym)) {s s' : Mqc} {e : List UInt8} {w : List Nat},
    RE0 s mem0 base e w → (∀ tr ∈ l, ∀ p ∈ tr, p.2 ≤ 1) → (rs = true → s.ctxs = startCtxs) → runAll true rs s l = some s' →
    Mqc.bypassEncAll s (l.flatten.map Prod.snd) = some s' ∧ s'.ctxs = s.ctxs := by
  intro l
  induction l with
  | nil => intro s s' e w _ _ _ h; injection h with h; subst h; exact ⟨rfl, rfl⟩
  | cons tr l ih =>
    intro s s' e w hre hb hrs h
    unfold runAll codeTr at h
    rw [if_pos rfl, Option.bind_eq_some_iff] at h
    obtain ⟨t, ht, h⟩ := h
    obtain ⟨e1, g1, g2, g3⟩ := Mqc.bypassEncAll_spec _ hre (fun d hd => by
      obtain ⟨p, hp, rfl⟩ := List.mem_map.mp hd
      exact hb tr List.mem_cons_self p hp) ht
    rw [rst_idle (fun hr => g3.trans (hrs hr))] at h
    obtain ⟨k1, k2⟩ := ih g1 (fun x hx => hb x (List.mem_cons_of_mem _ hx)) (fun hr => g3.trans (hrs hr)) h
    refine ⟨?_, k2.trans g3⟩
    rw [List.flatten_cons, List.map_append, bypassEncAll_append, ht, Option.bind_some]
    exact k1

theorem playsR_raw {rs : Bool} : ∀ (l : List (List Sym)) {s s' : Mqc}, Plays mqcCoder true s l.flatten s' → PlaysR true rs s l s' := by
  intro l
  induction l with
  | nil => intro s s' h; exact h
  | cons tr l ih =>
    intro s s' h
    rw [List.flatten_cons] at h
    obtain ⟨u, h1, h2⟩ := plays_append.mp h
    refine ⟨u, h1, ?_⟩
    rw [show (rs && !true) = false by simp]
    exact ih h2

theorem rawSeg_ok {rs er : Bool} {s s0 t t1 s1 : Mqc} {trs : List (List Sym)} {tr : List Sym} (h0 : Mqc.bypassInitEnc s = some s0)
    (hrs : rs = true → s.ctxs = startCtxs) (hb : ∀ x ∈ trs ++ [tr], ∀ p ∈ x, p.2 ≤ 1)
    (h1 : runAll true rs s0 trs = some t) (h2 : codeTr true t tr = some t1) (h3 : finTr true er t1 = some s1) :
    SegR s.mem s.bp s.ctxs s1 true rs (trs ++ [tr]) ∧ s1.start = s.start := by
  obtain ⟨i1, i2, i3⟩ := Mqc.bypassInit_spec h0
  have hpre : 1 ≤ s.bp ∧ s.bp ≤ s.mem.length ∧ ∃ b, s.mem[s.bp - 1]? = some b ∧ b ≠ 255 := by
    unfold Mqc.bypassInitEnc at h0
    split at h0
    · simp at h0
    · rw [Option.bind_eq_some_iff] at h0
      obtain ⟨b, hb', h0⟩ := h0
      have := (List.getElem?_eq_some_iff.mp hb').1
      split at h0
      · simp at h0
      · rename_i hne
        exact ⟨by omega, by omega, b, hb', hne⟩
  have hall : runAll true rs s0 (trs ++ [tr]) = some (rst rs t1) := by
    clear hb i1
    induction trs generalizing s0 with
    | nil =>
      injection h1 with h1
      subst h1
      show (codeTr true s0 tr).bind _ = _
      rw [h2, Option.bind_some]
      rfl
    | cons x trs ih =>
      rw [runAll, Option.bind_eq_some_iff] at h1
      obtain ⟨v, hv, h1⟩ := h1
      have key : ∀ (trs : List (List Sym)) (v : Mqc), runAll true rs v trs = some t → runAll true rs v (trs ++ [tr]) = some (rst rs t1) := by
        intro trs
        induction trs with
        | nil =>
          intro v hv
          injection hv with hv
          subst hv
          show (codeTr true v tr).bind _ = _
          rw [h2, Option.bind_some]
          rfl
        | cons x trs ih =>
          intro v hv
          rw [runAll, Option.bind_eq_some_iff] at hv
          obtain ⟨v', hv', hv⟩ := hv
          rw [List.cons_append, runAll, hv', Option.bind_some]
          exact ih _ hv
      rw [List.cons_append, runAll, hv, Option.bind_some]
      exact key _ _ h1
  obtain ⟨a1, a2⟩ := rawRuns _ i1 hb (fun hr => i3.trans (hrs hr)) hall
  have hcx1 : t1.ctxs = s.ctxs := by
    obtain ⟨c1, c2⟩ := rawRuns _ i1 (fun x hx => hb x (List.mem_append_left _ hx)) (fun hr => i3.trans (hrs hr)) h1
    obtain ⟨e, g1, _⟩ := Mqc.bypassEncAll_spec _ i1 (fun d hd => by
      obtain ⟨p, hp, rfl⟩ := List.mem_map.mp hd
      obtain ⟨x, hx, hp⟩ := List.mem_flatten.mp hp
      exact hb x (List.mem_append_left _ hx) p hp) c1
    unfold codeTr at h2
    rw [if_pos rfl] at h2
    rw [bypassEncAll_ctxs g1 (fun d hd => by
      obtain ⟨p, hp, rfl⟩ := List.mem_map.mp hd
      exact hb tr (by simp) p hp) h2, c2, i3]
  rw [rst_idle (fun hr => hcx1.trans (hrs hr))] at a1
  unfold finTr at h3
  rw [if_pos rfl] at h3
  obtain ⟨d, g1, g2, g3, g4, g5, g6, g7, g8, g9⟩ := Mqc.raw_segment h0 (fun d hd => by
      obtain ⟨p, hp, rfl⟩ := List.mem_map.mp hd
      obtain ⟨x, hx, hp⟩ := List.mem_flatten.mp hp
      exact hb x hx p hp) a1 h3
  obtain ⟨p1, p2, p3⟩ := hpre
  have hbd := Mqc.bytes_eq g3 g4
  have hsl := Mqc.slice_len g4 (by omega)
  have hlen : s1.bp - s.bp = d.length := by omega
  refine ⟨⟨g5, by omega, p1, by omega, g6, last_byte g3 p1 g4 g2 (g6 _ (by omega)) p3, ?_⟩, g7⟩
  intro buf o hbuf hroom
  rw [hlen] at hbuf hroom ⊢
  rw [hbd] at hbuf
  unfold bytes at hbuf
  rw [Nat.add_sub_cancel_left] at hbuf
  obtain ⟨sd, sd', k1, k2⟩ := g9 buf o s.ctxs hbuf hroom
  have m2 := Mqc.rawDecodeAll_mem _ k2
  have m1 : Mqc.guard buf o d.length = some sd.mem ∧ sd.start = o ∧ sd.ctxs = s.ctxs := by
    unfold Mqc.rawInitDec at k1
    rw [Option.map_eq_some_iff] at k1
    obtain ⟨m, hm, k1⟩ := k1
    subst k1
    exact ⟨hm, rfl, rfl⟩
  obtain ⟨b0, b1, sf, q1, q2, q3, q4, q5⟩ := Mqc.finish_any (s := sd') hroom (by rw [m2.1]; exact m1.1) (by rw [m2.2.1]; exact m1.2.1)
  refine ⟨b0, b1, sd, sd', sf, q1, q2, ?_, ?_, q3, q4, ?_⟩
  · rw [if_pos rfl]; exact k1
  · apply playsR_raw
    apply plays_raw
    rw [List.length_map] at k2
    exact k2
  · rw [q5, m2.2.2, m1.2.2, rst_idle (fun hr => g8.trans (hrs hr)), g8]

end Jp2.T1

import Verif.Jp2.MqcTerm
/-!
# Totality of the encoder; the decoder on arbitrary bytes
-/
namespace Jp2.Mqc
open Jp2.Bio (store)

theorem ctx_some {s : Mqc} {cx : Nat} (h : CtxsOk s.ctxs) (hcx : cx < s.ctxs.length) : ∃ st, ctxState s cx = some st := by
  unfold ctxState
  rw [List.getElem?_eq_getElem hcx, Option.bind_some]
  exact ⟨_, List.getElem?_eq_getElem (h _ (List.getElem_mem hcx))⟩

theorem ctxs_set {l : List Nat} {cx v : Nat} (h : CtxsOk l) (hv : v < states.length) : CtxsOk (l.set cx v) := by
  intro i hi
  rcases List.mem_or_eq_of_mem_set hi with h1 | h1
  · exact h i h1
  · rw [h1]; exact hv

theorem nctx_ok {st : State} {l : List Nat} {cx a d : Nat} (h : CtxsOk l) (hs : StOk st) :
    CtxsOk (nctx st l cx a d) ∧ (nctx st l cx a d).length = l.length := by
  unfold nctx
  split
  · split
    · exact ⟨ctxs_set h hs.n1, List.length_set ..⟩
    · exact ⟨h, rfl⟩
  · exact ⟨ctxs_set h hs.n2, List.length_set ..⟩

theorem encodeAll_total {mem0 : List UInt8} {base : Nat} (hb : base < mem0.length) : ∀ (syms : List (Nat × Nat)) {s : Mqc} {e : List UInt8},
    ES s mem0 base e → 0x8000 ≤ s.a → CtxsOk s.ctxs → (∀ p ∈ syms, p.1 < s.ctxs.length) →
    Qv e s.ct + 15 * syms.length ≤ 7 * (mem0.length - base - 1) + 26 →
    ∃ s' e', encodeAll s syms = some s' ∧ ES s' mem0 base e' ∧ 0x8000 ≤ s'.a ∧ Qv e' s'.ct ≤ Qv e s.ct + 15 * syms.length := by
  intro syms
  induction syms with
  | nil => intro s e hs ha _ _ _; exact ⟨s, e, rfl, hs, ha, Nat.le_add_right _ _⟩
  | cons p syms ih =>
    obtain ⟨cx, x⟩ := p
    intro s e hs ha hok hcx hroom
    rw [List.length_cons] at hroom
    obtain ⟨st, hst⟩ := ctx_some hok (hcx (cx, x) List.mem_cons_self)
    obtain ⟨t, ht⟩ := encode_total (d := x) hs ha hst hb (by omega)
    obtain ⟨e1, r, g1, g2, g3, g4, g5, g6, g7, g8, g9⟩ := encode_spec hs ha hst ht
    obtain ⟨_, hsel2⟩ := sel_le (ctx_ok hst) ha x
    have hr := shifts_le hsel2 g4
    obtain ⟨n1, n2⟩ := nctx_ok (cx := cx) (a := s.a) (d := x) hok (ctx_ok hst)
    obtain ⟨s', e', k1, k2, k3, k4⟩ := ih g1 g2 (by rw [g5]; exact n1)
      (fun p hp => by rw [g5, n2]; exact hcx p (List.mem_cons_of_mem _ hp)) (by omega)
    refine ⟨s', e', ?_, k2, k3, by rw [List.length_cons]; omega⟩
    unfold encodeAll
    rw [ht, Option.bind_some, k1]

theorem segment_total {s0 : Mqc} (h0 : Fresh s0) (hok : CtxsOk s0.ctxs) (syms : List (Nat × Nat)) (hcx : ∀ p ∈ syms, p.1 < s0.ctxs.length)
    (hroom : 15 * syms.length + 14 ≤ 7 * (s0.mem.length - s0.bp - 1)) :
    ∃ s1 s2, encodeAll s0 syms = some s1 ∧ flush s1 = some s2 := by
  obtain ⟨b, hb, _⟩ := h0.b
  have hlt : s0.bp < s0.mem.length := (List.getElem?_eq_some_iff.mp hb).1
  have hQ : Qv [] s0.ct = 15 := by rw [h0.ct]; rfl
  obtain ⟨s1, e1, k1, k2, k3, k4⟩ := encodeAll_total hlt syms (fresh_es h0) (by rw [h0.a]) hok hcx (by omega)
  have h7 := seven_le e1
  have hct := k2.ct2
  have hp : Pv e1 ≤ 15 * syms.length := by unfold Qv at k4 hQ; omega
  obtain ⟨s2, h2⟩ := flush_total k2 k3 (by omega)
  exact ⟨s1, s2, k1, h2⟩

/-! ## Arbitrary bytes -/

/-- The decoder's invariant on any data of length `len`. -/
structure DSafe (s : Mqc) (len : Nat) : Prop where
  bp : s.bp ≤ s.start + len
  room : s.start + len + 1 < s.mem.length
  g1 : s.mem[s.start + len]? = some 255
  g2 : s.mem[s.start + len + 1]? = some 255

theorem bytein_safe {s : Mqc} {len : Nat} (h : DSafe s len) : ∃ s', bytein s = some s' ∧ DSafe s' len ∧ 1 ≤ s'.ct ∧ s'.ct ≤ 8 ∧ s'.a = s.a ∧
    s'.ctxs = s.ctxs ∧ s'.mem = s.mem ∧ s'.start = s.start := by
  have hbp := h.bp
  have hr := h.room
  unfold bytein
  rw [List.getElem?_eq_getElem (show s.bp + 1 < s.mem.length by omega), List.getElem?_eq_getElem (show s.bp < s.mem.length by omega)]
  simp only [Option.bind_some, Option.map_some]
  have hstay : ∀ s' : Mqc, s'.bp = s.bp → s'.mem = s.mem → s'.start = s.start → DSafe s' len := by
    intro s' h1 h2 h3
    exact ⟨by rw [h1, h3]; exact hbp, by rw [h2, h3]; exact hr, by rw [h2, h3]; exact h.g1, by rw [h2, h3]; exact h.g2⟩
  have hadv : s.bp < s.start + len → ∀ s' : Mqc, s'.bp = s.bp + 1 → s'.mem = s.mem → s'.start = s.start → DSafe s' len := by
    intro hlt s' h1 h2 h3
    exact ⟨by rw [h1, h3]; omega, by rw [h2, h3]; exact hr, by rw [h2, h3]; exact h.g1, by rw [h2, h3]; exact h.g2⟩
  have hend : s.bp = s.start + len → s.mem[s.bp] = 255 ∧ s.mem[s.bp + 1] = 255 := by
    intro he
    have h1 := h.g1
    have h2 := h.g2
    rw [← he] at h1 h2
    exact ⟨(List.getElem?_eq_some_iff.mp h1).2, (List.getElem?_eq_some_iff.mp h2).2⟩
  split
  · rename_i hff
    split
    · refine ⟨_, rfl, hstay _ rfl rfl rfl, ?_, ?_, rfl, rfl, rfl, rfl⟩
      · show 1 ≤ 8; omega
      · show 8 ≤ 8; omega
    · rename_i h8f
      have hlt : s.bp < s.start + len := by
        by_contra hc
        obtain ⟨_, he2⟩ := hend (by omega)
        rw [he2] at h8f
        exact h8f (by decide)
      refine ⟨_, rfl, hadv hlt _ rfl rfl rfl, ?_, ?_, rfl, rfl, rfl, rfl⟩
      · show 1 ≤ 7; omega
      · show 7 ≤ 8; omega
  · rename_i hff
    have hlt : s.bp < s.start + len := by
      by_contra hc
      obtain ⟨he1, _⟩ := hend (by omega)
      exact hff he1
    refine ⟨_, rfl, hadv hlt _ rfl rfl rfl, ?_, ?_, rfl, rfl, rfl, rfl⟩
    · show 1 ≤ 8; omega
    · show 8 ≤ 8; omega

theorem renormd_safe {len : Nat} : ∀ (fuel n : Nat) {s : Mqc}, DSafe s len → s.ct ≤ 8 → s.a < 0x8000 → 0x8000 ≤ s.a * 2 ^ n → n ≤ fuel →
    ∃ s', renormd fuel s = some s' ∧ DSafe s' len ∧ s'.ct ≤ 8 ∧ 0x8000 ≤ s'.a ∧ s'.a < 2 ^ 16 ∧ s'.ctxs = s.ctxs ∧ s'.mem = s.mem ∧ s'.start = s.start := by
  intro fuel
  induction fuel with
  | zero =>
    intro n s _ _ ha hn hf
    rw [Nat.le_zero.mp hf] at hn
    omega
  | succ fuel ih =>
    intro n s h hct ha hn hf
    rcases n with _ | n
    · omega
    have hu : ∃ u, (if s.ct = 0 then bytein s else some s) = some u ∧ DSafe u len ∧ 1 ≤ u.ct ∧ u.ct ≤ 8 ∧ u.a = s.a ∧ u.ctxs = s.ctxs ∧
        u.mem = s.mem ∧ u.start = s.start := by
      by_cases h0 : s.ct = 0
      · rw [if_pos h0]; exact bytein_safe h
      · rw [if_neg h0]; exact ⟨s, rfl, h, by omega, hct, rfl, rfl, rfl, rfl⟩
    obtain ⟨u, hu, k1, k2, k3, k4, k5, k6, k7⟩ := hu
    have hsa : shl u.a 1 = s.a * 2 := by rw [k4, shl_eq (by omega), Nat.pow_one]
    have hsc : wsub u.ct 1 = u.ct - 1 := wsub_eq k2 (by omega)
    unfold renormd
    rw [hu, Option.bind_some]
    simp only [hsa, hsc]
    have hds : DSafe { u with a := s.a * 2, c := shl u.c 1, ct := u.ct - 1 } len := ⟨k1.bp, k1.room, k1.g1, k1.g2⟩
    by_cases hge : s.a * 2 ≥ 0x8000
    · rw [if_pos hge]
      exact ⟨_, rfl, hds, by show u.ct - 1 ≤ 8; omega, hge, by show s.a * 2 < _; omega, k5, k6, k7⟩
    · rw [if_neg hge]
      obtain ⟨s', g1, g2, g3, g4, g5, g6, g7, g8⟩ := ih n hds (by show u.ct - 1 ≤ 8; omega) (by show s.a * 2 < _; omega)
        (by show _ ≤ s.a * 2 * 2 ^ n; rw [Nat.pow_succ] at hn; nlinarith) (by omega)
      exact ⟨s', g1, g2, g3, g4, g5, g6.trans k5, g7.trans k6, g8.trans k7⟩

theorem decode_safe {s : Mqc} {len cx : Nat} (h : DSafe s len) (hct : s.ct ≤ 8) (ha : 0x8000 ≤ s.a) (ha2 : s.a < 2 ^ 16)
    (hok : CtxsOk s.ctxs) (hcx : cx < s.ctxs.length) :
    ∃ d s', decode s cx = some (d, s') ∧ d ≤ 1 ∧ DSafe s' len ∧ s'.ct ≤ 8 ∧ 0x8000 ≤ s'.a ∧ s'.a < 2 ^ 16 ∧ CtxsOk s'.ctxs ∧
      s'.ctxs.length = s.ctxs.length ∧ s'.mem = s.mem ∧ s'.start = s.start := by
  obtain ⟨st, hst⟩ := ctx_some hok hcx
  have hsok := ctx_ok hst
  have := hsok.q1; have := hsok.q2; have hm := hsok.m
  have hwa : wsub s.a st.qe = s.a - st.qe := wsub_eq (by omega) (by omega)
  have hb15 := bit15 (a := s.a - st.qe) (by omega)
  have hflip : (if st.mps = 0 then 1 else 0) ≤ 1 := by split <;> omega
  have fin : ∀ (t : Mqc) (v dd : Nat), t.mem = s.mem → t.start = s.start → t.bp = s.bp → t.ct = s.ct → t.ctxs = s.ctxs → 1 ≤ t.a → t.a < 0x8000 →
      v < states.length → dd ≤ 1 →
      ∃ d s', (renormd 32 (setCtx t cx v)).map (fun s => (dd, s)) = some (d, s') ∧ d ≤ 1 ∧ DSafe s' len ∧ s'.ct ≤ 8 ∧ 0x8000 ≤ s'.a ∧
        s'.a < 2 ^ 16 ∧ CtxsOk s'.ctxs ∧ s'.ctxs.length = s.ctxs.length ∧ s'.mem = s.mem ∧ s'.start = s.start := by
    intro t v dd t1 t2 t3 t4 t5 ha1 halt hv hdd
    have hds : DSafe (setCtx t cx v) len :=
      ⟨by show t.bp ≤ t.start + len; rw [t3, t2]; exact h.bp, by show t.start + len + 1 < t.mem.length; rw [t2, t1]; exact h.room,
       by show t.mem[t.start + len]? = _; rw [t1, t2]; exact h.g1, by show t.mem[t.start + len + 1]? = _; rw [t1, t2]; exact h.g2⟩
    obtain ⟨s', g1, g2, g3, g4, g5, g6, g7, g8⟩ := renormd_safe 32 15 hds (by show t.ct ≤ 8; rw [t4]; exact hct) halt (pow_reach ha1) (by omega)
    refine ⟨dd, s', by rw [g1]; rfl, hdd, g2, g3, g4, g5, ?_, ?_, g7.trans t1, g8.trans t2⟩
    · rw [g6]; show CtxsOk (t.ctxs.set cx v); rw [t5]; exact ctxs_set hok hv
    · rw [g6]; show (t.ctxs.set cx v).length = _; rw [t5, List.length_set]
  unfold decode
  rw [hst, Option.bind_some]
  simp only [hwa]
  split
  · split
    · exact fin { s with a := st.qe } _ _ rfl rfl rfl rfl rfl (by show 1 ≤ st.qe; omega) (by show st.qe < _; omega) hsok.n1 hm
    · exact fin { s with a := st.qe } _ _ rfl rfl rfl rfl rfl (by show 1 ≤ st.qe; omega) (by show st.qe < _; omega) hsok.n2 hflip
  · split
    · rename_i h15
      have hlt := hb15.mp h15
      split
      · exact fin { s with a := s.a - st.qe, c := wsub s.c (shl st.qe 16) } _ _ rfl rfl rfl rfl rfl (by show 1 ≤ s.a - st.qe; omega) hlt hsok.n2 hflip
      · exact fin { s with a := s.a - st.qe, c := wsub s.c (shl st.qe 16) } _ _ rfl rfl rfl rfl rfl (by show 1 ≤ s.a - st.qe; omega) hlt hsok.n1 hm
    · rename_i h15
      have hge : 0x8000 ≤ s.a - st.qe := by
        by_contra hc
        exact h15 (hb15.mpr (by omega))
      refine ⟨_, _, rfl, hm, ⟨h.bp, h.room, h.g1, h.g2⟩, hct, hge, ?_, hok, rfl, rfl, rfl⟩
      show s.a - st.qe < _
      omega

theorem decodeAll_safe {len : Nat} : ∀ (cxs : List Nat) {s : Mqc}, DSafe s len → s.ct ≤ 8 → 0x8000 ≤ s.a → s.a < 2 ^ 16 → CtxsOk s.ctxs →
    (∀ cx ∈ cxs, cx < s.ctxs.length) → ∃ ds s', decodeAll s cxs = some (ds, s') ∧ ds.length = cxs.length ∧ (∀ d ∈ ds, d ≤ 1) ∧ DSafe s' len ∧
      s'.mem = s.mem ∧ s'.start = s.start := by
  intro cxs
  induction cxs with
  | nil => intro s h _ _ _ _ _; exact ⟨[], s, rfl, rfl, fun d hd => by simp at hd, h, rfl, rfl⟩
  | cons cx cxs ih =>
    intro s h hct ha ha2 hok hcx
    obtain ⟨d, s1, g1, g2, g3, g4, g5, g6, g7, g8, g9, g10⟩ := decode_safe h hct ha ha2 hok (hcx cx List.mem_cons_self)
    obtain ⟨ds, s', k1, k2, k3, k4, k5, k6⟩ := ih g3 g4 g5 g6 g7 (fun c hc => by rw [g8]; exact hcx c (List.mem_cons_of_mem _ hc))
    refine ⟨d :: ds, s', ?_, by simp [k2], ?_, k4, k5.trans g9, k6.trans g10⟩
    · unfold decodeAll
      rw [g1, Option.bind_some]
      simp only [k1, Option.map_some]
    · intro x hx
      rcases List.mem_cons.mp hx with h1 | h1
      · rw [h1]; exact g2
      · exact k3 x h1

theorem guard_any {mem : List UInt8} {start len : Nat} (h : start + len + 1 < mem.length) :
    guard mem start len = some ((mem.set (start + len) 255).set (start + len + 1) 255) := by
  unfold guard store
  rw [if_pos (by omega), Option.bind_some, if_pos (by rw [List.length_set]; omega)]

theorem guard_get {mem : List UInt8} {start len : Nat} (h : start + len + 1 < mem.length) :
    ((mem.set (start + len) 255).set (start + len + 1) (255 : UInt8))[start + len]? = some 255 ∧
    ((mem.set (start + len) 255).set (start + len + 1) (255 : UInt8))[start + len + 1]? = some 255 ∧
    ((mem.set (start + len) 255).set (start + len + 1) (255 : UInt8)).length = mem.length := by
  refine ⟨?_, ?_, by simp⟩
  · rw [List.getElem?_set_ne (by omega), List.getElem?_set_self (by omega)]
  · rw [List.getElem?_set_self (by rw [List.length_set]; omega)]

theorem initDec_safe {mem : List UInt8} {start len : Nat} (ctxs : List Nat) (h : start + len + 1 < mem.length) :
    ∃ s, initDec mem start len ctxs = some s ∧ DSafe s len ∧ s.ct ≤ 8 ∧ s.a = 0x8000 ∧ s.ctxs = ctxs ∧ s.start = start ∧
      s.mem = (mem.set (start + len) 255).set (start + len + 1) 255 := by
  obtain ⟨h1, h2, h3⟩ := guard_get h
  have hc : ∃ c, (if len = 0 then some (0xFF <<< 16) else
      (((mem.set (start + len) 255).set (start + len + 1) (255 : UInt8))[start]?).map fun b => b.toNat <<< 16) = some c := by
    split
    · exact ⟨_, rfl⟩
    · rw [List.getElem?_eq_getElem (by rw [h3]; omega)]
      exact ⟨_, rfl⟩
  obtain ⟨c, hc⟩ := hc
  have hds : DSafe ⟨(mem.set (start + len) 255).set (start + len + 1) 255, start, start, c, 0, 0, ctxs⟩ len :=
    ⟨by show start ≤ start + len; omega, by show start + len + 1 < List.length _; rw [h3]; exact h, h1, h2⟩
  obtain ⟨s1, g1, g2, g3, g4, g5, g6, g7, g8⟩ := bytein_safe hds
  have h7 : 7 ≤ s1.ct := by
    unfold bytein at g1
    rw [Option.bind_eq_some_iff] at g1
    obtain ⟨l, _, g1⟩ := g1
    rw [Option.map_eq_some_iff] at g1
    obtain ⟨b, _, g1⟩ := g1
    rw [← g1]
    split
    · split
      · show 7 ≤ 8; omega
      · exact Nat.le_refl _
    · show 7 ≤ 8; omega
  refine ⟨{ s1 with c := shl s1.c 7, ct := wsub s1.ct 7, a := 0x8000 }, ?_, ⟨g2.bp, g2.room, g2.g1, g2.g2⟩, ?_, rfl, g6, g8, g7⟩
  · unfold initDec
    rw [guard_any h, Option.bind_some, hc, Option.bind_some, g1]
    rfl
  · show wsub s1.ct 7 ≤ 8
    rw [wsub_eq h7 (by omega)]; omega

/-- Putting the saved bytes back restores the buffer. -/
theorem finish_restores {mem : List UInt8} {s : Mqc} {start len : Nat} {b0 b1 : UInt8} (h : start + len + 1 < mem.length)
    (hb0 : mem[start + len]? = some b0) (hb1 : mem[start + len + 1]? = some b1)
    (hm : s.mem = (mem.set (start + len) 255).set (start + len + 1) 255) (hs : s.start = start) :
    ∃ s', finishDec s len b0 b1 = some s' ∧ s'.mem = mem := by
  obtain ⟨_, _, h3⟩ := guard_get h
  refine ⟨{ s with mem := (s.mem.set (start + len) b0).set (start + len + 1) b1 }, ?_, ?_⟩
  · unfold finishDec store
    rw [hs, if_pos (by rw [hm, h3]; omega), Option.bind_some, if_pos (by rw [List.length_set, hm, h3]; omega)]
    rfl
  · show (s.mem.set (start + len) b0).set (start + len + 1) b1 = mem
    rw [hm]
    apply List.ext_getElem?
    intro i
    by_cases h1 : i = start + len
    · subst h1
      rw [List.getElem?_set_ne (by omega), List.getElem?_set_self (by simp; omega), hb0]
    · by_cases h2 : i = start + len + 1
      · subst h2
        rw [List.getElem?_set_self (by simp; omega), hb1]
      · rw [List.getElem?_set_ne (by omega), List.getElem?_set_ne (by omega), List.getElem?_set_ne (by omega), List.getElem?_set_ne (by omega)]

end Jp2.Mqc

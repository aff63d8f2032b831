import Verif.Jp2.MqcEnc
/-!
# Encoding a symbol selects a subinterval; flushing closes it
-/
namespace Jp2.Mqc

attribute [local irreducible] renorme

/-- A row of the probability table as the coder needs it. -/
structure StOk (st : State) : Prop where
  q1 : 1 ≤ st.qe
  q2 : st.qe ≤ 0x5601
  m : st.mps ≤ 1
  n1 : st.nmps < states.length
  n2 : st.nlps < states.length

theorem states_ok : ∀ st ∈ states, StOk st := by
  have h : ∀ st ∈ states, 1 ≤ st.qe ∧ st.qe ≤ 0x5601 ∧ st.mps ≤ 1 ∧ st.nmps < states.length ∧ st.nlps < states.length := by
    decide +kernel
  intro st hst
  obtain ⟨h1, h2, h3, h4, h5⟩ := h st hst
  exact ⟨h1, h2, h3, h4, h5⟩

theorem ctx_ok {s : Mqc} {cx : Nat} {st : State} (h : ctxState s cx = some st) : StOk st := by
  unfold ctxState at h
  rw [Option.bind_eq_some_iff] at h
  obtain ⟨i, _, hi⟩ := h
  exact states_ok st (List.mem_of_getElem? hi)

/-- The subinterval (offset, width) for symbol `d`. -/
def sel (st : State) (a d : Nat) : Nat × Nat :=
  if (d = st.mps ↔ a - st.qe < st.qe) then (0, st.qe) else (st.qe, a - st.qe)
/-- The contexts after symbol `d`. -/
def nctx (st : State) (ctxs : List Nat) (cx a d : Nat) : List Nat :=
  if d = st.mps then (if a - st.qe < 0x8000 then ctxs.set cx st.nmps else ctxs) else ctxs.set cx st.nlps

theorem sel_le {st : State} (h : StOk st) {a : Nat} (ha : 0x8000 ≤ a) (d : Nat) :
    (sel st a d).1 + (sel st a d).2 ≤ a ∧ 1 ≤ (sel st a d).2 := by
  have := h.q1; have := h.q2
  unfold sel
  split <;> simp <;> omega

theorem pow_reach {A : Nat} (h : 1 ≤ A) : 0x8000 ≤ A * 2 ^ 15 := by omega

theorem futS_sel {e d : List UInt8} {c a ct δ A' : Nat} (h : FutS (c + δ) A' ct e d) (hA : δ + A' ≤ a) : FutS c a ct e d := by
  refine ⟨h.1, fut_sel (δ := δ) ?_ hA⟩
  have := h.2
  unfold Lv at this ⊢
  rw [Nat.add_assoc]
  exact this

/-- Selecting a subinterval and renormalising if it is short. -/
theorem sel_renorm {s t s' : Mqc} {mem0 : List UInt8} {base : Nat} {e : List UInt8} {δ A' : Nat} (h : ES s mem0 base e)
    (hA : δ + A' ≤ s.a) (h0 : 1 ≤ A') (htm : t.mem = s.mem) (hts : t.start = s.start) (htb : t.bp = s.bp) (htc : t.c = s.c + δ) (hta : t.a = A')
    (htct : t.ct = s.ct) (hr : (A' < 0x8000 → renorme 32 t = some s') ∧ (¬ A' < 0x8000 → t = s')) :
    ∃ e' r, ES s' mem0 base e' ∧ 0x8000 ≤ s'.a ∧ s'.a = A' * 2 ^ r ∧ (∀ i, i < r → A' * 2 ^ i < 0x8000) ∧ s'.ctxs = t.ctxs ∧
      s'.start = s.start ∧ Lv e' s'.ct s'.c = (Lv e s.ct s.c + δ) * 2 ^ r ∧ Qv e' s'.ct = Qv e s.ct + r ∧
      ∀ d, FutS s'.c s'.a s'.ct e' d → FutS (s.c + δ) A' s.ct e d := by
  have hes : ES t mem0 base e := by
    refine ⟨⟨by rw [htb]; exact h.rel.bp, by rw [htm]; exact h.rel.len, by rw [htm]; exact h.rel.low, h.rel.fake, by rw [htm]; exact h.rel.bytes,
      by rw [hts]; exact h.rel.st⟩, ?_, by rw [htct]; exact h.ct1, by rw [htct]; exact h.ct2, by rw [htct]; exact h.ct3⟩
    rw [htc, hta, htct]
    exact inv_sel h.inv hA h0
  have hL : Lv e t.ct t.c = Lv e s.ct s.c + δ := by
    unfold Lv; rw [htc, htct]; omega
  by_cases hlt : A' < 0x8000
  · replace hr := hr.1 hlt
    obtain ⟨e', r, g1, g2, g3, g4, g5, g6, g7, g8, g9⟩ := renorme_spec 32 hes (by rw [hta]; exact hlt) hr
    refine ⟨e', r + 1, g1, g2, by rw [g3, hta], ?_, g5, g6.trans hts, by rw [g7, hL], by rw [g8, htct], ?_⟩
    · intro i hi
      rw [← hta]
      exact lt_of_le_of_lt (Nat.mul_le_mul_left _ (Nat.pow_le_pow_right (by omega) (by omega))) g4
    · intro d hd
      have := g9 d hd
      rwa [htc, hta, htct] at this
  · replace hr := hr.2 hlt
    subst hr
    refine ⟨e, 0, hes, by rw [hta]; omega, by rw [hta]; omega, by intro i hi; omega, rfl, hts, by rw [hL]; omega, by rw [htct]; omega, ?_⟩
    intro d hd
    rwa [htc, hta, htct] at hd

/-- The state after the selection. -/
def selSt (s : Mqc) (st : State) (cx d : Nat) : Mqc :=
  { s with c := s.c + (sel st s.a d).1, a := (sel st s.a d).2, ctxs := nctx st s.ctxs cx s.a d }

/-- `encode` as selection and renormalisation. -/
theorem encode_form {s : Mqc} {mem0 : List UInt8} {base : Nat} {e : List UInt8} {cx d : Nat} {st : State} (h : ES s mem0 base e)
    (ha : 0x8000 ≤ s.a) (hst : ctxState s cx = some st) :
    ((sel st s.a d).2 < 0x8000 → encode s cx d = renorme 32 (selSt s st cx d)) ∧
    (¬ (sel st s.a d).2 < 0x8000 → encode s cx d = some (selSt s st cx d)) := by
  have hok := ctx_ok hst
  have := hok.q1; have := hok.q2
  have hc := inv_c h.inv
  have ha16 := h.inv.alt
  have hwa : wsub s.a st.qe = s.a - st.qe := wsub_eq (by omega) (by omega)
  have hwc : wadd s.c st.qe = s.c + st.qe := wadd_eq (by omega)
  have hb15 := bit15 (a := s.a - st.qe) (by omega)
  by_cases hd : d = st.mps
  · have he : encode s cx d = codemps s cx := by
      unfold encode
      rw [hst, Option.bind_some, if_pos hd.symm]
    by_cases h1 : s.a - st.qe < st.qe
    · have hs : sel st s.a d = (0, st.qe) := if_pos ⟨fun _ => h1, fun _ => hd⟩
      have h2 : s.a - st.qe < 0x8000 := by omega
      have hn : nctx st s.ctxs cx s.a d = s.ctxs.set cx st.nmps := by unfold nctx; rw [if_pos hd, if_pos h2]
      have hss : selSt s st cx d = setCtx { s with a := st.qe } cx st.nmps := by
        unfold selSt setCtx; rw [hs, hn, Nat.add_zero]
      have h4 : (s.a - st.qe) &&& 0x8000 = 0 := hb15.mpr h2
      rw [hs, hss, he]
      refine ⟨fun _ => ?_, fun hh => absurd (show st.qe < 0x8000 by omega) hh⟩
      unfold codemps
      simp only [hst, Option.bind_some, hwa, if_pos h4, if_pos h1]
    · have hs : sel st s.a d = (st.qe, s.a - st.qe) := if_neg (fun hh => h1 (hh.mp hd))
      by_cases h2 : s.a - st.qe < 0x8000
      · have hn : nctx st s.ctxs cx s.a d = s.ctxs.set cx st.nmps := by unfold nctx; rw [if_pos hd, if_pos h2]
        have hss : selSt s st cx d = setCtx { s with c := s.c + st.qe, a := s.a - st.qe } cx st.nmps := by
          unfold selSt setCtx; rw [hs, hn]
        have h4 : (s.a - st.qe) &&& 0x8000 = 0 := hb15.mpr h2
        rw [hs, hss, he]
        refine ⟨fun _ => ?_, fun hh => absurd h2 hh⟩
        unfold codemps
        simp only [hst, Option.bind_some, hwa, hwc, if_pos h4, if_neg h1]
      · have hn : nctx st s.ctxs cx s.a d = s.ctxs := by unfold nctx; rw [if_pos hd, if_neg h2]
        have hss : selSt s st cx d = { s with c := s.c + st.qe, a := s.a - st.qe } := by
          unfold selSt; rw [hs, hn]
        have h4 : ¬ (s.a - st.qe) &&& 0x8000 = 0 := fun hh => h2 (hb15.mp hh)
        rw [hs, hss, he]
        refine ⟨fun hh => absurd hh h2, fun _ => ?_⟩
        unfold codemps
        simp only [hst, Option.bind_some, hwa, hwc, if_neg h4]
  · have he : encode s cx d = codelps s cx := by
      unfold encode
      rw [hst, Option.bind_some, if_neg (fun hh => hd hh.symm)]
    have hn : nctx st s.ctxs cx s.a d = s.ctxs.set cx st.nlps := by unfold nctx; rw [if_neg hd]
    have hl : codelps s cx = renorme 32 (setCtx (if s.a - st.qe < st.qe then { s with a := s.a - st.qe, c := s.c + st.qe }
        else { s with a := st.qe }) cx st.nlps) := by
      unfold codelps
      erw [hst]
      generalize renorme 32 = R
      rw [Option.bind_some]
      show R (setCtx (if wsub s.a st.qe < st.qe then { s with a := wsub s.a st.qe, c := wadd s.c st.qe }
        else { s with a := st.qe }) cx st.nlps) = _
      rw [hwa, hwc]
    by_cases h1 : s.a - st.qe < st.qe
    · have h2 : s.a - st.qe < 0x8000 := by omega
      have hs : sel st s.a d = (st.qe, s.a - st.qe) := if_neg (fun hh => hd (hh.mpr h1))
      have hss : selSt s st cx d = setCtx { s with c := s.c + st.qe, a := s.a - st.qe } cx st.nlps := by
        unfold selSt setCtx; rw [hs, hn]
      rw [hs, hss, he]
      refine ⟨fun _ => ?_, fun hh => absurd h2 hh⟩
      rw [hl, if_pos h1]
    · have h3 : st.qe < 0x8000 := by omega
      have hs : sel st s.a d = (0, st.qe) := if_pos ⟨fun hh => absurd hh hd, fun hh => absurd hh h1⟩
      have hss : selSt s st cx d = setCtx { s with a := st.qe } cx st.nlps := by
        unfold selSt setCtx; rw [hs, hn, Nat.add_zero]
      rw [hs, hss, he]
      refine ⟨fun _ => ?_, fun hh => absurd h3 hh⟩
      rw [hl, if_neg h1]

theorem encode_spec {s s' : Mqc} {mem0 : List UInt8} {base : Nat} {e : List UInt8} {cx d : Nat} {st : State} (h : ES s mem0 base e)
    (ha : 0x8000 ≤ s.a) (hst : ctxState s cx = some st) (hen : encode s cx d = some s') :
    ∃ e' r, ES s' mem0 base e' ∧ 0x8000 ≤ s'.a ∧ s'.a = (sel st s.a d).2 * 2 ^ r ∧ (∀ i, i < r → (sel st s.a d).2 * 2 ^ i < 0x8000) ∧
      s'.ctxs = nctx st s.ctxs cx s.a d ∧ s'.start = s.start ∧ Lv e' s'.ct s'.c = (Lv e s.ct s.c + (sel st s.a d).1) * 2 ^ r ∧
      Qv e' s'.ct = Qv e s.ct + r ∧
      ∀ x, FutS s'.c s'.a s'.ct e' x → FutS (s.c + (sel st s.a d).1) (sel st s.a d).2 s.ct e x := by
  have hok := ctx_ok hst
  obtain ⟨h1, h2⟩ := sel_le hok ha d
  obtain ⟨g1, g2⟩ := encode_form (d := d) h ha hst
  refine sel_renorm (t := selSt s st cx d) h h1 h2 rfl rfl rfl rfl rfl rfl ⟨fun hh => (g1 hh).symm.trans hen, fun hh => ?_⟩
  have := (g2 hh).symm.trans hen
  injection this

theorem encode_total {s : Mqc} {mem0 : List UInt8} {base : Nat} {e : List UInt8} {cx d : Nat} {st : State} (h : ES s mem0 base e)
    (ha : 0x8000 ≤ s.a) (hst : ctxState s cx = some st) (hb : base < mem0.length)
    (hroom : Qv e s.ct + 15 ≤ 7 * (mem0.length - base - 1) + 26) : ∃ s', encode s cx d = some s' := by
  have hok := ctx_ok hst
  obtain ⟨h1, h2⟩ := sel_le hok ha d
  obtain ⟨g1, g2⟩ := encode_form (d := d) h ha hst
  by_cases hlt : (sel st s.a d).2 < 0x8000
  · rw [g1 hlt]
    refine renorme_total (e := e) hb 32 15 ⟨⟨h.rel.bp, h.rel.len, h.rel.low, h.rel.fake, h.rel.bytes, h.rel.st⟩, inv_sel h.inv h1 h2, h.ct1, h.ct2, h.ct3⟩ hlt
      (pow_reach h2) (by omega) hroom
  · exact ⟨_, g2 hlt⟩

/-- The number of doublings for one symbol is at most 15. -/
theorem shifts_le {A r : Nat} (h1 : 1 ≤ A) (h : ∀ i, i < r → A * 2 ^ i < 0x8000) : r ≤ 15 := by
  by_contra hc
  have := h 15 (by omega)
  omega

/-! ## Flush -/

theorem or_ffff (c : Nat) : c ||| 0xFFFF = c / 2 ^ 16 * 2 ^ 16 + 0xFFFF := by
  have h := Nat.two_pow_add_eq_or_of_lt (i := 16) (b := 0xFFFF) (by norm_num) (c / 2 ^ 16)
  have h2 : c ||| 0xFFFF = (2 ^ 16 * (c / 2 ^ 16)) ||| 0xFFFF := by
    apply Nat.eq_of_testBit_eq
    intro i
    rw [Nat.testBit_or, Nat.testBit_or, show (0xFFFF : Nat) = 2 ^ 16 - 1 by norm_num, Nat.testBit_two_pow_sub_one,
      Nat.testBit_two_pow_mul, Nat.testBit_div_two_pow]
    by_cases hi : i < 16
    · simp [hi]
    · have : 16 ≤ i := by omega
      simp [hi, this]
  rw [h2, ← h]
  ring

theorem setbits_spec {e : List UInt8} {s : Mqc} (h : Inv e s.c s.a s.ct) (ha : 0x8000 ≤ s.a) :
    s.c ≤ (setbits s).c ∧ (setbits s).c < s.c + s.a ∧ 2 ^ 15 ∣ (setbits s).c + 1 := by
  have hc := inv_c h
  have halt := h.alt
  unfold setbits
  simp only
  rw [wadd_eq (by omega), or_ffff]
  split
  · rw [wsub_eq (by omega) (by omega)]
    omega
  · omega

/-- Shifting the register by all of `ct` at once. -/
theorem Lv_shls (e : List UInt8) {ct c : Nat} (h : ct ≤ 27) : Lv e 0 (c * 2 ^ ct) = Lv e ct c * 2 ^ ct := by
  unfold Lv
  have : (2 : Nat) ^ (27 - 0) = 2 ^ (27 - ct) * 2 ^ ct := by rw [← Nat.pow_add]; congr 1; omega
  rw [this]
  ring
theorem futS_shls {e d : List UInt8} {c a ct : Nat} (hct : ct ≤ 27) : FutS (c * 2 ^ ct) (a * 2 ^ ct) 0 e d ↔ FutS c a ct e d := by
  unfold FutS
  rw [Lv_shls e hct, show Qv e 0 = Qv e ct + ct by unfold Qv; omega, fut_shls]

/-- `c <<= ct` followed by a byte, for an interval of width `A` before the shift that is not needed any more. -/
theorem shift_out {s s' : Mqc} {mem0 : List UInt8} {base : Nat} {e : List UInt8} (hr : Rel s mem0 base e)
    (hi : Inv e s.c 1 s.ct) (hct : s.ct ≤ 15) (h : byteout { s with c := shl s.c s.ct } = some s') :
    ∃ e', Rel s' mem0 base e' ∧ Inv e' s'.c 1 s'.ct ∧ (s'.ct = 7 ∨ s'.ct = 8) ∧ s'.c = s.c * 2 ^ s.ct % 2 ^ (27 - s'.ct) ∧
      e'.length = e.length + 1 ∧ s'.ctxs = s.ctxs ∧ s'.start = s.start ∧ s'.a = s.a ∧ Qv e' s'.ct = Qv e s.ct + s.ct ∧
      ∀ A d, FutS s'.c (A * 2 ^ s.ct) s'.ct e' d → FutS s.c A s.ct e d := by
  obtain ⟨hb1, hb2⟩ := inv_c hi
  have h2 : 1 ≤ 2 ^ s.ct := Nat.one_le_two_pow
  have hle : s.c * 2 ^ s.ct + 2 ^ s.ct ≤ 2 ^ 27 + 2 ^ 24 := by
    calc s.c * 2 ^ s.ct + 2 ^ s.ct = (s.c + 1) * 2 ^ s.ct := by ring
      _ ≤ _ := hb1
  have hsh : shl s.c s.ct = s.c * 2 ^ s.ct := shl_eq (by omega)
  have hinv0 : Inv e (s.c * 2 ^ s.ct) 1 0 := by
    have hm : (s.c * 2 ^ s.ct + 1) * 2 ^ 0 ≤ (s.c + 1) * 2 ^ s.ct := by
      rw [Nat.pow_zero, Nat.mul_one, Nat.add_mul]; omega
    refine ⟨by omega, by omega, le_trans hm hi.bd, hi.nm, ?_⟩
    intro i b h1 h2 h3
    have := hi.pp i b h1 h2 h3
    omega
  obtain ⟨u', e', hu', k1, k2, k3, k4, k5, k6, k7, k8, k9, k10, k11⟩ :=
    byteout_spec (s := { s with c := shl s.c s.ct }) (A := 1)
      ⟨hr.bp, hr.len, hr.low, hr.fake, hr.bytes, hr.st⟩ (by rw [hsh]; exact hinv0) (byteout_room h)
  rw [h] at hu'
  injection hu' with hu'
  subst hu'
  simp only [hsh] at k4 k7
  have hlt : s'.c < 2 ^ (27 - s'.ct) := by rw [k4]; exact Nat.mod_lt _ (Nat.two_pow_pos _)
  refine ⟨e', k1, k2, k3, k4, k5, k10, k11, k9, ?_, ?_⟩
  · show Pv e' + _ = Pv e + _ + _
    omega
  · intro A d hd
    rw [← futS_shls (by omega)]
    exact futS_emit (k8 d) k5 k6 k7 hlt hd

theorem shift_out_total {s : Mqc} {mem0 : List UInt8} {base : Nat} {e : List UInt8} (hr : Rel s mem0 base e)
    (hi : Inv e s.c 1 s.ct) (hct : s.ct ≤ 15) (hroom : base + e.length + 1 < mem0.length) :
    ∃ s', byteout { s with c := shl s.c s.ct } = some s' := by
  obtain ⟨hb1, hb2⟩ := inv_c hi
  have h2 : 1 ≤ 2 ^ s.ct := Nat.one_le_two_pow
  have hle : s.c * 2 ^ s.ct + 2 ^ s.ct ≤ 2 ^ 27 + 2 ^ 24 := by
    calc s.c * 2 ^ s.ct + 2 ^ s.ct = (s.c + 1) * 2 ^ s.ct := by ring
      _ ≤ _ := hb1
  have hsh : shl s.c s.ct = s.c * 2 ^ s.ct := shl_eq (by omega)
  have hinv0 : Inv e (s.c * 2 ^ s.ct) 1 0 := by
    have hm : (s.c * 2 ^ s.ct + 1) * 2 ^ 0 ≤ (s.c + 1) * 2 ^ s.ct := by
      rw [Nat.pow_zero, Nat.mul_one, Nat.add_mul]; omega
    refine ⟨by omega, by omega, le_trans hm hi.bd, hi.nm, ?_⟩
    intro i b h1 h2 h3
    have := hi.pp i b h1 h2 h3
    omega
  obtain ⟨u', e', hu', _⟩ :=
    byteout_spec (s := { s with c := shl s.c s.ct }) (A := 1)
      ⟨hr.bp, hr.len, hr.low, hr.fake, hr.bytes, hr.st⟩ (by rw [hsh]; exact hinv0)
        (by show s.bp + 1 < s.mem.length; rw [hr.bp, hr.len]; exact hroom)
  exact ⟨u', hu'⟩

/-- The bytes a finished segment keeps: everything but a final `FF`. -/
def keep (e : List UInt8) : List UInt8 := if e.getLast? = some 255 then e.dropLast else e

theorem nomarker_keep {e : List UInt8} (h : NoMarker e) : NoMarker (keep e) ∧ (keep e).getLast? ≠ some 255 := by
  unfold keep
  split
  · rename_i hl
    rcases List.eq_nil_or_concat e with h0 | ⟨f, x, h0⟩
    · rw [h0] at hl; simp at hl
    · rw [List.concat_eq_append] at h0
      rw [h0] at hl
      simp at hl
      subst hl
      rw [h0, List.dropLast_concat]
      rw [h0] at h
      refine ⟨nomarker_init h, ?_⟩
      intro hf
      rcases hn : f.length with _ | n
      · rw [List.length_eq_zero_iff.mp hn] at hf; simp at hf
      · rw [getLast?_idx hn] at hf
        have := h n 255 (by rw [List.getElem?_append_left (by omega), hf]) (by rw [List.getElem?_append_right (by omega), hn]; simp)
        simp at this
  · rename_i hl
    exact ⟨h, hl⟩

theorem keep_cases {e : List UInt8} : (keep e = e ∧ e.getLast? ≠ some 255) ∨ e = keep e ++ [255] := by
  unfold keep
  split
  · rename_i hl
    right
    rcases List.eq_nil_or_concat e with h0 | ⟨f, x, h0⟩
    · rw [h0] at hl; simp at hl
    · rw [List.concat_eq_append] at h0
      rw [h0] at hl
      simp at hl
      subst hl
      rw [h0, List.dropLast_concat]
  · rename_i hl
    exact Or.inl ⟨rfl, hl⟩

theorem fut_keep {e : List UInt8} (h : NoMarker e) {L q A j : Nat} (hf : Fut L q A j e) : Fut L q A j (keep e) := by
  rcases keep_cases (e := e) with ⟨h1, _⟩ | h1
  · rw [h1]; exact hf
  · have := (nomarker_keep h).2
    rw [h1] at hf
    exact fut_drop this hf

theorem flush_spec {s s' : Mqc} {mem0 : List UInt8} {base : Nat} {e : List UInt8} (h : ES s mem0 base e) (ha : 0x8000 ≤ s.a)
    (hf : flush s = some s') :
    ∃ e', NoMarker e' ∧ s'.bp = base + 1 + (keep e').length ∧ s'.mem.length = mem0.length ∧ (∀ i, i ≤ base → s'.mem[i]? = mem0[i]?) ∧
      (∀ i, i < e'.length → s'.mem[base + 1 + i]? = e'[i]?) ∧ s'.start = s.start ∧ s'.ctxs = s.ctxs ∧ e'.length ≥ 2 ∧
      FutS s.c s.a s.ct e e' := by
  obtain ⟨hs1, hs2, hs3⟩ := setbits_spec h.inv ha
  unfold flush at hf
  simp only at hf
  rw [Option.bind_eq_some_iff] at hf
  obtain ⟨u, hu, hf⟩ := hf
  rw [Option.bind_eq_some_iff] at hf
  obtain ⟨v, hv, hf⟩ := hf
  rw [Option.map_eq_some_iff] at hf
  obtain ⟨b, hb, hf⟩ := hf
  have hsel : (setbits s).c = s.c + ((setbits s).c - s.c) := by omega
  have hinv1 : Inv e (setbits s).c 1 (setbits s).ct := by
    rw [hsel]
    exact inv_sel h.inv (by omega) (by omega)
  have hct1 := h.ct1
  have hct2 := h.ct2
  have hctsb : (setbits s).ct = s.ct := rfl
  obtain ⟨e1, k1, k2, k3, k4, k5, k6, k7, k8, k9, k10⟩ :=
    shift_out (s := setbits s) (e := e) ⟨h.rel.bp, h.rel.len, h.rel.low, h.rel.fake, h.rel.bytes, h.rel.st⟩ hinv1 (by rw [hctsb]; omega) hu
  obtain ⟨e2, j1, j2, j3, j4, j5, j6, j7, j8, j9, j10⟩ := shift_out k1 k2 (by omega) hv
  -- the bits left in the register are ones down to the position of the interval
  have hdiv : 2 ^ (27 - v.ct) ≤ v.c + 1 * 2 ^ (setbits s).ct * 2 ^ u.ct := by
    obtain ⟨x, hx⟩ := hs3
    have hp : (2 : Nat) ^ (27 - v.ct) ∣ v.c + 2 ^ (setbits s).ct * 2 ^ u.ct := by
      rw [hctsb] at k4 ⊢
      obtain ⟨m, hm⟩ : ∃ m, s.ct = m + 1 := ⟨s.ct - 1, by omega⟩
      -- modulo 2^19 or 2^20
      have e1 : (setbits s).c * 2 ^ s.ct + 2 ^ s.ct = 2 ^ 16 * (x * 2 ^ m) := by
        calc (setbits s).c * 2 ^ s.ct + 2 ^ s.ct = ((setbits s).c + 1) * 2 ^ s.ct := by ring
          _ = 2 ^ 15 * x * 2 ^ s.ct := by rw [hx]
          _ = _ := by rw [hm, Nat.pow_succ]; ring
      have e2 : (2 : Nat) ^ 16 ∣ u.c + 2 ^ s.ct := by
        have h3 : (2 : Nat) ^ 16 ∣ 2 ^ (27 - u.ct) := Nat.pow_dvd_pow 2 (by omega)
        have h4 := Nat.div_add_mod ((setbits s).c * 2 ^ s.ct) (2 ^ (27 - u.ct))
        rw [← k4] at h4
        have h5 : (2 : Nat) ^ 16 ∣ 2 ^ (27 - u.ct) * ((setbits s).c * 2 ^ s.ct / 2 ^ (27 - u.ct)) := Dvd.dvd.mul_right h3 _
        have h6 : 2 ^ (27 - u.ct) * ((setbits s).c * 2 ^ s.ct / 2 ^ (27 - u.ct)) + (u.c + 2 ^ s.ct) = 2 ^ 16 * (x * 2 ^ m) := by omega
        exact (Nat.dvd_add_right h5).mp (h6 ▸ Nat.dvd_mul_right _ _)
      have e3 : (2 : Nat) ^ 23 ∣ (u.c + 2 ^ s.ct) * 2 ^ u.ct := by
        have : (2 : Nat) ^ 7 ∣ 2 ^ u.ct := Nat.pow_dvd_pow 2 (by omega)
        have h5 := Nat.mul_dvd_mul e2 this
        rwa [← Nat.pow_add] at h5
      have e4 : (2 : Nat) ^ (27 - v.ct) ∣ (u.c + 2 ^ s.ct) * 2 ^ u.ct := Dvd.dvd.trans (Nat.pow_dvd_pow 2 (by omega)) e3
      have h4 := Nat.div_add_mod (u.c * 2 ^ u.ct) (2 ^ (27 - v.ct))
      rw [← j4] at h4
      have h5 : (2 : Nat) ^ (27 - v.ct) ∣ 2 ^ (27 - v.ct) * (u.c * 2 ^ u.ct / 2 ^ (27 - v.ct)) := Nat.dvd_mul_right _ _
      have h6 : 2 ^ (27 - v.ct) * (u.c * 2 ^ u.ct / 2 ^ (27 - v.ct)) + (v.c + 2 ^ s.ct * 2 ^ u.ct) = (u.c + 2 ^ s.ct) * 2 ^ u.ct := by
        rw [Nat.add_mul]; omega
      exact (Nat.dvd_add_right h5).mp (h6 ▸ e4)
    rw [Nat.one_mul]
    refine Nat.le_of_dvd ?_ hp
    have : 0 < 2 ^ (setbits s).ct * 2 ^ u.ct := by positivity
    omega
  have hlt : v.c < 2 ^ (27 - v.ct) := by rw [j4]; exact Nat.mod_lt _ (Nat.two_pow_pos _)
  have hfut : FutS v.c (1 * 2 ^ (setbits s).ct * 2 ^ u.ct) v.ct e2 e2 := by
    refine ⟨⟨Nat.le_refl _, fun _ _ => rfl, ?_⟩, fut_base hlt hdiv⟩
    intro i x y _ hx hy
    rw [hx] at hy
    injection hy with hy
    rw [hy]
  have hfut0 : FutS s.c s.a s.ct e e2 := by
    have h1 := k10 1 e2 (j10 _ e2 hfut)
    rw [hsel] at h1
    exact futS_sel h1 (by omega)
  have hmem : s'.mem = v.mem ∧ s'.start = v.start ∧ s'.ctxs = v.ctxs := by
    rw [← hf]; split <;> exact ⟨rfl, rfl, rfl⟩
  refine ⟨e2, j2.nm, ?_, by rw [hmem.1, j1.len], by rw [hmem.1]; exact j1.low, by rw [hmem.1]; exact j1.bytes, by rw [hmem.2.1, j7, k7]; rfl,
    by rw [hmem.2.2, j6, k6]; rfl, by omega, hfut0⟩
  have hbv := j1.bp
  rcases mem_bp j1 with ⟨h0, _⟩ | ⟨f, x, hfx, hx, _⟩
  · rw [h0] at j5; simp at j5
  · rw [hb] at hx
    injection hx with hx
    subst hx
    rw [← hf, hfx]
    unfold keep
    by_cases hbx : b = 255
    · subst hbx
      simp only [ne_eq, not_true, if_false, List.getLast?_concat, if_true, List.dropLast_concat]
      rw [hbv, hfx]
      simp
      omega
    · simp only [ne_eq, hbx, not_false_iff, if_true, List.getLast?_concat, Option.some.injEq, if_false]
      rw [hbv, hfx]
      omega

theorem flush_total {s : Mqc} {mem0 : List UInt8} {base : Nat} {e : List UInt8} (h : ES s mem0 base e) (ha : 0x8000 ≤ s.a)
    (hroom : base + e.length + 2 < mem0.length) : ∃ s', flush s = some s' := by
  obtain ⟨hs1, hs2, hs3⟩ := setbits_spec h.inv ha
  have hsel : (setbits s).c = s.c + ((setbits s).c - s.c) := by omega
  have hinv1 : Inv e (setbits s).c 1 (setbits s).ct := by
    rw [hsel]
    exact inv_sel h.inv (by omega) (by omega)
  have hct2 : (setbits s).ct ≤ 15 := le_trans h.ct2 (by omega)
  have hrel : Rel (setbits s) mem0 base e := ⟨h.rel.bp, h.rel.len, h.rel.low, h.rel.fake, h.rel.bytes, h.rel.st⟩
  obtain ⟨u, hu⟩ := shift_out_total hrel hinv1 hct2 (by omega)
  obtain ⟨e1, k1, k2, k3, k4, k5, k6⟩ := shift_out hrel hinv1 hct2 hu
  obtain ⟨v, hv⟩ := shift_out_total k1 k2 (by omega) (by omega)
  obtain ⟨e2, j1, _⟩ := shift_out k1 k2 (by omega) hv
  unfold flush
  simp only [hu, Option.bind_some, hv]
  rcases mem_bp j1 with ⟨_, b, hb, _⟩ | ⟨_, b, _, hb, _⟩ <;> rw [hb] <;> exact ⟨_, rfl⟩

end Jp2.Mqc

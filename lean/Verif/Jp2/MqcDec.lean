import Verif.Jp2.MqcSym
/-!
# The decoder follows the interval
-/
namespace Jp2.Mqc
open Jp2.Bio (store)

/-- The decoder's buffer: `d` at `start`, then the two artificial `FF` bytes. -/
structure Buf (mem : List UInt8) (start : Nat) (d : List UInt8) : Prop where
  bytes : ∀ i, i < d.length → mem[start + i]? = d[i]?
  g1 : mem[start + d.length]? = some 255
  g2 : mem[start + d.length + 1]? = some 255

/-- The decoder has read `k` bytes of `d` and its register holds what is left above the low end `L` at resolution `q`. -/
structure DR (s : Mqc) (d : List UInt8) (L q k : Nat) : Prop where
  buf : Buf s.mem s.start d
  bp : s.bp = s.start + min (k - 1) d.length
  k1 : 1 ≤ k
  ct : s.ct ≤ 8
  pos : P d k = q + s.ct
  c : s.c + L * 2 ^ 16 = W d k * 2 ^ (16 - s.ct)

theorem bytein_spec {s : Mqc} {d : List UInt8} {L q k : Nat} (h : DR s d L q k) (h0 : s.ct = 0) (hc : s.c < 2 ^ 31)
    (hnm : NoMarker d) (hl : d.getLast? ≠ some 255) :
    ∃ s', bytein s = some s' ∧ DR s' d L q (k + 1) ∧ 1 ≤ s'.ct ∧ s'.a = s.a ∧ s'.ctxs = s.ctxs := by
  have hk1 := h.k1
  have hbp := h.bp
  have hc0 := h.c
  have hp0 := h.pos
  rw [h0, Nat.sub_zero] at hc0
  rw [h0, Nat.add_zero] at hp0
  have hP : P d (k + 1) = q + wid d k := by show P d k + wid d k = _; rw [hp0]
  have hW : W d (k + 1) = W d k * 2 ^ wid d k + dig d k := rfl
  have hbuf := h.buf
  -- the byte after a given position inside the data and guard
  have hget : ∀ i, i ≤ d.length → s.mem[s.start + i]? = some (UInt8.ofNat (dig d i)) ∧ dig d i < 256 := by
    intro i hi
    have h256 : dig d i < 256 := UInt8.toNat_lt _
    refine ⟨?_, h256⟩
    unfold dig
    rw [UInt8.ofNat_toNat]
    by_cases hlt : i < d.length
    · rw [hbuf.bytes i hlt, List.getElem?_eq_getElem hlt]; rfl
    · have hie : i = d.length := by omega
      rw [hie, hbuf.g1, List.getElem?_eq_none (Nat.le_refl _)]; rfl
  have hdn : ∀ n, n < 256 → (UInt8.ofNat n).toNat = n := fun n hn => by rw [UInt8.toNat_ofNat']; omega
  have hd255 : ∀ n, n < 256 → (UInt8.ofNat n = 255 ↔ n = 255) := fun n hn =>
    ⟨fun hh => by have := congrArg UInt8.toNat hh; rw [hdn n hn] at this; exact this, fun hh => by rw [hh]; rfl⟩
  rcases Nat.lt_or_ge d.length k with hge | hlt
  · -- beyond the data: stuck on the guard
    have hb : s.bp = s.start + d.length := by rw [hbp]; omega
    refine ⟨{ s with c := wadd s.c 0xFF00, ct := 8 }, ?_, ⟨hbuf, ?_, by omega, Nat.le_refl _, ?_, ?_⟩, by show 1 ≤ 8; omega, rfl, rfl⟩
    · unfold bytein
      rw [hb, hbuf.g2, hbuf.g1]
      rfl
    · show s.bp = s.start + min (k + 1 - 1) d.length
      omega
    · rw [hP, wid_ge (by omega)]
    · show wadd s.c 0xFF00 + L * 2 ^ 16 = W d (k + 1) * 2 ^ (16 - 8)
      rw [wadd_eq (by omega), hW, wid_ge (by omega), dig_ge (by omega)]
      norm_num at hc0 ⊢
      omega
  · have hb : s.bp = s.start + (k - 1) := by rw [hbp]; omega
    obtain ⟨hm1, hd1⟩ := hget (k - 1) (by omega)
    obtain ⟨hm2, hd2⟩ := hget k hlt
    rw [← hb] at hm1
    have hb1 : s.bp + 1 = s.start + k := by omega
    rw [← hb1] at hm2
    by_cases hff : dig d (k - 1) = 255
    · -- previous byte FF: k < length since d does not end in FF
      have hk : k < d.length := by
        by_contra hcc
        apply hl
        rw [getLast?_idx (n := k - 1) (by omega)]
        have h1 : k - 1 < d.length := by omega
        unfold dig at hff
        rw [List.getElem?_eq_getElem h1] at hff ⊢
        exact congrArg some (UInt8.toNat_inj.mp hff)
      have hprev : d[k - 1]? = some 255 := by
        have h1 : k - 1 < d.length := by omega
        unfold dig at hff
        rw [List.getElem?_eq_getElem h1] at hff ⊢
        exact congrArg some (UInt8.toNat_inj.mp hff)
      have hw : wid d k = 7 := by unfold wid; rw [if_pos ⟨by omega, hk, hprev⟩]
      have h8f : dig d k ≤ 0x8F := by
        have := hnm (k - 1) d[k] hprev (by rw [show k - 1 + 1 = k by omega]; exact List.getElem?_eq_getElem hk)
        unfold dig
        rw [List.getElem?_eq_getElem hk]
        exact this
      refine ⟨{ s with bp := s.bp + 1, c := wadd s.c (dig d k <<< 9), ct := 7 }, ?_, ⟨hbuf, ?_, by omega, by show 7 ≤ 8; omega, ?_, ?_⟩, by show 1 ≤ 7; omega, rfl, rfl⟩
      · unfold bytein
        rw [hm2, hm1]
        simp only [Option.bind_some, Option.map_some]
        rw [if_pos ((hd255 _ hd1).mpr hff), hdn _ hd2, if_neg (by omega)]
      · show s.bp + 1 = s.start + min (k + 1 - 1) d.length
        omega
      · rw [hP, hw]
      · show wadd s.c (dig d k <<< 9) + L * 2 ^ 16 = W d (k + 1) * 2 ^ (16 - 7)
        rw [Nat.shiftLeft_eq, wadd_eq (by omega), hW, hw]
        norm_num at hc0 ⊢
        omega
    · have hw : wid d k = 8 := by
        unfold wid
        rw [if_neg]
        rintro ⟨_, _, hp⟩
        apply hff
        unfold dig
        rw [hp]; rfl
      refine ⟨{ s with bp := s.bp + 1, c := wadd s.c (dig d k <<< 8), ct := 8 }, ?_, ⟨hbuf, ?_, by omega, by show 8 ≤ 8; omega, ?_, ?_⟩, by show 1 ≤ 8; omega, rfl, rfl⟩
      · unfold bytein
        rw [hm2, hm1]
        simp only [Option.bind_some, Option.map_some]
        rw [if_neg (fun hh => hff ((hd255 _ hd1).mp hh)), hdn _ hd2]
      · show s.bp + 1 = s.start + min (k + 1 - 1) d.length
        omega
      · rw [hP, hw]
      · show wadd s.c (dig d k <<< 8) + L * 2 ^ 16 = W d (k + 1) * 2 ^ (16 - 8)
        rw [Nat.shiftLeft_eq, wadd_eq (by omega), hW, hw]
        norm_num at hc0 ⊢
        omega

/-- The register stays below the width of the interval. -/
theorem dr_c {s : Mqc} {d : List UInt8} {L q k A j : Nat} (h : DR s d L q k) (hf : Fut L q A j d) (hj : P d j < q) :
    s.c < A * 2 ^ 16 := by
  obtain ⟨h1, h2⟩ := fut_dec hf hj h.pos
  have hc := h.c
  have hct := h.ct
  have h3 : W d k * 2 ^ (16 - s.ct) < (L + A) * 2 ^ 16 := by
    calc W d k * 2 ^ (16 - s.ct) < (L + A) * 2 ^ s.ct * 2 ^ (16 - s.ct) := Nat.mul_lt_mul_of_pos_right h2 (Nat.two_pow_pos _)
      _ = _ := by rw [Nat.mul_assoc, ← Nat.pow_add]; congr 2; omega
  have h6 : (L + A) * 2 ^ 16 = L * 2 ^ 16 + A * 2 ^ 16 := by ring
  omega

/-- Moving the low end up. -/
theorem dr_sel {s : Mqc} {d : List UInt8} {L q k A δ j : Nat} (h : DR s d L q k) (hf : Fut (L + δ) q A j d) (hj : P d j < q) :
    δ * 2 ^ 16 ≤ s.c ∧ s.c < (δ + A) * 2 ^ 16 ∧ ∀ t : Mqc, t.mem = s.mem → t.start = s.start → t.bp = s.bp → t.ct = s.ct →
      t.c = s.c - δ * 2 ^ 16 → DR t d (L + δ) q k := by
  obtain ⟨h1, h2⟩ := fut_dec hf hj h.pos
  have hc := h.c
  have hct := h.ct
  have h3 : W d k * 2 ^ (16 - s.ct) < (L + δ + A) * 2 ^ 16 := by
    calc W d k * 2 ^ (16 - s.ct) < (L + δ + A) * 2 ^ s.ct * 2 ^ (16 - s.ct) := Nat.mul_lt_mul_of_pos_right h2 (Nat.two_pow_pos _)
      _ = _ := by rw [Nat.mul_assoc, ← Nat.pow_add]; congr 2; omega
  have h4 : (L + δ) * 2 ^ 16 ≤ W d k * 2 ^ (16 - s.ct) := by
    calc (L + δ) * 2 ^ 16 = (L + δ) * 2 ^ s.ct * 2 ^ (16 - s.ct) := by rw [Nat.mul_assoc, ← Nat.pow_add]; congr 2; omega
      _ ≤ _ := Nat.mul_le_mul_right _ h1
  have h6 : (L + δ + A) * 2 ^ 16 = L * 2 ^ 16 + δ * 2 ^ 16 + A * 2 ^ 16 := by ring
  have h7 : (L + δ) * 2 ^ 16 = L * 2 ^ 16 + δ * 2 ^ 16 := by ring
  have h8 : (δ + A) * 2 ^ 16 = δ * 2 ^ 16 + A * 2 ^ 16 := by ring
  rw [h6] at h3
  rw [h7] at h4
  have h5 : δ * 2 ^ 16 ≤ s.c := by
    rw [← hc] at h4
    linarith
  refine ⟨h5, by rw [h8]; rw [← hc] at h3; linarith, ?_⟩
  intro t t1 t2 t3 t4 t5
  refine ⟨by rw [t1, t2]; exact h.buf, by rw [t3, t2]; exact h.bp, h.k1, by rw [t4]; exact hct, by rw [t4]; exact h.pos, ?_⟩
  rw [t5, t4, h7, ← hc]
  omega

theorem dr_shl {s t : Mqc} {d : List UInt8} {L q k : Nat} (h : DR s d L q k) (hct : 1 ≤ s.ct) (hc : s.c < 2 ^ 31)
    (t1 : t.mem = s.mem) (t2 : t.start = s.start) (t3 : t.bp = s.bp) (t4 : t.ct = wsub s.ct 1) (t5 : t.c = shl s.c 1) :
    DR t d (L * 2) (q + 1) k := by
  have h8 := h.ct
  have h4 : t.ct = s.ct - 1 := by rw [t4, wsub_eq hct (by omega)]
  have h5 : t.c = s.c * 2 := by rw [t5, shl_eq (by omega), Nat.pow_one]
  have hp := h.pos
  refine ⟨by rw [t1, t2]; exact h.buf, by rw [t3, t2]; exact h.bp, h.k1, by omega, by omega, ?_⟩
  have hcc := h.c
  have h9 : (2 : Nat) ^ (16 - (s.ct - 1)) = 2 ^ (16 - s.ct) * 2 := by
    rw [show 16 - (s.ct - 1) = 16 - s.ct + 1 by omega, Nat.pow_succ]
  rw [h5, h4, h9, ← Nat.mul_assoc, ← hcc]
  ring

theorem renormd_spec {d : List UInt8} (hnm : NoMarker d) (hl : d.getLast? ≠ some 255) : ∀ (fuel r : Nat) {s : Mqc} {L q k A j : Nat},
    DR s d L q k → s.a = A → Fut L q A j d → P d j < q → r < fuel → (∀ i, i < r + 1 → A * 2 ^ i < 0x8000) → 0x8000 ≤ A * 2 ^ (r + 1) →
    ∃ s' k', renormd fuel s = some s' ∧ DR s' d (L * 2 ^ (r + 1)) (q + (r + 1)) k' ∧ s'.a = A * 2 ^ (r + 1) ∧ s'.ctxs = s.ctxs := by
  intro fuel
  induction fuel with
  | zero => intro r s L q k A j _ _ _ _ hr; omega
  | succ fuel ih =>
    intro r s L q k A j h ha hf hj hr hlt hge
    have hA : A < 0x8000 := by have := hlt 0 (by omega); omega
    have hc := dr_c h hf hj
    have hu : ∃ u k1, (if s.ct = 0 then bytein s else some s) = some u ∧ DR u d L q k1 ∧ 1 ≤ u.ct ∧ u.a = A ∧ u.ctxs = s.ctxs := by
      by_cases h0 : s.ct = 0
      · obtain ⟨u, hu, h1, h2, h3, h4⟩ := bytein_spec h h0 (by omega) hnm hl
        exact ⟨u, k + 1, by rw [if_pos h0, hu], h1, h2, h3.trans ha, h4⟩
      · exact ⟨s, k, by rw [if_neg h0], h, by omega, ha, rfl⟩
    obtain ⟨u, k1, hu, h1, h2, h3, h4⟩ := hu
    have hcu := dr_c h1 hf hj
    have hdr := dr_shl (t := { u with a := shl u.a 1, c := shl u.c 1, ct := wsub u.ct 1 }) h1 h2 (by omega) rfl rfl rfl rfl rfl
    have hsa : shl u.a 1 = A * 2 := by rw [h3, shl_eq (by omega), Nat.pow_one]
    unfold renormd
    rw [hu, Option.bind_some]
    simp only [hsa]
    simp only [hsa] at hdr
    rcases r with _ | r
    · rw [if_pos (by omega)]
      refine ⟨_, k1, rfl, ?_, ?_, h4⟩
      · rw [Nat.zero_add, Nat.pow_one]; exact hdr
      · rfl
    · have hnlt : ¬ A * 2 ≥ 0x8000 := by have := hlt 1 (by omega); omega
      rw [if_neg hnlt]
      have hpw : ∀ i, A * 2 * 2 ^ i = A * 2 ^ (i + 1) := fun i => by rw [Nat.pow_succ]; ring
      have hpl : ∀ i, L * 2 * 2 ^ i = L * 2 ^ (i + 1) := fun i => by rw [Nat.pow_succ]; ring
      obtain ⟨s', k', g1, g2, g3, g4⟩ := ih r hdr rfl (fut_shl.mpr hf) (by omega) (by omega)
        (fun i hi => by rw [hpw]; exact hlt (i + 1) (by omega)) (by rw [hpw]; exact hge)
      refine ⟨s', k', g1, ?_, by rw [g3, hpw], g4.trans h4⟩
      rw [hpl] at g2
      rw [show q + (r + 1 + 1) = q + 1 + (r + 1) by omega]
      exact g2

/-- Selecting and renormalising. -/
theorem dec_renorm {d : List UInt8} (hnm : NoMarker d) (hl : d.getLast? ≠ some 255) {t : Mqc} {L q k A' j r : Nat}
    (h : DR t d L q k) (ha : t.a = A') (hf : Fut L q A' j d) (hj : P d j < q) (h0 : 1 ≤ A')
    (hlt : ∀ i, i < r → A' * 2 ^ i < 0x8000) (hge : 0x8000 ≤ A' * 2 ^ r) :
    (A' < 0x8000 → ∃ s' k', renormd 32 t = some s' ∧ DR s' d (L * 2 ^ r) (q + r) k' ∧ s'.a = A' * 2 ^ r ∧ s'.ctxs = t.ctxs) ∧
    (¬ A' < 0x8000 → DR t d (L * 2 ^ r) (q + r) k ∧ t.a = A' * 2 ^ r) := by
  have hr15 := shifts_le h0 hlt
  constructor
  · intro hA
    rcases r with _ | r
    · omega
    · exact renormd_spec hnm hl 32 r h ha hf hj (by omega) hlt hge
  · intro hA
    have hr0 : r = 0 := by
      rcases r with _ | r
      · rfl
      · exact absurd (by have := hlt 0 (by omega); omega) hA
    subst hr0
    rw [Nat.pow_zero, Nat.mul_one, Nat.mul_one]
    exact ⟨h, ha⟩

theorem decode_spec {d : List UInt8} (hnm : NoMarker d) (hl : d.getLast? ≠ some 255) {s : Mqc} {cx x : Nat} {st : State}
    {L q k j r : Nat} (h : DR s d L q k) (ha : 0x8000 ≤ s.a) (ha16 : s.a < 2 ^ 16) (hst : ctxState s cx = some st) (hx : x ≤ 1)
    (hf : Fut (L + (sel st s.a x).1) q (sel st s.a x).2 j d) (hj : P d j < q)
    (hlt : ∀ i, i < r → (sel st s.a x).2 * 2 ^ i < 0x8000) (hge : 0x8000 ≤ (sel st s.a x).2 * 2 ^ r) :
    ∃ s' k', decode s cx = some (x, s') ∧ DR s' d ((L + (sel st s.a x).1) * 2 ^ r) (q + r) k' ∧ s'.a = (sel st s.a x).2 * 2 ^ r ∧
      s'.ctxs = nctx st s.ctxs cx s.a x := by
  have hok := ctx_ok hst
  have hq1 := hok.q1; have hq2 := hok.q2; have hm := hok.m
  obtain ⟨hsel1, hsel2⟩ := sel_le hok ha x
  have hwa : wsub s.a st.qe = s.a - st.qe := wsub_eq (by omega) (by omega)
  have hb15 := bit15 (a := s.a - st.qe) (by omega)
  obtain ⟨hlo, hup, hdr⟩ := dr_sel h hf hj
  have hcb : s.c < 2 ^ 32 := by
    have : (sel st s.a x).1 + (sel st s.a x).2 < 2 ^ 16 := by omega
    omega
  have hflip : ∀ y : Nat, y ≤ 1 → st.mps ≠ y → (if st.mps = 0 then 1 else 0) = y := by
    intro y hy hne
    split <;> omega
  unfold decode
  rw [hst, Option.bind_some]
  simp only [hwa]
  by_cases hlow : (x = st.mps ↔ s.a - st.qe < st.qe)
  · -- lower subinterval
    have hs : sel st s.a x = (0, st.qe) := if_pos hlow
    rw [hs] at hlo hup hdr hf hlt hge hsel2 ⊢
    simp only at hlo hup hdr hf hlt hge hsel2 ⊢
    rw [if_pos (by rw [Nat.shiftRight_eq_div_pow]; omega)]
    have hqlt : st.qe < 0x8000 := by omega
    by_cases h1 : s.a - st.qe < st.qe
    · have hxm : x = st.mps := hlow.mpr h1
      rw [if_pos h1]
      have hn : nctx st s.ctxs cx s.a x = s.ctxs.set cx st.nmps := by
        unfold nctx; rw [if_pos hxm, if_pos (by omega)]
      have hd1 := hdr (setCtx { s with a := st.qe } cx st.nmps) rfl rfl rfl rfl (by show s.c = _; omega)
      obtain ⟨s', k', g1, g2, g3, g4⟩ := (dec_renorm hnm hl hd1 rfl hf hj hsel2 hlt hge).1 hqlt
      refine ⟨s', k', ?_, g2, g3, by rw [g4, hn]; rfl⟩
      have g1' : renormd 32 (setCtx { mem := s.mem, start := s.start, bp := s.bp, c := s.c, a := st.qe, ct := s.ct, ctxs := s.ctxs } cx st.nmps) = some s' := g1
      rw [g1', hxm]
      rfl
    · have hxm : ¬ x = st.mps := fun hh => h1 (hlow.mp hh)
      rw [if_neg h1]
      have hn : nctx st s.ctxs cx s.a x = s.ctxs.set cx st.nlps := by
        unfold nctx; rw [if_neg hxm]
      have hd1 := hdr (setCtx { s with a := st.qe } cx st.nlps) rfl rfl rfl rfl (by show s.c = _; omega)
      obtain ⟨s', k', g1, g2, g3, g4⟩ := (dec_renorm hnm hl hd1 rfl hf hj hsel2 hlt hge).1 hqlt
      refine ⟨s', k', ?_, g2, g3, by rw [g4, hn]; rfl⟩
      have g1' : renormd 32 (setCtx { mem := s.mem, start := s.start, bp := s.bp, c := s.c, a := st.qe, ct := s.ct, ctxs := s.ctxs } cx st.nlps) = some s' := g1
      rw [g1', hflip x hx (fun hh => hxm hh.symm)]
      rfl
  · -- upper subinterval
    have hs : sel st s.a x = (st.qe, s.a - st.qe) := if_neg hlow
    rw [hs] at hlo hup hdr hf hlt hge hsel2 ⊢
    simp only at hlo hup hdr hf hlt hge hsel2 ⊢
    rw [if_neg (by rw [Nat.shiftRight_eq_div_pow]; omega)]
    have hwc : wsub s.c (shl st.qe 16) = s.c - st.qe * 2 ^ 16 := by
      rw [shl_eq (by omega), wsub_eq hlo hcb]
    rw [hwc]
    by_cases h2 : s.a - st.qe < 0x8000
    · have h4 : (s.a - st.qe) &&& 0x8000 = 0 := hb15.mpr h2
      rw [if_pos h4]
      by_cases h1 : s.a - st.qe < st.qe
      · have hxm : ¬ x = st.mps := fun hh => hlow ⟨fun _ => h1, fun _ => hh⟩
        rw [if_pos h1]
        have hn : nctx st s.ctxs cx s.a x = s.ctxs.set cx st.nlps := by
          unfold nctx; rw [if_neg hxm]
        have hd1 := hdr (setCtx { s with a := s.a - st.qe, c := s.c - st.qe * 2 ^ 16 } cx st.nlps) rfl rfl rfl rfl rfl
        obtain ⟨s', k', g1, g2, g3, g4⟩ := (dec_renorm hnm hl hd1 rfl hf hj hsel2 hlt hge).1 h2
        refine ⟨s', k', ?_, g2, g3, by rw [g4, hn]; rfl⟩
        have g1' : renormd 32 (setCtx { mem := s.mem, start := s.start, bp := s.bp, c := s.c - st.qe * 2 ^ 16, a := s.a - st.qe, ct := s.ct, ctxs := s.ctxs } cx st.nlps) = some s' := g1
        rw [g1', hflip x hx (fun hh => hxm hh.symm)]
        rfl
      · have hxm : x = st.mps := by
          by_contra hh
          exact hlow ⟨fun h5 => absurd h5 hh, fun h5 => absurd h5 h1⟩
        rw [if_neg h1]
        have hn : nctx st s.ctxs cx s.a x = s.ctxs.set cx st.nmps := by
          unfold nctx; rw [if_pos hxm, if_pos h2]
        have hd1 := hdr (setCtx { s with a := s.a - st.qe, c := s.c - st.qe * 2 ^ 16 } cx st.nmps) rfl rfl rfl rfl rfl
        obtain ⟨s', k', g1, g2, g3, g4⟩ := (dec_renorm hnm hl hd1 rfl hf hj hsel2 hlt hge).1 h2
        refine ⟨s', k', ?_, g2, g3, by rw [g4, hn]; rfl⟩
        have g1' : renormd 32 (setCtx { mem := s.mem, start := s.start, bp := s.bp, c := s.c - st.qe * 2 ^ 16, a := s.a - st.qe, ct := s.ct, ctxs := s.ctxs } cx st.nmps) = some s' := g1
        rw [g1', hxm]
        rfl
    · have h4 : ¬ (s.a - st.qe) &&& 0x8000 = 0 := fun hh => h2 (hb15.mp hh)
      rw [if_neg h4]
      have h1 : ¬ s.a - st.qe < st.qe := by omega
      have hxm : x = st.mps := by
        by_contra hh
        exact hlow ⟨fun h5 => absurd h5 hh, fun h5 => absurd h5 h1⟩
      have hn : nctx st s.ctxs cx s.a x = s.ctxs := by
        unfold nctx; rw [if_pos hxm, if_neg h2]
      have hd1 := hdr { s with a := s.a - st.qe, c := s.c - st.qe * 2 ^ 16 } rfl rfl rfl rfl rfl
      obtain ⟨g2, g3⟩ := (dec_renorm hnm hl hd1 rfl hf hj hsel2 hlt hge).2 h2
      refine ⟨_, k, ?_, g2, g3, hn.symm⟩
      rw [hxm]

theorem guard_spec {mem : List UInt8} {start : Nat} {d : List UInt8} (hd : ∀ i, i < d.length → mem[start + i]? = d[i]?)
    (hroom : start + d.length + 1 < mem.length) :
    ∃ mem', guard mem start d.length = some mem' ∧ Buf mem' start d ∧ mem'.length = mem.length := by
  refine ⟨(mem.set (start + d.length) 255).set (start + d.length + 1) 255, ?_, ⟨?_, ?_, ?_⟩, by simp⟩
  · unfold guard store
    rw [if_pos (by omega), Option.bind_some, if_pos (by rw [List.length_set]; omega)]
  · intro i hi
    rw [List.getElem?_set_ne (by omega), List.getElem?_set_ne (by omega), hd i hi]
  · rw [List.getElem?_set_ne (by omega), List.getElem?_set_self (by omega)]
  · rw [List.getElem?_set_self (by rw [List.length_set]; omega)]

theorem initDec_spec {d : List UInt8} (hnm : NoMarker d) (hl : d.getLast? ≠ some 255) {mem : List UInt8} {start : Nat} (ctxs : List Nat)
    (hd : ∀ i, i < d.length → mem[start + i]? = d[i]?) (hroom : start + d.length + 1 < mem.length) :
    ∃ s, initDec mem start d.length ctxs = some s ∧ DR s d 0 15 2 ∧ s.a = 0x8000 ∧ s.ctxs = ctxs := by
  obtain ⟨mem', hg, hbuf, _⟩ := guard_spec hd hroom
  have hc : (if d.length = 0 then some (0xFF <<< 16) else (mem'[start]?).map fun b => b.toNat <<< 16) = some (dig d 0 * 2 ^ 16) := by
    by_cases h0 : d.length = 0
    · rw [if_pos h0, dig_ge (by omega)]
      rfl
    · rw [if_neg h0]
      have h1 := hbuf.bytes 0 (by omega)
      rw [Nat.add_zero, List.getElem?_eq_getElem (show 0 < d.length by omega)] at h1
      rw [h1, Option.map_some, Nat.shiftLeft_eq]
      unfold dig
      rw [List.getElem?_eq_getElem (show 0 < d.length by omega)]
      rfl
  have h256 : dig d 0 < 256 := UInt8.toNat_lt _
  have hdr : DR ⟨mem', start, start, dig d 0 * 2 ^ 16, 0, 0, ctxs⟩ d 0 8 1 := by
    refine ⟨hbuf, by show start = start + min (1 - 1) d.length; omega, Nat.le_refl _, Nat.zero_le _, ?_, ?_⟩
    · show 0 + wid d 0 = 8
      unfold wid; simp
    · show dig d 0 * 2 ^ 16 + 0 * 2 ^ 16 = (0 * 2 ^ wid d 0 + dig d 0) * 2 ^ (16 - 0)
      ring
  obtain ⟨s1, hb, h1, h2, h3, h4⟩ := bytein_spec hdr rfl (by show dig d 0 * 2 ^ 16 < _; omega) hnm hl
  have hw : wid d 1 = 7 ∨ wid d 1 = 8 := by unfold wid; split <;> simp
  have hp1 := h1.pos
  have hP2 : P d (1 + 1) = 8 + wid d 1 := by
    show 0 + wid d 0 + wid d 1 = _
    unfold wid; simp
  have hs7 : s1.ct = wid d 1 := by omega
  have hcc := h1.c
  have hW2 : W d (1 + 1) = dig d 0 * 2 ^ wid d 1 + dig d 1 := by
    show (0 * 2 ^ wid d 0 + dig d 0) * 2 ^ wid d 1 + dig d 1 = _
    ring
  have hd1 : dig d 1 < 256 := UInt8.toNat_lt _
  have hclt : s1.c * 2 ^ 7 < 2 ^ 32 := by
    rw [hW2, hs7] at hcc
    rcases hw with hw | hw <;> rw [hw] at hcc <;> norm_num at hcc <;> omega
  refine ⟨{ s1 with c := shl s1.c 7, ct := wsub s1.ct 7, a := 0x8000 }, ?_, ⟨h1.buf, h1.bp, h1.k1, ?_, ?_, ?_⟩, rfl, h4⟩
  · unfold initDec
    rw [hg, Option.bind_some, hc, Option.bind_some, hb]
    rfl
  · show wsub s1.ct 7 ≤ 8
    rw [wsub_eq (by omega) (by omega)]; omega
  · show P d (1 + 1) = 15 + wsub s1.ct 7
    rw [wsub_eq (by omega) (by omega)]; omega
  · show shl s1.c 7 + 0 * 2 ^ 16 = W d (1 + 1) * 2 ^ (16 - wsub s1.ct 7)
    rw [shl_eq hclt, wsub_eq (by omega) (by omega)]
    rw [Nat.zero_mul, Nat.add_zero] at hcc ⊢
    rw [hcc, Nat.mul_assoc, ← Nat.pow_add]
    congr 2
    omega

end Jp2.Mqc

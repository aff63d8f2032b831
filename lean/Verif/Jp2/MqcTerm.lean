import Verif.Jp2.MqcDec
/-!
# Predictable termination, whole segments, and safety on arbitrary bytes
-/
namespace Jp2.Mqc
open Jp2.Bio (store)

/-- `byteout` does not look at the counter. -/
theorem byteout_ct (s : Mqc) (x : Nat) : byteout { s with ct := x } = byteout s := by
  unfold byteout put
  rfl

/-- A terminated segment: the bytes `keep e'` follow offset `base`, the buffer up to `base` is untouched. -/
structure Closed (s : Mqc) (mem0 : List UInt8) (base : Nat) (e' : List UInt8) : Prop where
  nm : NoMarker e'
  bp : s.bp = base + 1 + (keep e').length
  len : s.mem.length = mem0.length
  low : ∀ i, i ≤ base → s.mem[i]? = mem0[i]?
  bytes : ∀ i, i < (keep e').length → s.mem[base + 1 + i]? = (keep e')[i]?

theorem keep_len (e : List UInt8) : (keep e).length ≤ e.length := by
  unfold keep; split
  · rw [List.length_dropLast]; omega
  · exact Nat.le_refl _
theorem keep_get {e : List UInt8} {i : Nat} (h : i < (keep e).length) : (keep e)[i]? = e[i]? := by
  rcases keep_cases (e := e) with ⟨h1, _⟩ | h1
  · rw [h1]
  · conv_rhs => rw [h1]
    rw [List.getElem?_append_left h]

theorem flush_closed {s s' : Mqc} {mem0 : List UInt8} {base : Nat} {e : List UInt8} (h : ES s mem0 base e) (ha : 0x8000 ≤ s.a)
    (hf : flush s = some s') : ∃ e', Closed s' mem0 base e' ∧ s'.start = s.start ∧ s'.ctxs = s.ctxs ∧ FutS s.c s.a s.ct e e' := by
  obtain ⟨e', h1, h2, h3, h4, h5, h6, h7, _, h8⟩ := flush_spec h ha hf
  refine ⟨e', ⟨h1, h2, h3, h4, ?_⟩, h6, h7, h8⟩
  intro i hi
  rw [keep_get hi]
  exact h5 i (by have := keep_len e'; omega)

/-- The predictable-termination loop. `m` is the number of doublings so far. -/
theorem erterm_loop {mem0 : List UInt8} {base : Nat} : ∀ (fuel : Nat) {k : Int} {s s' : Mqc} {e : List UInt8}, Rel s mem0 base e →
    Inv e s.c 1 s.ct → s.ct ≤ 15 → s.c < 2 ^ (27 - s.ct) ∨ (e = [] ∧ s.ct ≤ 12) ∨ k > 0 → ertermLoop fuel k s = some s' →
    ∃ e' m, Rel s' mem0 base e' ∧ Inv e' s'.c 1 s'.ct ∧ (k ≤ 0 → s' = s ∧ e' = e ∧ m = 0) ∧ (k > 0 → s'.ct ≤ 8 ∧ s'.c < 2 ^ (27 - s'.ct)) ∧
      s'.ctxs = s.ctxs ∧ s'.start = s.start ∧ Qv e' s'.ct = Qv e s.ct + m ∧ (k ≤ (Pv e' : Int) - Pv e) ∧
      ∀ A d, FutS s'.c (A * 2 ^ m) s'.ct e' d → FutS s.c A s.ct e d := by
  intro fuel
  induction fuel with
  | zero => intro k s s' e _ _ _ _ h; simp [ertermLoop] at h
  | succ fuel ih =>
    intro k s s' e hr hi hct hc h
    unfold ertermLoop at h
    by_cases hk : k > 0
    · rw [if_pos hk, Option.bind_eq_some_iff] at h
      obtain ⟨u, hu, h⟩ := h
      rw [show byteout { s with c := shl s.c s.ct, ct := 0 } = byteout { s with c := shl s.c s.ct } from
        byteout_ct { s with c := shl s.c s.ct } 0] at hu
      obtain ⟨e1, k1, k2, k3, k4, k5, k6, k7, k8, k9, k10⟩ := shift_out hr hi hct hu
      have hlt : u.c < 2 ^ (27 - u.ct) := by rw [k4]; exact Nat.mod_lt _ (Nat.two_pow_pos _)
      obtain ⟨e', m, g1, g2, g3, g4, g5, g6, g7, g8, g9⟩ := ih k1 k2 (by omega) (Or.inl hlt) h
      refine ⟨e', s.ct + m, g1, g2, fun hh => absurd hk (by omega), fun _ => ?_, g5.trans k6, g6.trans k7, by omega, ?_, ?_⟩
      · by_cases hk2 : k - u.ct > 0
        · exact g4 hk2
        · obtain ⟨r1, _, _⟩ := g3 (by omega)
          subst r1
          exact ⟨by omega, hlt⟩
      · have hP1 : Pv e1 = Pv e + u.ct := by
          unfold Qv at k9
          omega
        omega
      · intro A d hd
        refine k10 A d (g9 _ d ?_)
        rw [Nat.mul_assoc, ← Nat.pow_add]
        exact hd
    · rw [if_neg hk] at h
      injection h with h
      subst h
      refine ⟨e, 0, hr, hi, fun _ => ⟨rfl, rfl, rfl⟩, fun hh => absurd hh hk, rfl, rfl, rfl, by omega, ?_⟩
      intro A d hd
      rw [Nat.pow_zero, Nat.mul_one] at hd
      exact hd

theorem erterm_closed {s s' : Mqc} {mem0 : List UInt8} {base : Nat} {e : List UInt8} (h : ES s mem0 base e) (ha : 0x8000 ≤ s.a)
    (h12 : s.ct = 12 → e = []) (hc15 : s.ct = 12 → s.c < 2 ^ 15)
    (hf : ertermEnc s = some s') : ∃ e', Closed s' mem0 base e' ∧ s'.start = s.start ∧ s'.ctxs = s.ctxs ∧ FutS s.c s.a s.ct e e' := by
  unfold ertermEnc at hf
  rw [Option.bind_eq_some_iff] at hf
  obtain ⟨u, hu, hf⟩ := hf
  rw [Option.bind_eq_some_iff] at hf
  obtain ⟨b, hb, hf⟩ := hf
  have hct1 := h.ct1
  have hct2 := h.ct2
  have hi1 : Inv e s.c 1 s.ct := by
    have := inv_sel (δ := 0) (A' := 1) h.inv (by omega) (by omega)
    exact this
  obtain ⟨e', m, g1, g2, g3, g4, g5, g6, g7, g8, g9⟩ := erterm_loop 16 h.rel hi1 (by omega)
    (by by_cases hh : s.ct = 12
        · exact Or.inr (Or.inl ⟨h12 hh, hct2⟩)
        · exact Or.inr (Or.inr (by omega))) hu
  -- the register fits below the emitted bytes
  have hlt : u.c < 2 ^ (27 - u.ct) := by
    by_cases hh : s.ct = 12
    · obtain ⟨r1, _, _⟩ := g3 (by omega)
      rw [r1, hh]
      exact hc15 hh
    · exact (g4 (by omega)).2
  have hult : u.ct ≤ 12 := by
    by_cases hh : s.ct = 12
    · obtain ⟨r1, _, _⟩ := g3 (by omega)
      rw [r1]; exact hct2
    · have := (g4 (by omega)).1; omega
  have hbig : 2 ^ (27 - u.ct) ≤ u.c + s.a * 2 ^ m := by
    have h1 : 27 - u.ct ≤ 15 + m := by unfold Qv at g7; omega
    calc (2 : Nat) ^ (27 - u.ct) ≤ 2 ^ (15 + m) := Nat.pow_le_pow_right (by omega) h1
      _ = 2 ^ 15 * 2 ^ m := Nat.pow_add ..
      _ ≤ s.a * 2 ^ m := Nat.mul_le_mul_right _ (by omega)
      _ ≤ _ := Nat.le_add_left _ _
  have hfut : FutS s.c s.a s.ct e e' := by
    refine g9 s.a e' ⟨⟨Nat.le_refl _, fun _ _ => rfl, ?_⟩, fut_base hlt hbig⟩
    intro i x y _ hx hy
    rw [hx] at hy
    injection hy with hy
    rw [hy]
  have hkl := keep_len e'
  by_cases hbf : b = 255
  · -- a final FF is dropped
    rw [if_neg (by simpa using hbf)] at hf
    injection hf with hf
    subst hf
    refine ⟨e', ⟨g2.nm, ?_, g1.len, g1.low, ?_⟩, g6, g5, hfut⟩
    · rcases mem_bp g1 with ⟨_, b', hb', hne⟩ | ⟨f, x, hfx, hx, hbp⟩
      · rw [hb] at hb'
        injection hb' with hb'
        exact absurd (hb' ▸ hbf) hne
      · rw [hb] at hx
        injection hx with hx
        have hkeep : keep e' = f := by
          unfold keep
          rw [hfx, ← hx, hbf]
          simp
        rw [hkeep, hbp]
    · intro i hi
      rw [keep_get hi]
      exact g1.bytes i (by omega)
  · rw [if_pos (by simpa using hbf)] at hf
    have hroom := byteout_room hf
    have hkeep : keep e' = e' := by
      unfold keep
      rw [if_neg]
      intro hl
      rcases mem_bp g1 with ⟨h0, _⟩ | ⟨f, x, hfx, hx, _⟩
      · rw [h0] at hl; simp at hl
      · rw [hb] at hx
        injection hx with hx
        rw [hfx, ← hx] at hl
        simp at hl
        exact hbf hl
    have huc : u.c < 2 ^ 27 := lt_of_lt_of_le hlt (Nat.pow_le_pow_right (by omega) (by omega))
    have hbo : byteout u = put u 19 8 := by
      unfold byteout
      rw [if_neg (by have := g1.st; have := g1.bp; omega), hb, Option.bind_some, if_neg hbf, if_pos ((carry_bit (by omega)).mpr huc)]
    rw [hbo] at hf
    obtain ⟨s2, hp, hrel, _, _, _, hcx, hst⟩ := put_spec g1 19 8 hroom
    rw [hf] at hp
    injection hp with hp
    subst hp
    refine ⟨e', ⟨g2.nm, ?_, hrel.len, hrel.low, ?_⟩, hst.trans g6, hcx.trans g5, hfut⟩
    · rw [hkeep, hrel.bp]; simp; omega
    · intro i hi
      rw [hkeep] at hi ⊢
      rw [hrel.bytes i (by simp; omega), List.getElem?_append_left (by omega)]

/-! ## Whole segments -/

/-- All contexts name rows of the table. -/
def CtxsOk (l : List Nat) : Prop := ∀ i ∈ l, i < states.length

theorem encodeAll_spec {mem0 : List UInt8} {base : Nat} : ∀ (syms : List (Nat × Nat)) {s s' : Mqc} {e : List UInt8},
    ES s mem0 base e → 0x8000 ≤ s.a → (∀ p ∈ syms, p.2 ≤ 1) → encodeAll s syms = some s' →
    ∃ e', ES s' mem0 base e' ∧ 0x8000 ≤ s'.a ∧ s'.start = s.start ∧ Qv e s.ct ≤ Qv e' s'.ct ∧
      (syms ≠ [] → s.a = 0x8000 → Qv e s.ct < Qv e' s'.ct) ∧
      ∀ f : List UInt8, NoMarker f → FutS s'.c s'.a s'.ct e' f → FutS s.c s.a s.ct e f ∧
        ∀ (sd : Mqc) (k : Nat), DR sd (keep f) (Lv e s.ct s.c) (Qv e s.ct) k → sd.a = s.a → sd.ctxs = s.ctxs →
          ∃ sd' k', decodeAll sd (syms.map Prod.fst) = some (syms.map Prod.snd, sd') ∧ sd'.ctxs = s'.ctxs ∧
            DR sd' (keep f) (Lv e' s'.ct s'.c) (Qv e' s'.ct) k' ∧ sd'.a = s'.a := by
  intro syms
  induction syms with
  | nil =>
    intro s s' e hs ha _ h
    injection h with h
    subst h
    exact ⟨e, hs, ha, rfl, Nat.le_refl _, fun hh => absurd rfl hh, fun f _ hf => ⟨hf, fun sd k hdr hsa hcx => ⟨sd, k, rfl, hcx, hdr, hsa⟩⟩⟩
  | cons p syms ih =>
    obtain ⟨cx, x⟩ := p
    intro s s' e hs ha hx h
    unfold encodeAll at h
    rw [Option.bind_eq_some_iff] at h
    obtain ⟨t, ht, h⟩ := h
    obtain ⟨st, hst⟩ : ∃ st, ctxState s cx = some st := by
      unfold encode at ht
      rw [Option.bind_eq_some_iff] at ht
      obtain ⟨st, hst, _⟩ := ht
      exact ⟨st, hst⟩
    obtain ⟨e1, r, g1, g2, g3, g4, g5, g6, g7, g8, g9⟩ := encode_spec hs ha hst ht
    obtain ⟨e', k1, k2, k3, k4, k5, k6⟩ := ih g1 g2 (fun p hp => hx p (List.mem_cons_of_mem _ hp)) h
    obtain ⟨hsel1, hsel2⟩ := sel_le (ctx_ok hst) ha x
    refine ⟨e', k1, k2, k3.trans g6, by omega, ?_, ?_⟩
    · intro _ h8
      have hq1 := (ctx_ok hst).q1
      have : 1 ≤ r := by
        rcases r with _ | r
        · rw [Nat.pow_zero, Nat.mul_one] at g3
          unfold sel at g3
          have := (ctx_ok hst).q2
          split at g3 <;> simp only at g3 <;> omega
        · omega
      omega
    · intro f hnm hf
      obtain ⟨hf1, hdec⟩ := k6 f hnm hf
      have hf2 := g9 f hf1
      refine ⟨futS_sel hf2 hsel1, ?_⟩
      intro sd k hdr hsa hcx
      have hfk : Fut (Lv e s.ct s.c + (sel st s.a x).1) (Qv e s.ct) (sel st s.a x).2 e.length (keep f) := by
        have := fut_keep hnm hf2.2
        unfold Lv at this ⊢
        rw [Nat.add_assoc]
        exact this
      have hstd : ctxState sd cx = some st := by
        unfold ctxState at hst ⊢
        rw [hcx]; exact hst
      have hPj : P (keep f) e.length < Qv e s.ct := by
        have h1 := ext_P hf2.1
        have h2 : P (keep f) e.length = P f e.length := by
          rcases keep_cases (e := f) with ⟨hh, _⟩ | hh
          · rw [hh]
          · conv_rhs => rw [hh]
            rw [(W_drop (nomarker_keep hnm).2 _).2]
        rw [h2, h1]
        have := hs.ct2
        unfold Qv Pv
        omega
      obtain ⟨sd1, k1', d1, d2, d3, d4⟩ := decode_spec (nomarker_keep hnm).1 (nomarker_keep hnm).2 (x := x) (r := r) hdr (by rw [hsa]; exact ha)
        (by rw [hsa]; exact hs.inv.alt) hstd (hx (cx, x) (List.mem_cons_self)) (by rw [hsa]; exact hfk) hPj
        (by rw [hsa]; exact g4) (by rw [hsa, ← g3]; exact g2)
      rw [hsa] at d2 d3 d4
      rw [← g7, ← g8] at d2
      obtain ⟨sd', k'', d5, d6⟩ := hdec sd1 k1' d2 (by rw [d3, g3]) (by rw [d4, g5, hcx])
      refine ⟨sd', k'', ?_, d6⟩
      show (decode sd cx).bind _ = _
      rw [d1, Option.bind_some]
      simp only [d5, Option.map_some, List.map_cons]

/-- A state ready to start a segment whose first byte goes to `bp + 1`. -/
structure Fresh (s : Mqc) : Prop where
  a : s.a = 0x8000
  c : s.c = 0
  ct : s.ct = 12
  st : s.start ≤ s.bp + 1
  b : ∃ b, s.mem[s.bp]? = some b ∧ b ≠ 255

theorem fresh_es {s : Mqc} (h : Fresh s) : ES s s.mem s.bp [] := by
  refine ⟨⟨rfl, rfl, fun _ _ => rfl, h.b, fun i hi => by simp at hi, h.st⟩, ⟨?_, ?_, ?_, ?_, ?_⟩, by rw [h.ct]; omega, by rw [h.ct], fun hh => absurd rfl hh⟩
  · rw [h.a]; omega
  · rw [h.a]; omega
  · rw [h.a, h.c, h.ct]; simp
  · intro i x hi; simp at hi
  · intro i b hi; simp at hi

theorem initEnc_fresh {mem : List UInt8} {start : Nat} {ctxs : List Nat} {s : Mqc} (h : initEnc mem start ctxs = some s) :
    Fresh s ∧ s.bp + 1 = start ∧ s.mem = mem ∧ s.ctxs = ctxs ∧ s.start = start := by
  unfold initEnc at h
  split at h
  · simp at h
  · rename_i h0
    rw [Option.bind_eq_some_iff] at h
    obtain ⟨b, hb, h⟩ := h
    split at h
    · simp at h
    · rename_i hne
      injection h with h
      subst h
      exact ⟨⟨rfl, rfl, rfl, by show start ≤ start - 1 + 1; omega, b, hb, hne⟩, by show start - 1 + 1 = start; omega, rfl, rfl, rfl⟩

theorem restart_fresh {s0 s : Mqc} (h : restartInitEnc s0 = some s) :
    Fresh s ∧ s.bp + 1 = s0.bp ∧ s.mem = s0.mem ∧ s.ctxs = s0.ctxs ∧ s.start = s0.start := by
  unfold restartInitEnc at h
  split at h
  · simp at h
  · rename_i h0
    rw [Option.bind_eq_some_iff] at h
    obtain ⟨b, hb, h⟩ := h
    split at h
    · simp at h
    · rename_i hne
      injection h with h
      subst h
      exact ⟨⟨rfl, rfl, rfl, by show s0.start ≤ s0.bp - 1 + 1; omega, b, hb, hne⟩, by show s0.bp - 1 + 1 = s0.bp; omega, rfl, rfl, rfl⟩

/-- Slicing a buffer. -/
theorem slice_get {mem d : List UInt8} {o : Nat} (h : (mem.drop o).take d.length = d) (i : Nat) (hi : i < d.length) :
    mem[o + i]? = d[i]? := by
  conv_rhs => rw [← h]
  rw [List.getElem?_take_of_lt hi, List.getElem?_drop]

theorem slice_eq {mem d : List UInt8} {o : Nat} (h : ∀ i, i < d.length → mem[o + i]? = d[i]?) : (mem.drop o).take d.length = d := by
  apply List.ext_getElem?
  intro i
  by_cases hi : i < d.length
  · rw [List.getElem?_take_of_lt hi, List.getElem?_drop, h i hi]
  · rw [List.getElem?_eq_none (by rw [List.length_take]; omega), List.getElem?_eq_none (by omega)]

/-- Termination either way, after some decisions have been coded or none. -/
theorem finish_closed {s0 s1 s2 : Mqc} {e' : List UInt8} (h0 : Fresh s0) (hes : ES s1 s0.mem s0.bp e') (ha : 0x8000 ≤ s1.a)
    (hq : Qv [] s0.ct < Qv e' s1.ct ∨ s1.c = 0) (h2 : flush s1 = some s2 ∨ ertermEnc s1 = some s2) :
    ∃ f, Closed s2 s0.mem s0.bp f ∧ s2.start = s1.start ∧ s2.ctxs = s1.ctxs ∧ FutS s1.c s1.a s1.ct e' f := by
  rcases h2 with h2 | h2
  · exact flush_closed hes ha h2
  · have hQ0 : Qv [] s0.ct = 15 := by rw [h0.ct]; rfl
    have h12 : s1.ct = 12 → e' = [] := by
      intro hh
      by_contra hne
      have := hes.ct3 hne
      omega
    refine erterm_closed hes ha h12 ?_ h2
    intro hh
    rcases hq with hq | hq
    · rw [h12 hh, hh] at hq
      have hq' : Qv [] 12 = 15 := rfl
      omega
    · rw [hq]; omega

/-- Encode, terminate either way, decode. -/
theorem segment {s0 s1 s2 : Mqc} {syms : List (Nat × Nat)} (h0 : Fresh s0) (hbit : ∀ p ∈ syms, p.2 ≤ 1)
    (h1 : encodeAll s0 syms = some s1) (h2 : flush s1 = some s2 ∨ ertermEnc s1 = some s2) :
    ∃ d : List UInt8, NoMarker d ∧ d.getLast? ≠ some 255 ∧ s2.bp = s0.bp + 1 + d.length ∧ (∀ i, i < d.length → s2.mem[s0.bp + 1 + i]? = d[i]?) ∧
      s2.mem.length = s0.mem.length ∧ (∀ i, i ≤ s0.bp → s2.mem[i]? = s0.mem[i]?) ∧ s2.start = s0.start ∧
      ∀ (buf : List UInt8) (o : Nat), (buf.drop o).take d.length = d → o + d.length + 2 ≤ buf.length →
        ∃ sd sd', initDec buf o d.length s0.ctxs = some sd ∧ decodeAll sd (syms.map Prod.fst) = some (syms.map Prod.snd, sd') ∧
          sd'.ctxs = s2.ctxs := by
  have hes := fresh_es h0
  obtain ⟨e', k1, k2, k3, k4, k5, k6⟩ := encodeAll_spec syms hes (by rw [h0.a]) hbit h1
  obtain ⟨f, hcl, hst, hcx, hfut⟩ := finish_closed h0 k1 k2 (by
    by_cases hn : syms = []
    · subst hn
      injection h1 with h1
      subst h1
      exact Or.inr h0.c
    · exact Or.inl (k5 hn h0.a)) h2
  obtain ⟨_, hdec⟩ := k6 f hcl.nm hfut
  obtain ⟨n1, n2⟩ := nomarker_keep hcl.nm
  refine ⟨keep f, n1, n2, hcl.bp, hcl.bytes, hcl.len, hcl.low, hst.trans k3, ?_⟩
  intro buf o hbuf hroom
  obtain ⟨sd, i1, i2, i3, i4⟩ := initDec_spec n1 n2 s0.ctxs (slice_get hbuf) (by omega)
  have hL : Lv [] s0.ct s0.c = 0 := by rw [h0.c]; unfold Lv Sv W; simp
  have hQ : Qv [] s0.ct = 15 := by rw [h0.ct]; rfl
  obtain ⟨sd', _, j1, j2, _⟩ := hdec sd 2 (by rw [hL, hQ]; exact i2) (by rw [i3, h0.a]) i4
  exact ⟨sd, sd', i1, j1, j2.trans hcx.symm⟩

end Jp2.Mqc

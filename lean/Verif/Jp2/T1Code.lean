import Verif.Jp2.T1Block
/-!
# The coder's side of a block: segments, rates, lengths
-/
namespace Jp2.T1
open Jp2.Mqc (Mqc startCtxs RE0 bytes Fresh)

/-! ## Inside a segment -/

/-- The coder inside a segment whose first byte goes to `p`. -/
def Mid (raw : Bool) (mem0 : List UInt8) (p : Nat) (s : Mqc) : Prop :=
  if raw then ∃ e w, RE0 s mem0 p e w else ∃ base e, p = base + 1 ∧ Mqc.ES s mem0 base e ∧ 0x8000 ≤ s.a

theorem mid_fields {raw : Bool} {mem0 : List UInt8} {p : Nat} {s : Mqc} (h : Mid raw mem0 p s) :
    s.mem.length = mem0.length ∧ s.bp ≤ mem0.length ∧ (raw = true → p ≤ s.bp) ∧ p ≤ s.bp + 1 := by
  cases raw with
  | true =>
    unfold Mid at h
    simp only [if_true] at h
    obtain ⟨e, w, h⟩ := h
    have hm : Mqc.RMem s mem0 p e := by rcases h with h | ⟨h, _⟩; exacts [h.m, h]
    obtain ⟨b, hb, _⟩ := hm.prev
    have h1 := (List.getElem?_eq_some_iff.mp hb).1
    have h2 := Mqc.slice_len hm.bytes (by rw [hm.len]; omega)
    have h3 := hm.bp
    have h4 := hm.len
    exact ⟨h4, by omega, by omega, by omega⟩
  | false =>
    unfold Mid at h
    simp only [Bool.false_eq_true, if_false] at h
    obtain ⟨base, e, hp, h, _⟩ := h
    obtain ⟨b, hb, _⟩ := h.rel.fake
    have h1 := (List.getElem?_eq_some_iff.mp hb).1
    have h2 := Mqc.slice_len h.rel.bytes (by rw [h.rel.len]; omega)
    have h3 := h.rel.bp
    have h4 := h.rel.len
    exact ⟨h4, by omega, by simp, by omega⟩

theorem mid_code {raw : Bool} {mem0 : List UInt8} {p : Nat} {s s' : Mqc} {tr : List Sym} (h : Mid raw mem0 p s) (hb : ∀ q ∈ tr, q.2 ≤ 1)
    (hc : codeTr raw s tr = some s') : Mid raw mem0 p s' ∧ s'.start = s.start := by
  cases raw with
  | true =>
    unfold Mid at h ⊢
    simp only [if_true] at h ⊢
    unfold codeTr at hc
    rw [if_pos rfl] at hc
    obtain ⟨e, w, h⟩ := h
    obtain ⟨e', g1, g2, _⟩ := Mqc.bypassEncAll_spec _ h (fun d hd => by
      obtain ⟨p, hp, rfl⟩ := List.mem_map.mp hd
      exact hb p hp) hc
    exact ⟨⟨e', _, g1⟩, g2⟩
  | false =>
    unfold Mid at h ⊢
    simp only [Bool.false_eq_true, if_false] at h ⊢
    unfold codeTr at hc
    rw [if_neg (by simp)] at hc
    obtain ⟨base, e, hp, h, ha⟩ := h
    obtain ⟨e', g1, g2, g3, _⟩ := Mqc.encodeAll_spec tr h ha hb hc
    exact ⟨⟨base, e', hp, g1, g2⟩, g3⟩

theorem mid_rst {raw rs : Bool} {mem0 : List UInt8} {p : Nat} {s : Mqc} (h : Mid raw mem0 p s) : Mid raw mem0 p (rst rs s) := by
  cases raw with
  | true =>
    unfold Mid at h ⊢
    simp only [if_true] at h ⊢
    obtain ⟨e, w, h⟩ := h
    exact ⟨e, w, rst_re h⟩
  | false =>
    unfold Mid at h ⊢
    simp only [Bool.false_eq_true, if_false] at h ⊢
    obtain ⟨base, e, hp, h, ha⟩ := h
    exact ⟨base, e, hp, rst_es h, by rw [(rst_fields rs s).2.2.2.2.1]; exact ha⟩

/-- From inside a segment to its end. -/
theorem mid_run {st : Style} {raw : Bool} {mem0 : List UInt8} {p start : Nat} {last : PI} {rest : List PI} (hlast : last.term = true ∧ last.raw = raw)
    (hst : start ≤ p) (hroom : mem0.length + 4 ≤ 2 ^ 32) {s' : Mqc} : ∀ (init : List PI) {s : Mqc} {ps : List Pass}, Mid raw mem0 p s → s.start = start →
    (∀ x ∈ init, x.term = false ∧ x.raw = raw) → (∀ x ∈ init, ∀ q ∈ x.tr, q.2 ≤ 1) → codeLoop st false s (init ++ last :: rest) = some (s', ps) →
    ∃ t t1 s1 qs ps', runAll raw st.reset s (init.map PI.tr) = some t ∧ codeTr raw t last.tr = some t1 ∧ finTr raw st.pterm t1 = some s1 ∧
      codeLoop st true (rst st.reset s1) rest = some (s', ps') ∧ ps = qs ++ ⟨true, numbytes32 s1, 0⟩ :: ps' ∧ qs.length = init.length ∧
      ∀ q ∈ qs, q.term = false ∧ p - start ≤ q.rate := by
  intro init
  induction init with
  | nil =>
    intro s ps hm hs _ _ h
    rw [List.nil_append] at h
    unfold codeLoop codeItem at h
    rw [Option.bind_eq_some_iff] at h
    obtain ⟨⟨sx, q⟩, h1, h⟩ := h
    rw [Option.map_eq_some_iff] at h
    obtain ⟨⟨sy, qs⟩, h2, h⟩ := h
    injection h with e1 e2
    subst e1 e2
    simp only [Bool.false_eq_true, if_false, Option.bind_some, hlast.1, hlast.2, if_true] at h1
    rw [Option.bind_eq_some_iff] at h1
    obtain ⟨t1, h3, h1⟩ := h1
    rw [Option.map_eq_some_iff] at h1
    obtain ⟨⟨s1, q'⟩, h4, h1⟩ := h1
    injection h1 with e1 e2
    subst e1 e2
    rw [Option.map_eq_some_iff] at h4
    obtain ⟨s1', h4, h5⟩ := h4
    injection h5 with e1 e2
    subst e1 e2
    rw [hlast.1] at h2
    exact ⟨s, t1, s1', [], qs, rfl, h3, h4, h2, rfl, rfl, by simp⟩
  | cons x init ih =>
    intro s ps hm hs hx hb h
    rw [List.cons_append] at h
    unfold codeLoop codeItem at h
    rw [Option.bind_eq_some_iff] at h
    obtain ⟨⟨sx, q⟩, h1, h⟩ := h
    rw [Option.map_eq_some_iff] at h
    obtain ⟨⟨sy, qs⟩, h2, h⟩ := h
    injection h with e1 e2
    subst e1 e2
    obtain ⟨hx1, hx2⟩ := hx x List.mem_cons_self
    simp only [Bool.false_eq_true, if_false, Option.bind_some, hx1, hx2] at h1
    rw [Option.bind_eq_some_iff] at h1
    obtain ⟨t, h3, h1⟩ := h1
    rw [Option.map_eq_some_iff] at h1
    obtain ⟨⟨s1, q'⟩, h4, h1⟩ := h1
    injection h1 with e1 e2
    subst e1 e2
    rw [Option.map_eq_some_iff] at h4
    obtain ⟨ex, h4, h5⟩ := h4
    injection h5 with e1 e2
    subst e1 e2
    obtain ⟨m1, m2⟩ := mid_code hm (hb x List.mem_cons_self) h3
    rw [hx1] at h2
    obtain ⟨t', t1, s1', qs', ps', k1, k2, k3, k4, k5, k6, k7⟩ := ih (mid_rst (rs := st.reset) m1)
      (by rw [(rst_fields _ t).2.1, m2, hs]) (fun z hz => hx z (List.mem_cons_of_mem _ hz)) (fun z hz => hb z (List.mem_cons_of_mem _ hz)) h2
    refine ⟨t', t1, s1', ⟨false, (numbytes32 t + ex) % 2 ^ 32, 0⟩ :: qs', ps', ?_, k2, k3, k4, ?_, ?_, ?_⟩
    · rw [List.map_cons, runAll, h3, Option.bind_some]
      exact k1
    · rw [k5]; rfl
    · rw [List.length_cons, List.length_cons, k6]
    · intro q hq
      rcases List.mem_cons.mp hq with rfl | hq
      · refine ⟨rfl, ?_⟩
        obtain ⟨f1, f2, f3, f4⟩ := mid_fields m1
        have f5 : t.start = start := m2.trans hs
        show p - start ≤ (numbytes32 t + ex) % 2 ^ 32
        unfold numbytes32
        rw [f5]
        cases raw with
        | true =>
          simp only [if_true] at h4
          have f6 := f3 rfl
          have hex : ex ≤ 1 := by
            unfold bypassExtra at h4
            split at h4
            · simp at h4
            · rw [Option.map_eq_some_iff] at h4
              obtain ⟨b, _, h4⟩ := h4
              rw [← h4]
              split <;> omega
          omega
        | false =>
          simp only [Bool.false_eq_true, if_false] at h4
          injection h4 with h4
          omega
      · exact k7 q hq

/-! ## Rates and lengths -/

/-- The byte before position `r` is not `FF`. -/
def Good (mem : List UInt8) (start r : Nat) : Prop := 1 ≤ r → ∃ b, mem[start + (r - 1)]? = some b ∧ b ≠ 255

/-- The rates the encoder records: `r` bytes before the first pass, then segments given by length and number of passes. -/
inductive Rates (mem : List UInt8) (start : Nat) : Nat → List Pass → List (Nat × Nat) → Prop
  | nil (r : Nat) : Rates mem start r [] []
  | seg {r r' : Nat} {qs ps : List Pass} {segs : List (Nat × Nat)} (h : ∀ q ∈ qs, q.term = false ∧ r ≤ q.rate) (hr : r ≤ r')
      (hg : Good mem start r') (ht : Rates mem start r' ps segs) :
      Rates mem start r (qs ++ ⟨true, r', 0⟩ :: ps) ((r' - r, qs.length + 1) :: segs)

/-- Rates that increase from `lo` to at most `hi`. -/
def Asc : Nat → List Pass → Nat → Prop
  | lo, [], hi => lo ≤ hi
  | lo, q :: l, hi => lo ≤ q.rate ∧ Asc q.rate l hi

theorem Asc.weaken {l : List Pass} {lo lo' hi : Nat} (h : Asc lo l hi) (hl : lo' ≤ lo) : Asc lo' l hi := by
  cases l with
  | nil => exact Nat.le_trans hl h
  | cons q l => exact ⟨Nat.le_trans hl h.1, h.2⟩

/-- The same after the rates have been made to increase. -/
inductive RatesC (mem : List UInt8) (start : Nat) : Nat → List Pass → List (Nat × Nat) → Prop
  | nil (r : Nat) : RatesC mem start r [] []
  | seg {r r' : Nat} {qs ps : List Pass} {segs : List (Nat × Nat)} (h : ∀ q ∈ qs, q.term = false) (hr : Asc r qs r')
      (hg : Good mem start r') (ht : RatesC mem start r' ps segs) :
      RatesC mem start r (qs ++ ⟨true, r', 0⟩ :: ps) ((r' - r, qs.length + 1) :: segs)

theorem clamp_front {last r m : Nat} {rest rest' : List Pass} (hrest : clampRates last rest = (rest', m)) (hm : r ≤ m) : ∀ (qs : List Pass),
    (∀ q ∈ qs, q.term = false ∧ r ≤ q.rate) → ∃ qs' m', clampRates last (qs ++ rest) = (qs' ++ rest', m') ∧ r ≤ m' ∧ Asc m' qs' m ∧
      qs'.length = qs.length ∧ ∀ q ∈ qs', q.term = false := by
  intro qs
  induction qs with
  | nil => intro _; exact ⟨[], m, by rw [List.nil_append, hrest]; rfl, hm, Nat.le_refl _, rfl, by simp⟩
  | cons q qs ih =>
    intro h
    obtain ⟨qs', m', k1, k2, k3, k4, k5⟩ := ih (fun z hz => h z (List.mem_cons_of_mem _ hz))
    obtain ⟨h1, h2⟩ := h q List.mem_cons_self
    rw [List.cons_append]
    unfold clampRates
    rw [k1]
    dsimp only
    split
    · refine ⟨{ q with rate := m' } :: qs', m', rfl, k2, ⟨Nat.le_refl _, k3⟩, by simp [k4], ?_⟩
      intro z hz
      rcases List.mem_cons.mp hz with rfl | hz
      · exact h1
      · exact k5 z hz
    · refine ⟨q :: qs', q.rate, rfl, h2, ⟨Nat.le_refl _, k3.weaken (by omega)⟩, by simp [k4], ?_⟩
      intro z hz
      rcases List.mem_cons.mp hz with rfl | hz
      · exact h1
      · exact k5 z hz

theorem clamp_rates {mem : List UInt8} {start : Nat} : ∀ {r : Nat} {ps : List Pass} {segs : List (Nat × Nat)}, Rates mem start r ps segs →
    ∃ ps' m, clampRates (r + (segs.map Prod.fst).sum) ps = (ps', m) ∧ r ≤ m ∧ RatesC mem start r ps' segs := by
  intro r ps segs h
  induction h with
  | nil r => exact ⟨[], r, rfl, Nat.le_refl _, .nil r⟩
  | @seg r r' qs ps segs h hr hg ht ih =>
    obtain ⟨ps', m, k1, k2, k3⟩ := ih
    have hsum : r + (((r' - r, qs.length + 1) :: segs).map Prod.fst).sum = r' + (segs.map Prod.fst).sum := by
      simp only [List.map_cons, List.sum_cons]; omega
    rw [hsum]
    have hstep : clampRates (r' + (segs.map Prod.fst).sum) (⟨true, r', 0⟩ :: ps) = (⟨true, r', 0⟩ :: ps', r') := by
      unfold clampRates
      rw [k1]
      dsimp only
      rw [if_neg (by omega)]
    obtain ⟨qs', m', g1, g2, g3, g4, g5⟩ := clamp_front hstep hr qs h
    refine ⟨_, m', g1, g2, ?_⟩
    rw [← g4]
    exact .seg g5 (g3.weaken g2) hg k3

/-- The final segments of a block as the packet coder sees them: passes up to a terminated one, with the sum of their lengths. -/
def segsOf : Nat → Nat → List Pass → List (Nat × Nat)
  | len, k, [] => if k = 0 then [] else [(len, k)]
  | len, k, p :: l => if p.term then (len + p.len, k + 1) :: segsOf 0 0 l else segsOf (len + p.len) (k + 1) l

/-- What the encoder makes of a rate: it steps back before an `FF`. -/
def fin (mem : List UInt8) (start x : Nat) : Nat := if mem[start + (x - 1)]? = some 255 then x - 1 else x

theorem fin_mono {mem : List UInt8} {start x y : Nat} (h : x ≤ y) : fin mem start x ≤ fin mem start y := by
  rcases Nat.lt_or_ge x y with hl | hl
  · unfold fin; split <;> split <;> omega
  · rw [show x = y by omega]

theorem fin_good {mem : List UInt8} {start r : Nat} (h : Good mem start r) : fin mem start r = r := by
  unfold fin
  split
  · rename_i hf
    rcases Nat.eq_zero_or_pos r with h0 | h0
    · omega
    · obtain ⟨b, hb, hne⟩ := h h0
      rw [hb] at hf
      injection hf with hf
      exact absurd hf hne
  · rfl

theorem finish_front {mem : List UInt8} {start r' : Nat} (hmem : mem.length < 2 ^ 32) (hg : Good mem start r') {ps : List Pass} {out : List Pass} :
    ∀ (qs : List Pass) (lo prev acc k : Nat) {out : List Pass}, prev ≤ fin mem start lo → Asc lo qs r' → (∀ q ∈ qs, q.term = false) →
    finishRates mem start prev (qs ++ ⟨true, r', 0⟩ :: ps) = some out →
    ∃ out', finishRates mem start r' ps = some out' ∧ segsOf acc k out = (acc + (r' - prev), k + qs.length + 1) :: segsOf 0 0 out' ∧ prev ≤ r' := by
  intro qs
  induction qs with
  | nil =>
    intro lo prev acc k out hlo hasc _ h
    rw [List.nil_append] at h
    unfold finishRates at h
    dsimp only at h
    split at h
    · simp at h
    rename_i hr0
    rw [Option.bind_eq_some_iff] at h
    obtain ⟨b, hb, h⟩ := h
    obtain ⟨b', hb', hne⟩ := hg (by omega)
    rw [hb] at hb'
    injection hb' with hb'
    subst hb'
    rw [if_neg hne] at h
    rw [Option.map_eq_some_iff] at h
    obtain ⟨out', h, he⟩ := h
    subst he
    have hlt := (List.getElem?_eq_some_iff.mp hb).1
    have hle : prev ≤ r' := by
      have := fin_mono (mem := mem) (start := start) (show lo ≤ r' from hasc)
      rw [fin_good hg] at this
      omega
    refine ⟨out', h, ?_, hle⟩
    have hlen : (2 ^ 32 + r' - prev) % 2 ^ 32 = r' - prev := by omega
    rw [segsOf, if_pos rfl, hlen]
    simp
  | cons q qs ih =>
    intro lo prev acc k out hlo hasc hq h
    rw [List.cons_append] at h
    unfold finishRates at h
    split at h
    · simp at h
    rename_i hr0
    rw [Option.bind_eq_some_iff] at h
    obtain ⟨b, hb, h⟩ := h
    dsimp only at h
    rw [Option.map_eq_some_iff] at h
    obtain ⟨o1, h, he⟩ := h
    subst he
    have hfin : (if b = 255 then q.rate - 1 else q.rate) = fin mem start q.rate := by
      unfold fin
      rw [hb]
      simp only [Option.some.injEq]
    rw [hfin] at h ⊢
    have hlt := (List.getElem?_eq_some_iff.mp hb).1
    obtain ⟨out', k1, k2, k3⟩ := ih q.rate (fin mem start q.rate) (acc + (fin mem start q.rate - prev)) (k + 1) (Nat.le_refl _) hasc.2
      (fun z hz => hq z (List.mem_cons_of_mem _ hz)) h
    have hmono := fin_mono (mem := mem) (start := start) hasc.1
    have hfle : fin mem start q.rate ≤ q.rate := by unfold fin; split <;> omega
    refine ⟨out', k1, ?_, by omega⟩
    have hlen : (2 ^ 32 + fin mem start q.rate - prev) % 2 ^ 32 = fin mem start q.rate - prev := by omega
    rw [segsOf, hq q List.mem_cons_self, if_neg (by simp), hlen, k2]
    rw [show acc + (fin mem start q.rate - prev) + (r' - fin mem start q.rate) = acc + (r' - prev) by omega]
    rw [show k + 1 + qs.length + 1 = k + (q :: qs).length + 1 by simp; omega]

theorem finish_rates {mem : List UInt8} {start : Nat} (hmem : mem.length < 2 ^ 32) : ∀ {r : Nat} {ps : List Pass} {segs : List (Nat × Nat)},
    RatesC mem start r ps segs → Good mem start r → ∀ {out : List Pass}, finishRates mem start r ps = some out → segsOf 0 0 out = segs := by
  intro r ps segs h
  induction h with
  | nil r => intro _ out h; injection h with h; subst h; rfl
  | @seg r r' qs ps segs h hr hg ht ih =>
    intro hr0 out ho
    obtain ⟨out', k1, k2, k3⟩ := finish_front hmem hg (out := out) qs r r 0 0 (by rw [fin_good hr0]) hr h ho
    rw [k2, ih hg k1]
    simp

end Jp2.T1

import Verif.Jp2.T1StdBlock
import Verif.Jp2.T1StdCode
import Verif.Jp2.T1Order
/-!
# Whole blocks and the standard
-/
namespace Jp2.T1
open Jp2.Mqc (Mqc startCtxs)
open Std (Block one CPass blockOf)

theorem dat_of {o w h : Nat} {causal : Bool} {px : Nat → Nat → Int} (hpx : ∀ y < h, ∀ x < w, -2 ^ 31 ≤ px y x ∧ px y x < 2 ^ 31) :
    Dat (blockOf o w h causal px) ((stripeOrder w h px).map toSmr) := by
  have hg : ∀ y < h, ∀ x < w, ((stripeOrder w h px).map toSmr).getD (eidx w h y x) 0 = toSmr (px y x) := by
    intro y hy x hx
    rw [List.getD_eq_getElem?_getD, List.getElem?_map, order_get px hy hx]
    rfl
  refine ⟨by rw [List.length_map, order_len]; rfl, fun y hy x hx => ?_, fun y hy x hx => ?_⟩
  · obtain ⟨h1, h2⟩ := hpx y hy x hx
    show min (px y x).natAbs (2 ^ 31 - 1) / 64 = mag (((stripeOrder w h px).map toSmr).getD (eidx w h y x) 0)
    rw [hg y hy x hx, mag_smr h1 h2]
  · obtain ⟨h1, h2⟩ := hpx y hy x hx
    show signOf (((stripeOrder w h px).map toSmr).getD (eidx w h y x) 0) = one (decide (px y x < 0))
    rw [hg y hy x hx, smr_sign h1 h2]
    unfold one
    by_cases hn : px y x < 0 <;> simp [hn]

theorem order_range {w h : Nat} {px : Nat → Nat → Int} (hpx : ∀ y < h, ∀ x < w, -2 ^ 31 ≤ px y x ∧ px y x < 2 ^ 31) :
    ∀ v ∈ stripeOrder w h px, -2 ^ 31 ≤ v ∧ v < 2 ^ 31 := by
  intro v hv
  obtain ⟨y, x, hy, hx, rfl⟩ := mem_order hv
  exact hpx y hy x hx

theorem mag_blockOf {o w h : Nat} {causal : Bool} {px : Nat → Nat → Int} (hpx : ∀ y < h, ∀ x < w, -2 ^ 31 ≤ px y x ∧ px y x < 2 ^ 31) :
    ∀ y < h, ∀ x < w, (blockOf o w h causal px).mag y x = magOf (px y x) / 64 := by
  intro y hy x hx
  obtain ⟨h1, h2⟩ := hpx y hy x hx
  rw [← smr_mag h1 h2]
  exact (mag_smr h1 h2).symm

theorem orderFrom_lt {b1 t : Nat} {q : Nat × Nat} (hq : q ∈ orderFrom b1 t) : q.2 < 3 := by
  have hb : ∀ b, ∀ q ∈ Std.below b, q.2 < 3 := by
    intro b
    induction b with
    | zero => intro q hq; simp [Std.below] at hq
    | succ b ih =>
      intro q hq
      simp only [Std.below, List.mem_cons] at hq
      rcases hq with rfl | rfl | rfl | hq
      · show 0 < 3; omega
      · show 1 < 3; omega
      · show 2 < 3; omega
      · exact ih q hq
  cases b1 with
  | zero => simp [orderFrom] at hq
  | succ b =>
    have hsub : q ∈ (b, 0) :: (b, 1) :: (b, 2) :: Std.below b := by
      by_cases h0 : t = 0
      · rw [orderFrom, if_pos h0] at hq; exact hq
      · by_cases h1 : t = 1
        · rw [orderFrom, if_neg h0, if_pos h1] at hq; exact List.mem_cons_of_mem _ hq
        · rw [orderFrom, if_neg h0, if_neg h1] at hq; exact List.mem_cons_of_mem _ (List.mem_cons_of_mem _ hq)
    simp only [List.mem_cons] at hsub
    rcases hsub with rfl | rfl | rfl | hq
    · show 0 < 3; omega
    · show 1 < 3; omega
    · show 2 < 3; omega
    · exact hb b q hq

/-- The bit above which there is nothing. -/
theorem numbps_top {data : List Int} (h1 : 1 ≤ numbpsOf ((data.map magOf).foldl max 0)) (h25 : numbpsOf ((data.map magOf).foldl max 0) ≤ 25) :
    ∃ x ∈ data, 2 ^ (numbpsOf ((data.map magOf).foldl max 0) - 1) ≤ magOf x / 64 := by
  obtain ⟨_, _, h3⟩ := foldl_max (l := data.map magOf) (a := 0)
  generalize (data.map magOf).foldl max 0 = mx at *
  unfold numbpsOf at *
  by_cases h0 : mx = 0
  · rw [if_pos h0] at h1; omega
  · rw [if_neg h0] at h1 h25 ⊢
    rcases h3 with h3 | h3
    · exact absurd h3 h0
    obtain ⟨x, hx, h4⟩ := List.mem_map.mp h3
    refine ⟨x, hx, ?_⟩
    rw [h4]
    have hl : 6 ≤ Nat.log2 mx ∨ Nat.log2 mx < 6 := by omega
    rcases hl with hl | hl
    · have hself := Nat.log2_self_le h0
      obtain ⟨l, hl'⟩ : ∃ l, Nat.log2 mx = l := ⟨_, rfl⟩
      rw [hl'] at h1 h25 hself hl ⊢
      by_cases hbig : 2 ^ 32 ≤ 2 ^ 32 + l + 1 - 6
      · have h5 : (2 ^ 32 + l + 1 - 6) % 2 ^ 32 ≤ l - 5 := by
          rw [show 2 ^ 32 + l + 1 - 6 = 2 ^ 32 + (l - 5) by omega, Nat.add_mod_left]
          exact Nat.mod_le _ _
        rw [Nat.le_div_iff_mul_le (by omega), show 64 = 2 ^ 6 from rfl, ← Nat.pow_add]
        exact Nat.le_trans (Nat.pow_le_pow_right (by omega) (by omega)) hself
      · omega
    · exfalso
      rcases Nat.lt_or_ge (Nat.log2 mx) 5 with h5 | h5
      · omega
      · rw [show Nat.log2 mx = 5 by omega] at h1; simp at h1

/-- What a successful run of the encoder consists of. -/
theorem encode_cases {o w h : Nat} {st : Style} {data : List Int} {mem : List UInt8} {start : Nat} {c : Coded} (hr : ∀ x ∈ data, -2 ^ 31 ≤ x ∧ x < 2 ^ 31)
    (he : encodeCblk o w h st data mem start = some c) :
    (c.passes = [] ∧ c.mem = mem ∧ ∀ x ∈ data, magOf x / 64 = 0) ∨
    ∃ s0 e, (1 ≤ c.numbps ∧ c.numbps ≤ 25) ∧ (∀ x ∈ data, magOf x / 64 / 2 ^ c.numbps = 0) ∧ (∃ x ∈ data, 2 ^ (c.numbps - 1) ≤ magOf x / 64) ∧
      Mqc.initEnc mem start startCtxs = some s0 ∧
      encLoop o w h c.numbps st (data.map toSmr) (3 * c.numbps) c.numbps 2 ⟨s0, initFlags w h, []⟩ = some e ∧ c.mem = e.s.mem := by
  unfold encodeCblk at he
  split at he
  · simp at he
  dsimp only at he
  have hcase := numbps_cases hr
  have htop := numbps_top (data := data)
  generalize numbpsOf ((data.map magOf).foldl max 0) = n at he hcase htop
  rcases hcase with ⟨hn, hz⟩ | ⟨hn1, hn25, hz⟩
  · left
    have hc : c = ⟨n, [], mem⟩ := by
      rcases hn with hn | hn
      · rw [if_pos hn] at he
        injection he with he
        rw [← he, hn]
      · rw [if_neg (by omega), if_pos (by omega)] at he
        injection he with he
        exact he.symm
    subst hc
    exact ⟨rfl, rfl, hz⟩
  · right
    rw [if_neg (by omega), if_neg (by omega), Option.bind_eq_some_iff] at he
    obtain ⟨s0, hi, he⟩ := he
    rw [Option.bind_eq_some_iff] at he
    obtain ⟨e, hl, he⟩ := he
    rw [Option.map_eq_some_iff] at he
    obtain ⟨out, hfin, he⟩ := he
    subst he
    exact ⟨s0, e, ⟨hn1, hn25⟩, hz, htop hn1 hn25, hi, hl, rfl⟩

/-! ## Coder -/

theorem send_tr {raw : Bool} : ∀ (tr : List Sym) (s : Mqc), Std.send s (tr.map (lab raw)) = codeTr raw s tr := by
  intro tr
  induction tr with
  | nil => intro s; cases raw <;> rfl
  | cons p tr ih =>
    intro s
    cases raw with
    | true =>
      have ih' : ∀ s, Std.send s (tr.map (lab true)) = Mqc.bypassEncAll s (tr.map Prod.snd) := ih
      show Std.send s ((none, p.2) :: tr.map (lab true)) = Mqc.bypassEncAll s (p.2 :: tr.map Prod.snd)
      unfold Std.send Mqc.bypassEncAll
      simp only [ih']
    | false =>
      have ih' : ∀ s, Std.send s (tr.map (lab false)) = Mqc.encodeAll s tr := ih
      show Std.send s ((some p.1, p.2) :: tr.map (lab false)) = Mqc.encodeAll s (p :: tr)
      unfold Std.send Mqc.encodeAll
      simp only [ih']

theorem code_loop {st : Style} {n : Nat} : ∀ (items : List PI) (bts : List (Nat × Nat)) {prev : Bool} {s s' : Mqc} {ps : List Pass}, items.length = bts.length →
    items.map PI.term = bts.map (fun q => Std.ends st.bypass st.termall n q.1 q.2) → codeLoop st prev s items = some (s', ps) →
    Std.code st n prev s (List.zipWith cpass bts items) = some s' := by
  intro items
  induction items with
  | nil =>
    intro bts prev s s' ps hl _ h
    injection h with h
    injection h with h1 _
    subst h1
    rw [List.zipWith_nil_right]
    rfl
  | cons i items ih =>
    intro bts prev s s' ps hl ht h
    cases bts with
    | nil => simp at hl
    | cons q bts =>
      rw [List.map_cons, List.map_cons] at ht
      injection ht with t1 t2
      unfold codeLoop at h
      rw [Option.bind_eq_some_iff] at h
      obtain ⟨⟨s1, q1⟩, h1, h⟩ := h
      rw [Option.map_eq_some_iff] at h
      obtain ⟨⟨s2, qs⟩, h2, h⟩ := h
      injection h with e1 e2
      subst e1
      have := ih bts (by simpa using hl) t2 h2
      rw [List.zipWith_cons_cons]
      unfold Std.code cpass
      dsimp only
      unfold codeItem at h1
      rw [Option.bind_eq_some_iff] at h1
      obtain ⟨u1, g1, h1⟩ := h1
      rw [Option.bind_eq_some_iff] at h1
      obtain ⟨u2, g2, h1⟩ := h1
      rw [Option.map_eq_some_iff] at h1
      obtain ⟨⟨u3, q3⟩, g3, h1⟩ := h1
      injection h1 with h1 _
      rw [g1, Option.bind_some, send_tr, g2, Option.bind_some, ← t1]
      cases hi : i.term with
      | true =>
        rw [hi] at g3
        rw [if_pos rfl] at g3 ⊢
        rw [Option.map_eq_some_iff] at g3
        obtain ⟨u4, g3, g4⟩ := g3
        injection g4 with g4 _
        subst g4
        have hc : Std.close i.raw st.pterm u2 = some u4 := g3
        rw [hc, Option.bind_some]
        have : (if st.reset = true then { u4 with ctxs := startCtxs } else u4) = s1 := h1
        rw [this]
        rw [hi] at h2
        exact ih bts (by simpa using hl) t2 h2
      | false =>
        rw [hi] at g3
        rw [if_neg (by simp)] at g3 ⊢
        rw [Option.map_eq_some_iff] at g3
        obtain ⟨u4, g3, g4⟩ := g3
        injection g4 with g4 _
        subst g4
        rw [Option.bind_some]
        have : (if st.reset = true then { u2 with ctxs := startCtxs } else u2) = s1 := h1
        rw [this]
        rw [hi] at h2
        exact ih bts (by simpa using hl) t2 h2

/-! ## Decoder -/

theorem receive_plays {raw : Bool} : ∀ (tr : List Sym) {s s' : Mqc}, Std.receive s (tr.map (lab raw)) = some s' →
    Plays mqcCoder raw s tr s' ∧ s'.mem = s.mem ∧ s'.start = s.start := by
  intro tr
  induction tr with
  | nil => intro s s' h; injection h with h; subst h; exact ⟨rfl, rfl, rfl⟩
  | cons p tr ih =>
    intro s s' h
    obtain ⟨cx, d⟩ := p
    cases raw with
    | true =>
      have h' : Std.receive s ((none, d) :: tr.map (lab true)) = some s' := h
      unfold Std.receive at h'
      rw [Option.bind_eq_some_iff] at h'
      obtain ⟨⟨d', u⟩, h1, h'⟩ := h'
      dsimp only at h'
      split at h'
      · rename_i hd
        subst hd
        obtain ⟨k1, k2, k3⟩ := ih h'
        have hm := Mqc.rawDecode_mem h1
        exact ⟨⟨u, h1, k1⟩, k2.trans hm.1, k3.trans hm.2.1⟩
      · simp at h'
    | false =>
      have h' : Std.receive s ((some cx, d) :: tr.map (lab false)) = some s' := h
      unfold Std.receive at h'
      rw [Option.bind_eq_some_iff] at h'
      obtain ⟨⟨d', u⟩, h1, h'⟩ := h'
      dsimp only at h'
      split at h'
      · rename_i hd
        subst hd
        obtain ⟨k1, k2, k3⟩ := ih h'
        have hm := Mqc.decode_mem h1
        exact ⟨⟨u, h1, k1⟩, k2.trans hm.1, k3.trans hm.2⟩
      · simp at h'

theorem receiveAll_plays {raw rs : Bool} : ∀ (items : List PI) (bts : List (Nat × Nat)) {s s' : Mqc}, items.length = bts.length → (∀ i ∈ items, i.raw = raw) →
    Std.receiveAll rs s (List.zipWith cpass bts items) = some s' → PlaysR raw rs s (items.map PI.tr) s' ∧ s'.mem = s.mem ∧ s'.start = s.start := by
  intro items
  induction items with
  | nil => intro bts s s' hl _ h; rw [List.zipWith_nil_right] at h; injection h with h; subst h; exact ⟨rfl, rfl, rfl⟩
  | cons i items ih =>
    intro bts s s' hl hr h
    cases bts with
    | nil => simp at hl
    | cons q bts =>
      rw [List.zipWith_cons_cons] at h
      unfold Std.receiveAll at h
      rw [Option.bind_eq_some_iff] at h
      obtain ⟨u, h1, h⟩ := h
      have hi : i.raw = raw := hr i List.mem_cons_self
      unfold cpass at h1
      dsimp only at h1
      rw [hi] at h1
      obtain ⟨k1, k2, k3⟩ := receive_plays _ h1
      have h' : Std.receiveAll rs (rst (rs && !raw) u) (List.zipWith cpass bts items) = some s' := by
        rw [← hi]; exact h
      obtain ⟨g1, g2, g3⟩ := ih bts (by simpa using hl) (fun j hj => hr j (List.mem_cons_of_mem _ hj)) h'
      obtain ⟨r1, r2, _⟩ := rst_fields (rs && !raw) u
      exact ⟨⟨u, k1, g1⟩, by rw [g2, r1, k2], by rw [g3, r2, k3]⟩

theorem zip_take {bts : List (Nat × Nat)} {items : List PI} {a b : List CPass} (h : List.zipWith cpass bts items = a ++ b) :
    List.zipWith cpass (bts.take a.length) (items.take a.length) = a ∧ List.zipWith cpass (bts.drop a.length) (items.drop a.length) = b := by
  constructor
  · rw [← List.take_zipWith, h, List.take_left' rfl]
  · rw [← List.drop_zipWith, h, List.drop_left' rfl]

theorem zip_raw {raw : Bool} : ∀ {bts : List (Nat × Nat)} {items : List PI}, items.length ≤ bts.length → (∀ p ∈ List.zipWith cpass bts items, p.raw = raw) →
    ∀ i ∈ items, i.raw = raw := by
  intro bts items
  induction items generalizing bts with
  | nil => intro _ _ i hi; simp at hi
  | cons j items ih =>
    intro hl h i hi
    cases bts with
    | nil => simp at hl
    | cons q bts =>
      rw [List.zipWith_cons_cons] at h
      rcases List.mem_cons.mp hi with rfl | hi
      · exact h _ List.mem_cons_self
      · exact ih (by simpa using hl) (fun p hp => h p (List.mem_cons_of_mem _ hp)) i hi

theorem segs_std {o w h n : Nat} {st : Style} {data : List Nat} (hd : ∀ i, data.getD i 0 < 2 ^ 32) {buf : List UInt8} {rest : List CPass} {F' : List Word} :
    ∀ (groups : List (Nat × List CPass)) (bts : List (Nat × Nat)) (items : List PI) (fuel b1 t pos : Nat) (ctxs : List Nat) (F G : List Word) (D : List Int), t < 3 → b1 ≤ 25 →
    traceLoop o w h n st data fuel b1 t F = some (items, F') → Inv w h data b1 t F G D → items.length = bts.length →
    List.zipWith cpass bts items = groups.flatMap Prod.snd ++ rest → Std.receiveSegs st buf pos ctxs groups = true →
    pos + (groups.map Prod.fst).sum + 2 ≤ buf.length →
    ∃ q fuel' F'' items', decSegments o w h n st ⟨buf, ctxs, G, D, b1, t, pos⟩ (groups.map fun g => (g.1, g.2.length)) = some q ∧ q.t < 3 ∧ q.bp1 ≤ 25 ∧
      traceLoop o w h n st data fuel' q.bp1 q.t F'' = some (items', F') ∧ items'.length = rest.length ∧ Inv w h data q.bp1 q.t F'' q.g q.d := by
  intro groups
  induction groups with
  | nil =>
    intro bts items fuel b1 t pos ctxs F G D ht hb1 htr hI hl hz hrec hbuf
    refine ⟨⟨buf, ctxs, G, D, b1, t, pos⟩, fuel, F, items, rfl, ht, hb1, htr, ?_, hI⟩
    have := congrArg List.length hz
    simp at this
    omega
  | cons g groups ih =>
    intro bts items fuel b1 t pos ctxs F G D ht hb1 htr hI hl hz hrec hbuf
    obtain ⟨len, ps⟩ := g
    cases ps with
    | nil => simp [Std.receiveSegs] at hrec
    | cons p ps =>
      unfold Std.receiveSegs at hrec
      rw [Bool.and_eq_true] at hrec
      obtain ⟨hall, hrec⟩ := hrec
      rw [List.all_eq_true] at hall
      split at hrec
      · simp at hrec
      rename_i c' hc'
      rw [Option.bind_eq_some_iff] at hc'
      obtain ⟨c, hinit, hrecv⟩ := hc'
      simp only [List.flatMap_cons, List.append_assoc] at hz
      obtain ⟨z1, z2⟩ := zip_take hz
      obtain ⟨k, hk⟩ : ∃ k, k = (p :: ps).length := ⟨_, rfl⟩
      rw [← hk] at z1 z2
      have hklen : k ≤ items.length := by
        have := congrArg List.length hz
        simp only [List.length_zipWith, List.length_append] at this
        omega
      have hraws : ∀ i ∈ items.take k, i.raw = p.raw := by
        apply zip_raw (bts := bts.take k) (by simp; omega)
        rw [z1]
        intro q hq
        rcases List.mem_cons.mp hq with rfl | hq
        · rfl
        · simpa using hall q hq
      rw [← z1] at hrecv
      obtain ⟨g1, g2, g3⟩ := receiveAll_plays _ _ (by simp; omega) hraws hrecv
      obtain ⟨fuel', b1', t', F1, G', D', d1, d2, d3, d4, d5⟩ := decPasses_sim hd (raw := p.raw) k fuel b1 t ht hb1 htr hklen hraws g1 hI
      have hraw : rawD st n b1 t = p.raw := by
        rcases trace_head htr with ⟨_, g⟩ | ⟨b', x, l, e1, e2, e3, e4⟩
        · rw [g] at hklen; simp at hklen; simp at hk; omega
        · rw [← hraws x (by rw [e2, hk]; simp), e3, e1]
          unfold rawD rawE
          congr 2
      have hgd : Mqc.guard buf pos len = some c.mem ∧ c.start = pos := by
        split at hinit
        · unfold Mqc.rawInitDec at hinit
          rw [Option.map_eq_some_iff] at hinit
          obtain ⟨m, hm, hinit⟩ := hinit
          subst hinit
          exact ⟨hm, rfl⟩
        · exact Mqc.initDec_mem hinit
      simp only [List.map_cons, List.sum_cons] at hbuf
      obtain ⟨x0, x1, cf, f1, f2, f3, f4, f5⟩ := Mqc.finish_any (s := c') (buf := buf) (o := pos) (len := len) (by omega) (by rw [g2]; exact hgd.1) (g3.trans hgd.2)
      have hseg1 : decSegment o w h n st ⟨buf, ctxs, G, D, b1, t, pos⟩ (len, (p :: ps).length) =
          some ⟨buf, c'.ctxs, G', D', b1', t', pos + len⟩ := by
        unfold decSegment
        dsimp only
        rw [hraw, f1, Option.bind_some, f2, Option.bind_some, hinit, Option.bind_some, ← hk, d1, Option.bind_some]
        simp only [f3, Option.map_some, f4, f5]
      obtain ⟨q, fuel2, F2, items', r1, r2, r3, r4, r5, r6⟩ := ih (bts.drop k) (items.drop k) fuel' b1' t' (pos + len) c'.ctxs F1 G' D' d2 d3 d4 d5
        (by simp; omega) z2 hrec (by omega)
      refine ⟨q, fuel2, F2, items', ?_, r2, r3, r4, r5, r6⟩
      simp only [List.map_cons]
      unfold decSegments
      rw [hseg1, Option.bind_some]
      exact r1

end Jp2.T1

import Verif.Jp2.T2Round
import Verif.Jp2.T1StdWhole
import Verif.Jp2.T1Props
/-!
# The passes of a coded block are fit for packets
-/
namespace Jp2.T2
open Jp2.T1 (Style Coded PI Pass ES traceLoop codeLoop codeItem orderFrom isTerm encodeCblk encLoop clampRates finishRates fin Asc numbytes32 initFlags toSmr)

theorem trace_terms {o w h n : Nat} {st : Style} {data : List Nat} : ∀ (fuel b1 t : Nat) {F F' : List T1.Word} {items : List PI}, t < 3 →
    traceLoop o w h n st data fuel b1 t F = some (items, F') → items.map PI.term = (orderFrom b1 t).map fun q => isTerm st n q.1 q.2 := by
  intro fuel
  induction fuel with
  | zero =>
    intro b1 t F F' items ht h
    cases b1 with
    | zero => simp [traceLoop] at h; rw [h.1]; rfl
    | succ b => simp [traceLoop] at h
  | succ fuel ih =>
    intro b1 t F F' items ht h
    cases b1 with
    | zero => simp [traceLoop] at h; rw [h.1]; rfl
    | succ b =>
      unfold traceLoop at h
      rw [Option.bind_eq_some_iff] at h
      obtain ⟨⟨tr, F1⟩, _, h⟩ := h
      dsimp only at h
      rw [Option.map_eq_some_iff] at h
      obtain ⟨⟨l, F2⟩, h1, h2⟩ := h
      simp only [Prod.mk.injEq] at h2
      rw [T1.orderFrom_step ht, ← h2.1]
      split at h1
      · rename_i h3
        rw [if_pos h3, List.map_cons, List.map_cons, ih _ _ (by omega) h1]
      · rename_i h3
        rw [if_neg h3, List.map_cons, List.map_cons, ih _ _ (by omega) h1]

theorem code_terms {st : Style} : ∀ (items : List PI) {prev : Bool} {s s' : Mqc.Mqc} {ps : List Pass}, codeLoop st prev s items = some (s', ps) →
    ps.map Pass.term = items.map PI.term := by
  intro items
  induction items with
  | nil => intro prev s s' ps h; simp [codeLoop] at h; rw [h.2]; rfl
  | cons p l ih =>
    intro prev s s' ps h
    unfold codeLoop at h
    rw [Option.bind_eq_some_iff] at h
    obtain ⟨⟨s1, q⟩, h1, h⟩ := h
    dsimp only at h
    rw [Option.map_eq_some_iff] at h
    obtain ⟨⟨s2, qs⟩, h2, h3⟩ := h
    simp only [Prod.mk.injEq] at h3
    rw [← h3.2, List.map_cons, List.map_cons, ih h2, T1.codeItem_term h1]

theorem clamp_terms (last : Nat) (ps : List Pass) : (clampRates last ps).1.map Pass.term = ps.map Pass.term ∧ Asc (clampRates last ps).2 (clampRates last ps).1 last := by
  induction ps with
  | nil => exact ⟨rfl, Nat.le_refl _⟩
  | cons p l ih =>
    unfold clampRates
    dsimp only
    split
    · exact ⟨by rw [List.map_cons, List.map_cons, ih.1], Nat.le_refl _, ih.2⟩
    · exact ⟨by rw [List.map_cons, List.map_cons, ih.1], Nat.le_refl _, ih.2.weaken (by omega)⟩

theorem finish_terms {mem : List UInt8} {start hi : Nat} : ∀ (ps : List Pass) {lo prev : Nat} {out : List Pass}, Asc lo ps hi →
    prev ≤ fin mem start lo → prev ≤ mem.length - start → finishRates mem start prev ps = some out →
    out.map Pass.term = ps.map Pass.term ∧ prev + size out ≤ mem.length - start := by
  intro ps
  induction ps with
  | nil => intro lo prev out _ _ h2 h; simp [finishRates] at h; subst h; exact ⟨rfl, by simpa [size] using h2⟩
  | cons p l ih =>
    intro lo prev out ha h1 h2 h
    unfold finishRates at h
    split at h
    · simp at h
    rename_i h0
    rw [Option.bind_eq_some_iff] at h
    obtain ⟨b, hb, h⟩ := h
    have hlt : start + (p.rate - 1) < mem.length := (List.getElem?_eq_some_iff.mp hb).1
    have hr : (if b = 255 then p.rate - 1 else p.rate) = fin mem start p.rate := by
      unfold fin
      rw [hb]
      by_cases hb' : b = 255 <;> simp [hb']
    have hmono := T1.fin_mono (mem := mem) (start := start) ha.1
    dsimp only at h
    rw [hr, Option.map_eq_some_iff] at h
    obtain ⟨l', h3, h4⟩ := h
    have hle : fin mem start p.rate ≤ mem.length - start := by
      unfold fin; split <;> omega
    obtain ⟨g1, g2⟩ := ih ha.2 (Nat.le_refl _) hle h3
    subst h4
    refine ⟨by rw [List.map_cons, List.map_cons, g1], ?_⟩
    unfold size at g2 ⊢
    rw [List.map_cons, List.sum_cons]
    dsimp only
    generalize fin mem start p.rate = r at *
    have : (2 ^ 32 + r - prev) % 2 ^ 32 ≤ r - prev := by
      rw [show 2 ^ 32 + r - prev = r - prev + 2 ^ 32 by omega, Nat.add_mod_right]
      exact Nat.mod_le _ _
    omega

theorem below_length : ∀ n, (T1.Std.below n).length = 3 * n := by
  intro n
  induction n with
  | zero => rfl
  | succ n ih => simp only [T1.Std.below, List.length_cons, ih]; omega

theorem below_get : ∀ (n k t : Nat), k < n → t < 3 → (T1.Std.below n)[3 * k + t]? = some (n - 1 - k, t) := by
  intro n
  induction n with
  | zero => intro k t h; omega
  | succ n ih =>
    intro k t hk ht
    cases k with
    | zero => rw [T1.Std.below]; interval_cases t <;> rfl
    | succ k =>
      rw [T1.Std.below, show 3 * (k + 1) + t = 3 * k + t + 1 + 1 + 1 by omega]
      simp only [List.getElem?_cons_succ]
      rw [ih k t (by omega) ht]
      congr 2; omega

/-- What `opj_t1_encode_cblk` leaves is fit for packets: the passes it terminates are those the decoder expects, there are not more
than 73 of them, and their bytes are in the buffer. -/
theorem coded_ok {o w h : Nat} {st : Style} {data : List Int} {mem : List UInt8} {start : Nat} {cd : Coded}
    (hr : ∀ x ∈ data, -2 ^ 31 ≤ x ∧ x < 2 ^ 31) (he : encodeCblk o w h st data mem start = some cd) {sty : Nat}
    (hb : decide (sty &&& 1 ≠ 0) = st.bypass) (ht : decide (sty &&& 4 ≠ 0) = st.termall) :
    (∀ i p, cd.passes[i]? = some p → i + 1 < cd.passes.length → p.term = endsSegment sty i) ∧ cd.passes.length ≤ 73 ∧
      size cd.passes ≤ (cd.mem.drop start).length ∧ (cd.passes ≠ [] → cd.numbps ≤ 25) := by
  unfold encodeCblk at he
  split at he
  · simp at he
  dsimp only at he
  have hcase := T1.numbps_cases hr
  generalize T1.numbpsOf ((data.map T1.magOf).foldl max 0) = n at he hcase
  split at he
  · injection he with he; subst he; simp [size]
  split at he
  · injection he with he; subst he; simp [size]
  rename_i hn0 hnb
  have hn25 : n ≤ 25 := by
    rcases hcase with ⟨hn, _⟩ | ⟨_, h25, _⟩
    · omega
    · exact h25
  clear hcase
  rw [Option.bind_eq_some_iff] at he
  obtain ⟨s0, hi, he⟩ := he
  rw [Option.bind_eq_some_iff] at he
  obtain ⟨e, hl, he⟩ := he
  rw [Option.map_eq_some_iff] at he
  obtain ⟨out, hfin, he⟩ := he
  subst he
  dsimp only
  obtain ⟨items, ps, g1, g2, g3⟩ := T1.encLoop_split (3 * n) n 2 hl
  have k1 := trace_terms (3 * n) n 2 (by omega) g1
  have k2 := code_terms items g2
  obtain ⟨k3, k4⟩ := clamp_terms (numbytes32 e.s) e.passes
  obtain ⟨k5, k6⟩ := finish_terms _ k4 (Nat.zero_le _) (Nat.zero_le _) hfin
  have hterms : out.map Pass.term = (T1.Std.order n).map fun q => isTerm st n q.1 q.2 := by
    rw [k5, k3, g3]
    show ps.map Pass.term = _
    rw [k2, k1, T1.order_from]
  have hlen2 : out.length = 3 * n - 2 := by
    have := congrArg List.length hterms
    rw [List.length_map, List.length_map] at this
    rw [this]
    cases n with
    | zero => omega
    | succ n => rw [T1.Std.order, List.length_cons, below_length]; omega
  refine ⟨fun i p hp hi1 => ?_, by omega, by rw [List.length_drop]; omega, fun _ => hn25⟩
  have hg : (out.map Pass.term)[i]? = some p.term := by rw [List.getElem?_map, hp]; rfl
  obtain ⟨m, hm⟩ : ∃ m, n = m + 1 := ⟨n - 1, by omega⟩
  subst hm
  rw [hterms, T1.Std.order, List.map_cons] at hg
  unfold endsSegment
  rw [hb, ht]
  cases i with
  | zero =>
    simp only [List.getElem?_cons_zero, Option.some.injEq] at hg
    rw [← hg]
    unfold isTerm
    have h1 : (2 == 2 && m == 0) = false := by simp; omega
    rw [h1]
    have h2 : decide ((m : Int) = ((m + 1 : Nat) : Int) - 4) = false := by simp; omega
    have h3 : decide ((m : Int) < ((m + 1 : Nat) : Int) - 4) = false := by simp
    simp only [h2, h3]
    cases st.termall <;> cases st.bypass <;> rfl
  | succ i =>
    rw [List.getElem?_cons_succ, List.getElem?_map, show i = 3 * (i / 3) + i % 3 by omega, below_get m (i / 3) (i % 3) (by omega) (by omega),
      Option.map_some, Option.some.injEq] at hg
    rw [← hg]
    unfold isTerm
    dsimp only
    generalize hk : i / 3 = k
    generalize hj : i % 3 = j
    have hkm : k < m := by omega
    have h1 : (j == 2 && m - 1 - k == 0) = false := by
      simp only [Bool.and_eq_false_iff, beq_eq_false_iff_ne]
      omega
    rw [h1]
    have h2 : (decide (((m - 1 - k : Nat) : Int) = ((m + 1 : Nat) : Int) - 4) && j == 2) = (i + 1 == 9) := by
      rw [Bool.eq_iff_iff]
      simp only [Bool.and_eq_true, decide_eq_true_eq, beq_iff_eq]
      omega
    have h3 : (decide (((m - 1 - k : Nat) : Int) < ((m + 1 : Nat) : Int) - 4) && decide (0 < j)) = (decide (10 ≤ i + 1) && (i + 1 - 10) % 3 != 0) := by
      rw [Bool.eq_iff_iff]
      simp only [Bool.and_eq_true, decide_eq_true_eq, bne_iff_ne]
      omega
    rw [h2, h3]
    rfl

end Jp2.T2

import Verif.Jp2.DwtCols
namespace Jp2.Dwt

/-- A double loop of stores at distinct places. -/
theorem scatter_ok (body : Nat → Nat → Mem Int → Option (Mem Int)) (a : Mem Int) (m n : Nat) (idx : Nat → Nat → Nat) (v : Nat → Nat → Int)
    (hb : ∀ i < m, ∀ c < n, ∀ a' : Mem Int, body i c a' = wr a' (idx i c) (v i c))
    (hinj : ∀ i < m, ∀ c < n, ∀ i' < m, ∀ c' < n, idx i c = idx i' c' → i = i' ∧ c = c')
    (ha : ∀ i < m, ∀ c < n, (a (idx i c)).isSome) :
    ∃ a', loopM (fun i a => loopM (body i) n 0 a) m 0 a = some a' ∧
      (∀ i < m, ∀ c < n, a' (idx i c) = some (v i c)) ∧ (∀ q, (∀ i < m, ∀ c < n, q ≠ idx i c) → a' q = a q) := by
  obtain ⟨a1, e1, p1, p2⟩ := loopM_inv (fun i a => loopM (body i) n 0 a) m 0 a
    (fun b a' => (∀ i < b, ∀ c < n, a' (idx i c) = some (v i c)) ∧ (∀ q, (∀ i < b, ∀ c < n, q ≠ idx i c) → a' q = a q))
    ⟨fun i hi => by omega, fun _ _ => rfl⟩ (by
      rintro b a1 - hb' ⟨h1, h2⟩
      rw [Nat.zero_add] at hb'
      obtain ⟨a2, e2, q1, q2⟩ := loopM_inv (body b) n 0 a1
        (fun d a' => (∀ c < d, a' (idx b c) = some (v b c)) ∧ (∀ q, (∀ c < d, q ≠ idx b c) → a' q = a1 q))
        ⟨fun c hc => by omega, fun _ _ => rfl⟩ (by
          rintro d a' - hd ⟨g1, g2⟩
          rw [Nat.zero_add] at hd
          have h0 : (a' (idx b d)).isSome := by
            rw [g2 _ (fun c hc he => by have := (hinj b hb' d hd b hb' c (by omega) he).2; omega),
              h2 _ (fun i hi c hc he => by have := (hinj b hb' d hd i (by omega) c hc he).1; omega)]
            exact ha b hb' d hd
          obtain ⟨w, hw⟩ := Option.isSome_iff_exists.mp h0
          rw [hb b hb' d hd, wr_of_some a' _ _ _ hw]
          refine ⟨_, rfl, fun c hc => ?_, fun q hq => ?_⟩
          · by_cases hcd : c = d
            · subst hcd; simp
            · rw [if_neg (fun he => hcd (hinj b hb' c (by omega) b hb' d hd he).2)]; exact g1 c (by omega)
          · rw [if_neg (hq d (by omega))]; exact g2 q (fun c hc => hq c (by omega)))
      rw [Nat.zero_add] at q1 q2
      refine ⟨a2, e2, fun i hi c hc => ?_, fun q hq => ?_⟩
      · by_cases hib : i = b
        · subst hib; exact q1 c hc
        · rw [q2 _ (fun c' hc' he => hib (hinj i (by omega) c hc b hb' c' hc' he).1)]; exact h1 i (by omega) c hc
      · rw [q2 q (fun c hc => hq b (by omega) c hc)]; exact h2 q (fun i hi => hq i (by omega)))
  rw [Nat.zero_add] at p1 p2
  exact ⟨a1, e1, p1, p2⟩

theorem fetchCols_ok (arr : Mem Int) (n stride cols cas : Nat) (X : Nat → Nat → Int) (t : Mem Int)
    (harr : ∀ c < cols, ∀ k < n, arr (c + k * stride) = some (X c k)) (hz : ∀ c, cols ≤ c → ∀ k, X c k = 0)
    (ht : ∀ q < 8 * n, (t q).isSome) :
    ∃ t', fetchCols arr n stride cols t = some t' ∧ St1 n cas X t 0 t' := by
  unfold fetchCols cols8
  obtain ⟨t1, e1, p1, p2⟩ := scatter_ok (fun k c t =>
    if c < cols then (arr (c + k * stride)).bind fun v => wr t (8 * k + c) v
    else wr t (8 * k + c) 0) t n 8 (fun k c => 8 * k + c) (fun k c => X c k) (by
      intro k hk c hc a'
      by_cases hcc : c < cols
      · rw [if_pos hcc, harr c hcc k hk]; rfl
      · rw [if_neg hcc, hz c (by omega)]) (by intro i hi c hc i' hi' c' hc' h; omega) (by intro i hi c hc; exact ht _ (by omega))
  refine ⟨t1, e1, fun q => ?_⟩
  by_cases hq : q / 8 < n
  · rw [if_pos hq, if_neg (by omega)]
    have := p1 (q / 8) hq (q % 8) (by omega)
    rwa [show 8 * (q / 8) + q % 8 = q by omega] at this
  · rw [if_neg hq]
    exact p2 q (fun i hi c hc he => by omega)

theorem mul_add_inj {w i c i' c' : Nat} (hc : c < w) (hc' : c' < w) (h : i * w + c = i' * w + c') : i = i' ∧ c = c' := by
  have h1 : (i * w + c) / w = i := by rw [Nat.add_comm, Nat.add_mul_div_right _ _ (by omega), Nat.div_eq_of_lt hc]; omega
  have h2 : (i' * w + c') / w = i' := by rw [Nat.add_comm, Nat.add_mul_div_right _ _ (by omega), Nat.div_eq_of_lt hc']; omega
  have : i = i' := by rw [← h1, ← h2, h]
  subst this
  omega

theorem copied_eq {cols : Nat} (h1 : 1 ≤ cols) (h8 : cols ≤ 8) : copied cols = cols := by
  unfold copied; split
  · omega
  · rw [if_pos (by omega)]; omega

theorem deintCols_ok (t arr : Mem Int) (n cas stride cols : Nat) (hc : cas ≤ 1) (h1 : 1 ≤ cols) (h8 : cols ≤ 8) (hst : cols ≤ stride)
    (y : Nat → Nat → Int) (ht : ∀ k < n, ∀ c < 8, t (8 * k + c) = some (y c k))
    (ha : ∀ k < n, ∀ c < cols, (arr (k * stride + c)).isSome) :
    ∃ arr', deintCols t (n - lowCount n cas) (lowCount n cas) stride cas cols arr = some arr' ∧
      (∀ k < n, ∀ c < cols, arr' (k * stride + c) = some (y c (pos (lowCount n cas) cas k))) ∧
      (∀ q, (∀ k < n, ∀ c < cols, q ≠ k * stride + c) → arr' q = arr q) := by
  obtain ⟨sn, hsn⟩ : ∃ sn, sn = lowCount n cas := ⟨_, rfl⟩
  obtain ⟨dn, hdn⟩ : ∃ dn, dn = n - sn := ⟨_, rfl⟩
  rw [← hsn, ← hdn]
  unfold lowCount at hsn
  unfold deintCols deintPass
  rw [copied_eq h1 h8]
  obtain ⟨a1, e1, p1, p2⟩ := scatter_ok
    (fun i c arr => (t (cas * 8 + i * (2 * 8) + c)).bind fun v => wr arr (0 + i * stride + c) v) arr sn cols
    (fun i c => i * stride + c) (fun i c => y c (2 * i + cas))
    (by
      intro i hi c hc' a'
      rw [show cas * 8 + i * (2 * 8) + c = 8 * (2 * i + cas) + c by omega, ht _ (by omega) c (by omega), Nat.zero_add]; rfl)
    (fun i hi c hc i' hi' c' hc' h => mul_add_inj (by omega) (by omega) h) (fun i hi c hc => ha i (by omega) c hc)
  rw [e1]
  simp only [Option.bind_some]
  obtain ⟨a2, e2, q1, q2⟩ := scatter_ok
    (fun i c arr => (t ((1 - cas) * 8 + i * (2 * 8) + c)).bind fun v => wr arr (sn * stride + i * stride + c) v) a1 dn cols
    (fun i c => (sn + i) * stride + c) (fun i c => y c (2 * i + (1 - cas)))
    (by
      intro i hi c hc' a'
      rw [show (1 - cas) * 8 + i * (2 * 8) + c = 8 * (2 * i + (1 - cas)) + c by omega, ht _ (by omega) c (by omega), Nat.add_mul]; rfl)
    (fun i hi c hc i' hi' c' hc' h => by have := mul_add_inj (w := stride) (by omega) (by omega) h; omega)
    (fun i hi c hc => by
      rw [p2 _ (fun i' hi' c' hc' he => by have := mul_add_inj (w := stride) (by omega) (by omega) he; omega)]
      exact ha (sn + i) (by omega) c hc)
  refine ⟨a2, e2, fun k hk c hc => ?_, fun q hq => ?_⟩
  · unfold pos
    by_cases hks : k < sn
    · rw [if_pos hks, q2 _ (fun i' hi' c' hc' he => by have := mul_add_inj (w := stride) (by omega) (by omega) he; omega)]
      exact p1 k hks c hc
    · rw [if_neg hks]
      have := q1 (k - sn) (by omega) c hc
      rwa [show sn + (k - sn) = k by omega] at this
  · rw [q2 q (fun i hi c hc => hq (sn + i) (by omega) c hc), p2 q (fun i hi c hc => hq i (by omega) c hc)]

theorem encodeCols_ok {A : Arith} {B K : Int} (hA : Good A K) (hK : 4 * B + 2 ≤ K) (n : Nat) (even : Bool) (stride cols : Nat)
    (hn : even = false → 1 ≤ n) (h1 : 1 ≤ cols) (h8 : cols ≤ 8) (hst : cols ≤ stride) (X : Nat → Nat → Int)
    (hX : ∀ c < cols, ∀ k < n, -B ≤ X c k ∧ X c k ≤ B) (arr t : Mem Int)
    (harr : ∀ c < cols, ∀ k < n, arr (k * stride + c) = some (X c k)) (ht : ∀ q < 8 * n, (t q).isSome) :
    ∃ arr' t', encodeCols A n even stride cols (arr, t) = some (arr', t') ∧
      (∀ k < n, ∀ c < cols, arr' (k * stride + c) = some (fwd1 n (if even then 0 else 1) (X c) k)) ∧
      (∀ q, (∀ k < n, ∀ c < cols, q ≠ k * stride + c) → arr' q = arr q) ∧
      (∀ q, (t' q).isSome = (t q).isSome) := by
  obtain ⟨cas, hcas⟩ : ∃ cas, cas = (if even then 0 else 1) := ⟨_, rfl⟩
  have hc1 : cas ≤ 1 := by rw [hcas]; split <;> omega
  rw [← hcas]
  obtain ⟨Y, hY⟩ : ∃ Y : Nat → Nat → Int, Y = fun c k => if c < cols then X c k else 0 := ⟨_, rfl⟩
  have hYX : ∀ c < cols, Y c = X c := by intro c hc; rw [hY]; funext k; exact if_pos hc
  have hYB : ∀ c < 8, ∀ k < n, -B ≤ Y c k ∧ Y c k ≤ B := by
    intro c hc k hk
    rw [hY]
    simp only
    split
    · exact hX c (by assumption) k hk
    · have := hX 0 (by omega) k hk; omega
  obtain ⟨t1, e1, p1⟩ := fetchCols_ok arr n stride cols cas Y t (fun c hc k hk => by rw [hYX c hc, Nat.add_comm]; exact harr c hc k hk)
    (fun c hc k => by rw [hY]; exact if_neg (by omega)) ht
  have hsn : (n + if even then 1 else 0) / 2 = lowCount n cas := by rw [hcas]; cases even <;> rfl
  obtain ⟨t2, e2, p2⟩ : ∃ t2, liftCols A n (lowCount n cas) (n - lowCount n cas) even t1 = some t2 ∧
      ∀ q, t2 q = if q / 8 < n then some (lift n cas (Y (q % 8)) (q / 8)) else t q := by
    by_cases hn2 : 2 ≤ n
    · subst hcas
      cases even
      · simpa [lowCount] using liftCols_odd hA hK n hn2 Y hYB t t1 p1
      · simpa [lowCount] using liftCols_even hA hK n hn2 Y hYB t t1 p1
    · subst hcas
      cases even
      · obtain rfl : n = 1 := by have := hn rfl; omega
        simp only [liftCols, Bool.false_eq_true, if_false, sc_eq, if_true]
        rw [cols8_ok _ t1 0 (fun c => 2 * Y c 0)]
        · refine ⟨_, rfl, fun q => ?_⟩
          by_cases hq : q / 8 = 0
          · rw [if_pos hq, if_pos (by omega), hq]; rfl
          · rw [if_neg hq, if_neg (by omega), p1 q, if_neg (by omega)]
        · intro c hc t' ht'
          have e := p1.low (k := 0) (by omega) (by omega) c hc
          rw [← ht'] at e
          have b := hYB c hc 0 (by omega)
          simp only [Nat.mul_zero, Nat.zero_add] at e ⊢
          simp only [e, Option.bind_some]
          rw [hA _ (by omega) (by omega)]
          simp only [Option.bind_some, wr_of_some t' _ _ _ e, Int.mul_comm]
      · refine ⟨t1, ?_, fun q => ?_⟩
        · simp only [liftCols, if_true]; rw [if_neg (by omega)]
        · rw [p1 q]
          by_cases hq : q / 8 < n
          · rw [if_pos hq, if_pos hq, if_neg (by omega)]
            obtain rfl : n = 1 := by omega
            rfl
          · rw [if_neg hq, if_neg hq]
  obtain ⟨a3, e3, p3, p4⟩ := deintCols_ok t2 arr n cas stride cols hc1 h1 h8 hst (fun c k => lift n cas (Y c) k)
    (fun k hk c hc => by rw [p2, show (8 * k + c) / 8 = k by omega, show (8 * k + c) % 8 = c by omega, if_pos hk])
    (fun k hk c hc => by rw [harr c hc k hk]; rfl)
  refine ⟨a3, t2, ?_, fun k hk c hc => ?_, p4, fun q => ?_⟩
  · simp only [encodeCols, hsn, e1, e2, Option.bind_some, ← hcas, e3, Option.map_some]
  · rw [p3 k hk c hc, hYX c hc]; rfl
  · rw [p2 q]
    split
    · rw [ht q (by omega)]; rfl
    · rfl

end Jp2.Dwt

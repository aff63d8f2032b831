import Verif.Jp2.DwtLemmas
namespace Jp2.Dwt

theorem sc_eq (i c : Nat) : sc i c = 8 * (2 * i) + c := by unfold sc; omega
theorem dc_eq (i c : Nat) : dc i c = 8 * (2 * i + 1) + c := by unfold dc; omega

/-- Eight columns updated in row `p`. -/
theorem cols8_ok (f : Nat → Mem Int → Option (Mem Int)) (t : Mem Int) (p : Nat) (v : Nat → Int)
    (h : ∀ c < 8, ∀ t' : Mem Int, (∀ k, t' (8 * k + c) = t (8 * k + c)) →
      f c t' = some (fun q => if q = 8 * p + c then some (v c) else t' q)) :
    cols8 f t = some (fun q => if q / 8 = p then some (v (q % 8)) else t q) := by
  obtain ⟨t1, e1, p1⟩ := loopM_inv f 8 0 t
    (fun c t' => ∀ q, t' q = if q / 8 = p ∧ q % 8 < c then some (v (q % 8)) else t q)
    (fun q => by rw [if_neg (by omega)]) (by
      rintro c t' - hc hc'
      rw [Nat.zero_add] at hc
      refine ⟨_, h c hc t' (fun k => by rw [hc', if_neg (by omega)]), fun q => ?_⟩
      simp only [hc' q]
      by_cases hq : q = 8 * p + c
      · rw [if_pos hq, if_pos (by omega), show q % 8 = c by omega]
      · rw [if_neg hq]
        by_cases hq2 : q / 8 = p ∧ q % 8 < c
        · rw [if_pos hq2, if_pos (by omega)]
        · rw [if_neg hq2, if_neg (by omega)])
  unfold cols8
  rw [e1]
  congr 1
  funext q
  rw [p1]
  by_cases hq : q / 8 = p
  · rw [if_pos hq, if_pos (by omega)]
  · rw [if_neg hq, if_neg (by omega)]

theorem cols8_subAvg {A : Arith} {B K : Int} (hA : Good A K) (hK : 4 * B + 2 ≤ K) (t : Mem Int) (p l r : Nat) (X P : Nat → Nat → Int)
    (hl : ∀ c < 8, t (8 * l + c) = some (X c l)) (hr : ∀ c < 8, t (8 * r + c) = some (X c r)) (hp : ∀ c < 8, t (8 * p + c) = some (X c p))
    (bl : ∀ c < 8, -B ≤ X c l ∧ X c l ≤ B) (br : ∀ c < 8, -B ≤ X c r ∧ X c r ≤ B) (bp : ∀ c < 8, -B ≤ X c p ∧ X c p ≤ B)
    (hP : ∀ c < 8, P c p = X c p - (X c l + X c r) / 2) :
    cols8 (fun c => subAvg A (8 * p + c) (8 * l + c) (8 * r + c)) t =
      some (fun q => if q / 8 = p then some (P (q % 8) p) else t q) := by
  apply cols8_ok _ _ _ (fun c => P c p)
  intro c hc t' ht'
  have bl := bl c hc
  have br := br c hc
  have bp := bp c hc
  have e := hp c hc
  rw [← ht'] at e
  simp only [subAvg, ht', hl c hc, hr c hc, hp c hc, Option.bind_some, avg_ok hA (by omega : 2 * B ≤ K) _ _ bl br]
  rw [hA _ (by omega) (by omega), hP c hc]
  simp only [Option.bind_some, wr_of_some t' _ _ _ e]

theorem cols8_subOne {A : Arith} {B K : Int} (hA : Good A K) (hK : 4 * B + 2 ≤ K) (t : Mem Int) (p l : Nat) (X P : Nat → Nat → Int)
    (hl : ∀ c < 8, t (8 * l + c) = some (X c l)) (hp : ∀ c < 8, t (8 * p + c) = some (X c p))
    (bl : ∀ c < 8, -B ≤ X c l ∧ X c l ≤ B) (bp : ∀ c < 8, -B ≤ X c p ∧ X c p ≤ B)
    (hP : ∀ c < 8, P c p = X c p - X c l) :
    cols8 (fun c => subOne A (8 * p + c) (8 * l + c)) t =
      some (fun q => if q / 8 = p then some (P (q % 8) p) else t q) := by
  apply cols8_ok _ _ _ (fun c => P c p)
  intro c hc t' ht'
  have bl := bl c hc
  have bp := bp c hc
  have e := hp c hc
  rw [← ht'] at e
  simp only [subOne, ht', hl c hc, hp c hc, Option.bind_some]
  rw [hA _ (by omega) (by omega), hP c hc]
  simp only [Option.bind_some, wr_of_some t' _ _ _ e]

theorem cols8_addUpd {A : Arith} {B K : Int} (hA : Good A K) (hK : 4 * B + 2 ≤ K) (t : Mem Int) (p l r : Nat) (X P L : Nat → Nat → Int)
    (hl : ∀ c < 8, t (8 * l + c) = some (P c l)) (hr : ∀ c < 8, t (8 * r + c) = some (P c r)) (hp : ∀ c < 8, t (8 * p + c) = some (X c p))
    (bl : ∀ c < 8, -(2 * B) ≤ P c l ∧ P c l ≤ 2 * B) (br : ∀ c < 8, -(2 * B) ≤ P c r ∧ P c r ≤ 2 * B)
    (bp : ∀ c < 8, -B ≤ X c p ∧ X c p ≤ B)
    (hL : ∀ c < 8, L c p = X c p + (P c l + P c r + 2) / 4) :
    cols8 (fun c => addUpd A (8 * p + c) (8 * l + c) (8 * r + c)) t =
      some (fun q => if q / 8 = p then some (L (q % 8) p) else t q) := by
  apply cols8_ok _ _ _ (fun c => L c p)
  intro c hc t' ht'
  have bl := bl c hc
  have br := br c hc
  have bp := bp c hc
  have e := hp c hc
  rw [← ht'] at e
  simp only [addUpd, ht', hl c hc, hr c hc, hp c hc, Option.bind_some, upd_ok hA hK _ _ bl br]
  rw [hA _ (by omega) (by omega), hL c hc]
  simp only [Option.bind_some, wr_of_some t' _ _ _ e]

/-- Phase 1 state: high-pass rows below `b` done. -/
def St1 (n cas : Nat) (X : Nat → Nat → Int) (t0 : Mem Int) (b : Nat) (t : Mem Int) : Prop :=
  ∀ q, t q = if q / 8 < n then
    some (if (q / 8 + cas) % 2 = 1 ∧ q / 8 < b then predict n (X (q % 8)) (q / 8) else X (q % 8) (q / 8)) else t0 q

/-- Phase 2 state: all high-pass rows and the low-pass rows below `b` done. -/
def St2 (n cas : Nat) (X : Nat → Nat → Int) (t0 : Mem Int) (b : Nat) (t : Mem Int) : Prop :=
  ∀ q, t q = if q / 8 < n then
    some (if (q / 8 + cas) % 2 = 1 ∨ q / 8 < b then lift n cas (X (q % 8)) (q / 8) else X (q % 8) (q / 8)) else t0 q

theorem St1.step {n cas : Nat} {X : Nat → Nat → Int} {t0 t : Mem Int} {b p b' : Nat} (h : St1 n cas X t0 b t)
    (hp : p < n) (hpo : (p + cas) % 2 = 1) (hb : b ≤ p + 1) (hb2 : p ≤ b + 1) (hb' : b' = p + 1 ∨ b' = p + 2) :
    St1 n cas X t0 b' (fun q => if q / 8 = p then some (predict n (X (q % 8)) p) else t q) := by
  intro q
  simp only [h q]
  by_cases hq : q / 8 = p
  · rw [if_pos hq, if_pos (by omega), if_pos (by omega), hq]
  · rw [if_neg hq]
    by_cases hn : q / 8 < n
    · rw [if_pos hn, if_pos hn]
      by_cases hh : (q / 8 + cas) % 2 = 1 ∧ q / 8 < b
      · rw [if_pos hh, if_pos (by omega)]
      · rw [if_neg hh, if_neg (by omega)]
    · rw [if_neg hn, if_neg hn]

theorem St2.step {n cas : Nat} {X : Nat → Nat → Int} {t0 t : Mem Int} {b p b' : Nat} (h : St2 n cas X t0 b t)
    (hp : p < n) (hpo : (p + cas) % 2 = 0) (hb : b ≤ p + 1) (hb2 : p ≤ b + 1) (hb' : b' = p + 1 ∨ b' = p + 2) :
    St2 n cas X t0 b' (fun q => if q / 8 = p then some (lift n cas (X (q % 8)) p) else t q) := by
  intro q
  simp only [h q]
  by_cases hq : q / 8 = p
  · rw [if_pos hq, if_pos (by omega), if_pos (by omega), hq]
  · rw [if_neg hq]
    by_cases hn : q / 8 < n
    · rw [if_pos hn, if_pos hn]
      by_cases hh : (q / 8 + cas) % 2 = 1 ∨ q / 8 < b
      · rw [if_pos hh, if_pos (by omega)]
      · rw [if_neg hh, if_neg (by omega)]
    · rw [if_neg hn, if_neg hn]

theorem St1.low {n cas : Nat} {X : Nat → Nat → Int} {t0 t : Mem Int} {b k : Nat} (h : St1 n cas X t0 b t) (hk : k < n)
    (hk2 : (k + cas) % 2 = 0 ∨ b ≤ k) (c : Nat) (hc : c < 8) : t (8 * k + c) = some (X c k) := by
  rw [h, show (8 * k + c) / 8 = k by omega, show (8 * k + c) % 8 = c by omega, if_pos hk, if_neg (by omega)]

theorem St2.high {n cas : Nat} {X : Nat → Nat → Int} {t0 t : Mem Int} {b k : Nat} (h : St2 n cas X t0 b t) (hn : 2 ≤ n) (hk : k < n)
    (hk2 : (k + cas) % 2 = 1) (c : Nat) (hc : c < 8) : t (8 * k + c) = some (predict n (X c) k) := by
  rw [h, show (8 * k + c) / 8 = k by omega, show (8 * k + c) % 8 = c by omega, if_pos hk, if_pos (by omega)]
  unfold lift; rw [if_neg (by omega), if_pos hk2]

theorem St2.low {n cas : Nat} {X : Nat → Nat → Int} {t0 t : Mem Int} {b k : Nat} (h : St2 n cas X t0 b t) (hk : k < n)
    (hk2 : (k + cas) % 2 = 0) (hb : b ≤ k) (c : Nat) (hc : c < 8) : t (8 * k + c) = some (X c k) := by
  rw [h, show (8 * k + c) / 8 = k by omega, show (8 * k + c) % 8 = c by omega, if_pos hk, if_neg (by omega)]

theorem St1.toSt2 {n cas : Nat} {X : Nat → Nat → Int} {t0 t : Mem Int} {b : Nat} (h : St1 n cas X t0 b t) (hn : 2 ≤ n) (hb : n ≤ b + 1)
    (hb2 : n ≤ b ∨ (n - 1 + cas) % 2 = 0) : St2 n cas X t0 0 t := by
  intro q
  rw [h q]
  by_cases hq : q / 8 < n
  · rw [if_pos hq, if_pos hq]
    by_cases hh : (q / 8 + cas) % 2 = 1
    · rw [if_pos (by omega), if_pos (by omega)]; unfold lift; rw [if_neg (by omega), if_pos hh]
    · rw [if_neg (by omega), if_neg (by omega)]
  · rw [if_neg hq, if_neg hq]

theorem predict_eq {n : Nat} {x : Nat → Int} {p l r : Nat} (h : (lft p = l ∧ rgt n p = r) ∨ (lft p = r ∧ rgt n p = l)) :
    predict n x p = x p - (x l + x r) / 2 := by
  unfold predict
  rcases h with ⟨h1, h2⟩ | ⟨h1, h2⟩
  · rw [h1, h2]
  · rw [h1, h2, Int.add_comm (x l)]

theorem lift_low_eq {n cas : Nat} {x : Nat → Int} {p l r : Nat} (hn : 2 ≤ n) (hp : (p + cas) % 2 = 0) (h1 : lft p = l) (h2 : rgt n p = r) :
    lift n cas x p = x p + (predict n x l + predict n x r + 2) / 4 := by
  unfold lift
  rw [if_neg (by omega), if_neg (by omega), h1, h2]

theorem liftCols_even {A : Arith} {B K : Int} (hA : Good A K) (hK : 4 * B + 2 ≤ K) (n : Nat) (hn : 2 ≤ n) (X : Nat → Nat → Int)
    (hX : ∀ c < 8, ∀ k < n, -B ≤ X c k ∧ X c k ≤ B) (t0 t : Mem Int) (h : St1 n 0 X t0 0 t) :
    ∃ t', liftCols A n ((n + 1) / 2) (n - (n + 1) / 2) true t = some t' ∧
      ∀ q, t' q = if q / 8 < n then some (lift n 0 (X (q % 8)) (q / 8)) else t0 q := by
  obtain ⟨sn, hsn⟩ : ∃ sn, sn = (n + 1) / 2 := ⟨_, rfl⟩
  obtain ⟨dn, hdn⟩ : ∃ dn, dn = n - sn := ⟨_, rfl⟩
  rw [← hsn, ← hdn]
  unfold liftCols
  simp only [sc_eq, dc_eq, if_true]
  rw [if_pos (by omega)]
  have hP : ∀ k < n, ∀ c < 8, -(2 * B) ≤ predict n (X c) k ∧ predict n (X c) k ≤ 2 * B :=
    fun k hk c hc => predict_bd hn (hX c hc) k hk
  obtain ⟨t1, e1, p1⟩ := loopM_inv
    (fun i t => cols8 (fun c => subAvg A (8 * (2 * i + 1) + c) (8 * (2 * i) + c) (8 * (2 * (i + 1)) + c)) t) (sn - 1) 0 t
    (fun i t => St1 n 0 X t0 (2 * i) t) h (by
      rintro i t - hi hs
      rw [Nat.zero_add] at hi
      refine ⟨_, cols8_subAvg hA hK t (2 * i + 1) (2 * i) (2 * (i + 1)) X (fun c p => predict n (X c) p)
        (hs.low (by omega) (by omega)) (hs.low (by omega) (by omega)) (hs.low (by omega) (by omega))
        (fun c hc => hX c hc _ (by omega)) (fun c hc => hX c hc _ (by omega)) (fun c hc => hX c hc _ (by omega))
        (fun c hc => predict_eq (Or.inl ⟨?_, ?_⟩)), hs.step (by omega) (by omega) (by omega) (by omega) (by omega)⟩
      · unfold lft; split <;> omega
      · unfold rgt; split <;> omega)
  rw [e1]
  simp only [Option.bind_some, Nat.zero_add] at p1 ⊢
  obtain ⟨t2, e2, p2⟩ : ∃ t2, (if n % 2 = 0 then
      cols8 (fun c => subOne A (8 * (2 * (sn - 1) + 1) + c) (8 * (2 * (sn - 1)) + c)) t1 else some t1) = some t2 ∧
      St2 n 0 X t0 0 t2 := by
    by_cases hev : n % 2 = 0
    · rw [if_pos hev]
      refine ⟨_, cols8_subOne hA hK t1 (2 * (sn - 1) + 1) (2 * (sn - 1)) X (fun c p => predict n (X c) p)
        (p1.low (by omega) (by omega)) (p1.low (by omega) (by omega))
        (fun c hc => hX c hc _ (by omega)) (fun c hc => hX c hc _ (by omega)) (fun c hc => ?_),
        (p1.step (b' := 2 * (sn - 1) + 2) (by omega) (by omega) (by omega) (by omega) (by omega)).toSt2 hn (by omega) (by omega)⟩
      rw [predict_eq (l := 2 * (sn - 1)) (r := 2 * (sn - 1)) (Or.inl ⟨?_, ?_⟩)]
      · omega
      · unfold lft; split <;> omega
      · unfold rgt; split <;> omega
    · rw [if_neg hev]
      exact ⟨t1, rfl, p1.toSt2 hn (by omega) (by omega)⟩
  rw [e2]
  simp only [Option.bind_some]
  have e3 := cols8_addUpd hA hK t2 (2 * 0) (2 * 0 + 1) (2 * 0 + 1) X (fun c p => predict n (X c) p) (fun c p => lift n 0 (X c) p)
        (p2.high hn (by omega) (by omega)) (p2.high hn (by omega) (by omega)) (p2.low (by omega) (by omega) (by omega))
        (hP _ (by omega)) (hP _ (by omega)) (fun c hc => hX c hc _ (by omega))
        (fun c hc => lift_low_eq hn (by omega) (by unfold lft; split <;> omega) (by unfold rgt; split <;> omega))
  rw [e3]
  simp only [Option.bind_some]
  have p3 := p2.step (p := 2 * 0) (b' := 2) (by omega) (by omega) (by omega) (by omega) (by omega)
  obtain ⟨t4, e4, p4⟩ := loopM_inv
    (fun i t => cols8 (fun c => addUpd A (8 * (2 * i) + c) (8 * (2 * (i - 1) + 1) + c) (8 * (2 * i + 1) + c)) t) (dn - 1) 1 _
    (fun i t => St2 n 0 X t0 (2 * i) t) p3 (by
      rintro i t hi1 hi hs
      refine ⟨_, cols8_addUpd hA hK t (2 * i) (2 * (i - 1) + 1) (2 * i + 1) X (fun c p => predict n (X c) p) (fun c p => lift n 0 (X c) p)
        (hs.high hn (by omega) (by omega)) (hs.high hn (by omega) (by omega)) (hs.low (by omega) (by omega) (by omega))
        (hP _ (by omega)) (hP _ (by omega)) (fun c hc => hX c hc _ (by omega))
        (fun c hc => lift_low_eq hn (by omega) (by unfold lft; split <;> omega) (by unfold rgt; split <;> omega)),
        hs.step (by omega) (by omega) (by omega) (by omega) (by omega)⟩)
  rw [e4]
  simp only [Option.bind_some]
  rw [show 1 + (dn - 1) = dn by omega] at p4
  obtain ⟨t5, e5, p5⟩ : ∃ t5, (if n % 2 = 1 then
      cols8 (fun c => addUpd A (8 * (2 * (max 1 dn)) + c) (8 * (2 * (max 1 dn - 1) + 1) + c) (8 * (2 * (max 1 dn - 1) + 1) + c)) t4
      else some t4) = some t5 ∧ St2 n 0 X t0 n t5 := by
    by_cases hod : n % 2 = 1
    · rw [if_pos hod, show max 1 dn = dn by omega]
      refine ⟨_, cols8_addUpd hA hK t4 (2 * dn) (2 * (dn - 1) + 1) (2 * (dn - 1) + 1) X (fun c p => predict n (X c) p) (fun c p => lift n 0 (X c) p)
        (p4.high hn (by omega) (by omega)) (p4.high hn (by omega) (by omega)) (p4.low (by omega) (by omega) (by omega))
        (hP _ (by omega)) (hP _ (by omega)) (fun c hc => hX c hc _ (by omega))
        (fun c hc => lift_low_eq hn (by omega) (by unfold lft; split <;> omega) (by unfold rgt; split <;> omega)),
        p4.step (by omega) (by omega) (by omega) (by omega) (by omega)⟩
    · rw [if_neg hod]
      refine ⟨t4, rfl, ?_⟩
      rwa [show 2 * dn = n by omega] at p4
  refine ⟨t5, e5, fun q => ?_⟩
  rw [p5 q]
  by_cases hq : q / 8 < n
  · rw [if_pos hq, if_pos hq, if_pos (by omega)]
  · rw [if_neg hq, if_neg hq]

theorem liftCols_odd {A : Arith} {B K : Int} (hA : Good A K) (hK : 4 * B + 2 ≤ K) (n : Nat) (hn : 2 ≤ n) (X : Nat → Nat → Int)
    (hX : ∀ c < 8, ∀ k < n, -B ≤ X c k ∧ X c k ≤ B) (t0 t : Mem Int) (h : St1 n 1 X t0 0 t) :
    ∃ t', liftCols A n (n / 2) (n - n / 2) false t = some t' ∧
      ∀ q, t' q = if q / 8 < n then some (lift n 1 (X (q % 8)) (q / 8)) else t0 q := by
  obtain ⟨sn, hsn⟩ : ∃ sn, sn = n / 2 := ⟨_, rfl⟩
  obtain ⟨dn, hdn⟩ : ∃ dn, dn = n - sn := ⟨_, rfl⟩
  rw [← hsn, ← hdn]
  unfold liftCols
  simp only [sc_eq, dc_eq, Bool.false_eq_true, if_false]
  rw [if_neg (by omega)]
  have hP : ∀ k < n, ∀ c < 8, -(2 * B) ≤ predict n (X c) k ∧ predict n (X c) k ≤ 2 * B :=
    fun k hk c hc => predict_bd hn (hX c hc) k hk
  have e0 := cols8_subOne hA hK t (2 * 0) (2 * 0 + 1) X (fun c p => predict n (X c) p)
    (h.low (by omega) (by omega)) (h.low (by omega) (by omega))
    (fun c hc => hX c hc _ (by omega)) (fun c hc => hX c hc _ (by omega)) (fun c hc => by
      rw [predict_eq (l := 2 * 0 + 1) (r := 2 * 0 + 1) (Or.inl ⟨?_, ?_⟩)]
      · omega
      · unfold lft; split <;> omega
      · unfold rgt; split <;> omega)
  rw [e0]
  simp only [Option.bind_some]
  have p0 := h.step (p := 2 * 0) (b' := 2 * 1) (by omega) (by omega) (by omega) (by omega) (by omega)
  obtain ⟨t1, e1, p1⟩ := loopM_inv
    (fun i t => cols8 (fun c => subAvg A (8 * (2 * i) + c) (8 * (2 * i + 1) + c) (8 * (2 * (i - 1) + 1) + c)) t) (sn - 1) 1 _
    (fun i t => St1 n 1 X t0 (2 * i) t) p0 (by
      rintro i t hi1 hi hs
      refine ⟨_, cols8_subAvg hA hK t (2 * i) (2 * i + 1) (2 * (i - 1) + 1) X (fun c p => predict n (X c) p)
        (hs.low (by omega) (by omega)) (hs.low (by omega) (by omega)) (hs.low (by omega) (by omega))
        (fun c hc => hX c hc _ (by omega)) (fun c hc => hX c hc _ (by omega)) (fun c hc => hX c hc _ (by omega))
        (fun c hc => predict_eq (Or.inr ⟨?_, ?_⟩)), hs.step (by omega) (by omega) (by omega) (by omega) (by omega)⟩
      · unfold lft; split <;> omega
      · unfold rgt; split <;> omega)
  rw [e1]
  simp only [Option.bind_some]
  rw [show 1 + (sn - 1) = sn by omega] at p1
  obtain ⟨t2, e2, p2⟩ : ∃ t2, (if n % 2 = 1 then
      cols8 (fun c => subOne A (8 * (2 * (max 1 sn)) + c) (8 * (2 * (max 1 sn - 1) + 1) + c)) t1 else some t1) = some t2 ∧
      St2 n 1 X t0 0 t2 := by
    by_cases hod : n % 2 = 1
    · rw [if_pos hod, show max 1 sn = sn by omega]
      refine ⟨_, cols8_subOne hA hK t1 (2 * sn) (2 * (sn - 1) + 1) X (fun c p => predict n (X c) p)
        (p1.low (by omega) (by omega)) (p1.low (by omega) (by omega))
        (fun c hc => hX c hc _ (by omega)) (fun c hc => hX c hc _ (by omega)) (fun c hc => ?_),
        (p1.step (b' := 2 * sn + 1) (by omega) (by omega) (by omega) (by omega) (by omega)).toSt2 hn (by omega) (by omega)⟩
      rw [predict_eq (l := 2 * (sn - 1) + 1) (r := 2 * (sn - 1) + 1) (Or.inl ⟨?_, ?_⟩)]
      · omega
      · unfold lft; split <;> omega
      · unfold rgt; split <;> omega
    · rw [if_neg hod]
      exact ⟨t1, rfl, p1.toSt2 hn (by omega) (by omega)⟩
  rw [e2]
  simp only [Option.bind_some]
  have p3 : St2 n 1 X t0 (2 * 0 + 1) t2 := by
    intro q
    rw [p2 q]
    by_cases hq : q / 8 < n
    · rw [if_pos hq, if_pos hq]
      by_cases hh : (q / 8 + 1) % 2 = 1
      · rw [if_pos (by omega), if_pos (by omega)]
      · rw [if_neg (by omega), if_neg (by omega)]
    · rw [if_neg hq, if_neg hq]
  obtain ⟨t4, e4, p4⟩ := loopM_inv
    (fun i t => cols8 (fun c => addUpd A (8 * (2 * i + 1) + c) (8 * (2 * i) + c) (8 * (2 * (i + 1)) + c)) t) (dn - 1) 0 _
    (fun i t => St2 n 1 X t0 (2 * i + 1) t) p3 (by
      rintro i t - hi hs
      rw [Nat.zero_add] at hi
      refine ⟨_, cols8_addUpd hA hK t (2 * i + 1) (2 * i) (2 * (i + 1)) X (fun c p => predict n (X c) p) (fun c p => lift n 1 (X c) p)
        (hs.high hn (by omega) (by omega)) (hs.high hn (by omega) (by omega)) (hs.low (by omega) (by omega) (by omega))
        (hP _ (by omega)) (hP _ (by omega)) (fun c hc => hX c hc _ (by omega))
        (fun c hc => lift_low_eq hn (by omega) (by unfold lft; split <;> omega) (by unfold rgt; split <;> omega)),
        hs.step (by omega) (by omega) (by omega) (by omega) (by omega)⟩)
  rw [e4]
  simp only [Option.bind_some, Nat.zero_add] at p4 ⊢
  obtain ⟨t5, e5, p5⟩ : ∃ t5, (if n % 2 = 0 then
      cols8 (fun c => addUpd A (8 * (2 * (dn - 1) + 1) + c) (8 * (2 * (dn - 1)) + c) (8 * (2 * (dn - 1)) + c)) t4
      else some t4) = some t5 ∧ St2 n 1 X t0 n t5 := by
    by_cases hev : n % 2 = 0
    · rw [if_pos hev]
      refine ⟨_, cols8_addUpd hA hK t4 (2 * (dn - 1) + 1) (2 * (dn - 1)) (2 * (dn - 1)) X (fun c p => predict n (X c) p) (fun c p => lift n 1 (X c) p)
        (p4.high hn (by omega) (by omega)) (p4.high hn (by omega) (by omega)) (p4.low (by omega) (by omega) (by omega))
        (hP _ (by omega)) (hP _ (by omega)) (fun c hc => hX c hc _ (by omega))
        (fun c hc => lift_low_eq hn (by omega) (by unfold lft; split <;> omega) (by unfold rgt; split <;> omega)),
        p4.step (by omega) (by omega) (by omega) (by omega) (by omega)⟩
    · rw [if_neg hev]
      refine ⟨t4, rfl, ?_⟩
      rwa [show 2 * (dn - 1) + 1 = n by omega] at p4
  refine ⟨t5, e5, fun q => ?_⟩
  rw [p5 q]
  by_cases hq : q / 8 < n
  · rw [if_pos hq, if_pos hq, if_pos (by omega)]
  · rw [if_neg hq, if_neg hq]

end Jp2.Dwt

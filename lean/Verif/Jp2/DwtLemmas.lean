import Verif.Jp2.Dwt
import Verif.Jp2.DwtSpec
import Mathlib.Tactic.NormNum
namespace Jp2.Dwt

/-- `A` is exact up to magnitude `K`. -/
def Good (A : Arith) (K : Int) : Prop := ∀ x, -K ≤ x → x ≤ K → A x = some x

theorem shr1 (x : Int) : x >>> (1 : Nat) = x / 2 := by rw [Int.shiftRight_eq_div_pow]; rfl
theorem shr2 (x : Int) : x >>> (2 : Nat) = x / 4 := by rw [Int.shiftRight_eq_div_pow]; rfl

theorem avg_ok {A : Arith} {K B : Int} (hA : Good A K) (hK : 2 * B ≤ K) (a b : Int)
    (ha : -B ≤ a ∧ a ≤ B) (hb : -B ≤ b ∧ b ≤ B) : avg A a b = some ((a + b) / 2) := by
  unfold avg; rw [hA _ (by omega) (by omega)]; simp only [Option.map_some, shr1]

theorem upd_ok {A : Arith} {K B : Int} (hA : Good A K) (hK : 4 * B + 2 ≤ K) (a b : Int)
    (ha : -(2 * B) ≤ a ∧ a ≤ 2 * B) (hb : -(2 * B) ≤ b ∧ b ≤ 2 * B) : upd A a b = some ((a + b + 2) / 4) := by
  unfold upd
  rw [hA _ (by omega) (by omega)]
  simp only [Option.bind_some]
  rw [hA _ (by omega) (by omega)]
  simp only [Option.map_some, shr2]

theorem lft_lt {n k : Nat} (hn : 2 ≤ n) (hk : k < n) : lft k < n := by unfold lft; split <;> omega
theorem rgt_lt {n k : Nat} (hn : 2 ≤ n) (hk : k < n) : rgt n k < n := by unfold rgt; split <;> omega

theorem predict_bd {n : Nat} {x : Nat → Int} {B : Int} (hn : 2 ≤ n) (hx : ∀ k < n, -B ≤ x k ∧ x k ≤ B) (k : Nat) (hk : k < n) :
    -(2 * B) ≤ predict n x k ∧ predict n x k ≤ 2 * B := by
  have h1 := hx k hk
  have h2 := hx _ (lft_lt hn hk)
  have h3 := hx _ (rgt_lt hn hk)
  unfold predict
  constructor <;> omega

theorem lift_bd {n cas : Nat} {x : Nat → Int} {B : Int} (hx : ∀ k < n, -B ≤ x k ∧ x k ≤ B) (k : Nat) (hk : k < n) :
    -(2 * B) ≤ lift n cas x k ∧ lift n cas x k ≤ 2 * B := by
  have h1 := hx k hk
  unfold lift
  split
  · split <;> constructor <;> omega
  · have hn : 2 ≤ n := by omega
    split
    · exact predict_bd hn hx k hk
    · have h2 := predict_bd hn hx _ (lft_lt hn hk)
      have h3 := predict_bd hn hx _ (rgt_lt hn hk)
      constructor <;> omega

/-! ### Rows, even -/

theorem rowEven_ok {A : Arith} {B K : Int} (hA : Good A K) (hK : 4 * B + 2 ≤ K) (n : Nat) (hn : 2 ≤ n) (x : Nat → Int)
    (hx : ∀ k < n, -B ≤ x k ∧ x k ≤ B) (row tmp : Mem Int) (hrow : ∀ k < n, row k = some (x k))
    (htmp : ∀ k < n, (tmp k).isSome) :
    ∃ row' tmp', rowEven A n ((n + 1) / 2) (n - (n + 1) / 2) (row, tmp) = some (row', tmp') ∧
      (∀ k, row' k = if k < n then some (fwd1 n 0 x k) else row k) ∧
      (∀ k, (tmp' k).isSome = (tmp k).isSome) := by
  obtain ⟨sn, hsn⟩ : ∃ sn, sn = (n + 1) / 2 := ⟨_, rfl⟩
  obtain ⟨dn, hdn⟩ : ∃ dn, dn = n - sn := ⟨_, rfl⟩
  rw [← hsn, ← hdn]
  have hB : 0 ≤ B := by have := hx 0 (by omega); omega
  unfold rowEven
  rw [if_pos (by omega)]
  -- first loop
  obtain ⟨s1, e1, p1⟩ := loopM_inv (rowEvenD A sn) (sn - 1) 0 (row, tmp)
    (fun i s => s.1 = row ∧ ∀ k, s.2 k = if sn ≤ k ∧ k < sn + i then some (predict n x (2 * (k - sn) + 1)) else tmp k)
    ⟨rfl, fun k => by rw [if_neg (by omega)]⟩ (by
      rintro i ⟨r, t⟩ - hi ⟨hr, ht⟩
      simp only at hr ht
      subst hr
      have e1 : r (2 * i + 1) = some (x (2 * i + 1)) := hrow _ (by omega)
      have e2 : r (i * 2) = some (x (i * 2)) := hrow _ (by omega)
      have e3 : r ((i + 1) * 2) = some (x ((i + 1) * 2)) := hrow _ (by omega)
      have b1 := hx (2 * i + 1) (by omega)
      have b2 := hx (i * 2) (by omega)
      have b3 := hx ((i + 1) * 2) (by omega)
      have hp : predict n x (2 * i + 1) = x (2 * i + 1) - (x (i * 2) + x ((i + 1) * 2)) / 2 := by
        unfold predict lft rgt
        rw [if_neg (by omega), if_neg (by omega), show 2 * i + 1 - 1 = i * 2 by omega, show 2 * i + 1 + 1 = (i + 1) * 2 by omega]
      have h0 : (t (sn + i)).isSome := by
        have := ht (sn + i); rw [if_neg (by omega)] at this
        rw [this]; exact htmp _ (by omega)
      obtain ⟨v, hv⟩ := Option.isSome_iff_exists.mp h0
      simp only [rowEvenD, e1, e2, e3, Option.bind_some, avg_ok hA (by omega : 2 * B ≤ K) _ _ b2 b3]
      rw [hA _ (by omega) (by omega)]
      simp only [Option.bind_some, wrTmp, wr_of_some t _ _ _ hv, Option.map_some]
      refine ⟨_, rfl, rfl, fun k => ?_⟩
      simp only [ht k]
      by_cases hk : k = sn + i
      · subst hk; rw [if_pos rfl, if_pos (by omega), show sn + i - sn = i by omega, hp]
      · rw [if_neg hk]
        by_cases hk2 : sn ≤ k ∧ k < sn + i
        · rw [if_pos hk2, if_pos (by omega)]
        · rw [if_neg hk2, if_neg (by omega)])
  rw [e1]
  simp only [Option.bind_some]
  obtain ⟨r1, t1⟩ := s1
  obtain ⟨hr1, ht1⟩ := p1
  simp only at hr1 ht1
  subst hr1
  -- last high-pass sample
  obtain ⟨t2, e2, ht2⟩ : ∃ t2, (if n % 2 = 0 then
      (r1 (2 * (sn - 1) + 1)).bind fun x => (r1 ((sn - 1) * 2)).bind fun a =>
      (A (x - a)).bind fun v => wrTmp (r1, t1) (sn + (sn - 1)) v
     else some (r1, t1)) = some (r1, t2) ∧
     ∀ k, t2 k = if sn ≤ k ∧ k < n then some (predict n x (2 * (k - sn) + 1)) else tmp k := by
    by_cases hev : n % 2 = 0
    · rw [if_pos hev]
      have b1 := hx (2 * (sn - 1) + 1) (by omega)
      have b2 := hx ((sn - 1) * 2) (by omega)
      have hp : predict n x (2 * (sn - 1) + 1) = x (2 * (sn - 1) + 1) - x ((sn - 1) * 2) := by
        unfold predict lft rgt
        rw [if_neg (by omega), if_pos (by omega), show 2 * (sn - 1) + 1 - 1 = (sn - 1) * 2 by omega]
        omega
      have h0 : (t1 (sn + (sn - 1))).isSome := by
        have := ht1 (sn + (sn - 1)); rw [if_neg (by omega)] at this
        rw [this]; exact htmp _ (by omega)
      obtain ⟨v, hv⟩ := Option.isSome_iff_exists.mp h0
      rw [hrow (2 * (sn - 1) + 1) (by omega), hrow ((sn - 1) * 2) (by omega)]
      simp only [Option.bind_some]
      rw [hA _ (by omega) (by omega)]
      simp only [Option.bind_some, wrTmp, wr_of_some t1 _ _ _ hv, Option.map_some]
      refine ⟨_, rfl, fun k => ?_⟩
      have := ht1 k
      simp only [this]
      by_cases hk : k = sn + (sn - 1)
      · rw [if_pos hk, if_pos (by omega), show k - sn = sn - 1 by omega, hp]
      · rw [if_neg hk]
        by_cases hk2 : sn ≤ k ∧ k < n
        · rw [if_pos hk2, if_pos (by omega)]
        · rw [if_neg hk2, if_neg (by omega)]
    · rw [if_neg hev]
      refine ⟨t1, rfl, fun k => ?_⟩
      have := ht1 k
      rw [this]
      by_cases hk2 : sn ≤ k ∧ k < n
      · rw [if_pos hk2, if_pos (by omega)]
      · rw [if_neg hk2, if_neg (by omega)]
  rw [e2]
  simp only [Option.bind_some]
  have hlow : ∀ i, i < sn → lift n 0 x (2 * i) = x (2 * i) + (predict n x (lft (2 * i)) + predict n x (rgt n (2 * i)) + 2) / 4 := by
    intro i hi
    unfold lift
    rw [if_neg (by omega), if_neg (by omega)]
  have hd : ∀ i, i < dn → t2 (sn + i) = some (predict n x (2 * i + 1)) := by
    intro i hi
    rw [ht2, if_pos (by omega), show sn + i - sn = i by omega]
  have hdb : ∀ i, i < dn → -(2 * B) ≤ predict n x (2 * i + 1) ∧ predict n x (2 * i + 1) ≤ 2 * B :=
    fun i hi => predict_bd hn hx _ (by omega)
  -- sample 0
  have h0 : lift n 0 x 0 = x 0 + (predict n x 1 + predict n x 1 + 2) / 4 := by
    have := hlow 0 (by omega)
    simp only [Nat.mul_zero] at this
    rw [this]
    unfold lft rgt
    rw [if_pos rfl, if_neg (by omega)]
  have b0 := hx 0 (by omega)
  have bd0 := hdb 0 (by omega)
  have u0 := upd_ok hA hK _ _ bd0 bd0
  have hd0 := hd 0 (by omega)
  simp only [Nat.mul_zero, Nat.add_zero, Nat.zero_add] at u0 hd0 bd0
  have hr0 : r1 0 = some (x 0) := hrow 0 (by omega)
  simp only [hr0, hd0, u0, Option.bind_some]
  rw [hA _ (by omega) (by omega)]
  simp only [Option.bind_some, wrRow, wr_of_some r1 0 _ _ hr0, Option.map_some]
  rw [← h0]
  -- second loop
  obtain ⟨s3, e3, p3⟩ := loopM_inv (rowEvenS A sn) (dn - 1) 1 (fun k => if k = 0 then some (lift n 0 x 0) else r1 k, t2)
    (fun i s => s.2 = t2 ∧ ∀ k, s.1 k = if k < i then some (lift n 0 x (2 * k)) else r1 k)
    ⟨rfl, fun k => by
      by_cases hk : k = 0
      · subst hk; simp only; rw [if_pos trivial, if_pos (by omega)]
      · simp only; rw [if_neg hk, if_neg (by omega)]⟩ (by
      rintro i ⟨r, t⟩ hi1 hi ⟨rfl, hr⟩
      simp only at hr hd
      have e1 : r (2 * i) = some (x (2 * i)) := by rw [hr, if_neg (by omega)]; exact hrow _ (by omega)
      have b1 := hx (2 * i) (by omega)
      have bp := hdb (i - 1) (by omega)
      have bq := hdb i (by omega)
      have e4 : r i = some (x i) := by rw [hr, if_neg (by omega)]; exact hrow _ (by omega)
      have hp : lift n 0 x (2 * i) = x (2 * i) + (predict n x (2 * (i - 1) + 1) + predict n x (2 * i + 1) + 2) / 4 := by
        rw [hlow i (by omega)]
        unfold lft rgt
        rw [if_neg (by omega), if_neg (by omega), show 2 * i - 1 = 2 * (i - 1) + 1 by omega]
      simp only [rowEvenS, e1, hd (i - 1) (by omega), hd i (by omega), Option.bind_some, upd_ok hA hK _ _ bp bq]
      rw [hA _ (by omega) (by omega)]
      simp only [Option.bind_some, wrRow, wr_of_some r _ _ _ e4, Option.map_some]
      refine ⟨_, rfl, rfl, fun k => ?_⟩
      simp only [hr k]
      by_cases hk : k = i
      · subst hk; rw [if_pos rfl, if_pos (by omega), hp]
      · rw [if_neg hk]
        by_cases hk2 : k < i
        · rw [if_pos hk2, if_pos (by omega)]
        · rw [if_neg hk2, if_neg (by omega)])
  rw [e3]
  simp only [Option.bind_some]
  obtain ⟨r3, t3⟩ := s3
  obtain ⟨ht3, hr3⟩ := p3
  simp only at ht3 hr3
  subst ht3
  -- last low-pass sample
  obtain ⟨r4, e4, hr4⟩ : ∃ r4, (if n % 2 = 1 then
      (r3 (2 * max 1 dn)).bind fun x => (t3 (sn + (max 1 dn - 1))).bind fun a => (upd A a a).bind fun h =>
      (A (x + h)).bind fun v => (wr r3 (max 1 dn) v).map (·, t3)
     else some (r3, t3)) = some (r4, t3) ∧ ∀ k, r4 k = if k < sn then some (lift n 0 x (2 * k)) else r1 k := by
    by_cases hod : n % 2 = 1
    · rw [if_pos hod, show max 1 dn = dn by omega]
      have e1 : r3 (2 * dn) = some (x (2 * dn)) := by rw [hr3, if_neg (by omega)]; exact hrow _ (by omega)
      have e4 : r3 dn = some (x dn) := by rw [hr3, if_neg (by omega)]; exact hrow _ (by omega)
      have b1 := hx (2 * dn) (by omega)
      have bp := hdb (dn - 1) (by omega)
      have hp : lift n 0 x (2 * dn) = x (2 * dn) + (predict n x (2 * (dn - 1) + 1) + predict n x (2 * (dn - 1) + 1) + 2) / 4 := by
        rw [hlow dn (by omega)]
        unfold lft rgt
        rw [if_neg (by omega), if_pos (by omega), show 2 * dn - 1 = 2 * (dn - 1) + 1 by omega]
      simp only [e1, hd (dn - 1) (by omega), Option.bind_some, upd_ok hA hK _ _ bp bp]
      rw [hA _ (by omega) (by omega)]
      simp only [Option.bind_some, wr_of_some r3 _ _ _ e4, Option.map_some]
      refine ⟨_, rfl, fun k => ?_⟩
      simp only [hr3 k]
      by_cases hk : k = dn
      · subst hk; rw [if_pos rfl, if_pos (by omega), hp]
      · rw [if_neg hk]
        by_cases hk2 : k < sn
        · rw [if_pos hk2, if_pos (by omega)]
        · rw [if_neg hk2, if_neg (by omega)]
    · rw [if_neg hod]
      refine ⟨r3, rfl, fun k => ?_⟩
      rw [hr3]
      by_cases hk2 : k < sn
      · rw [if_pos hk2, if_pos (by omega)]
      · rw [if_neg hk2, if_neg (by omega)]
  rw [e4]
  simp only [Option.bind_some]
  -- copy
  obtain ⟨s5, e5, p5⟩ := loopM_inv (rowCopy sn) dn 0 (r4, t3)
    (fun i s => s.2 = t3 ∧ ∀ k, s.1 k = if sn ≤ k ∧ k < sn + i then some (predict n x (2 * (k - sn) + 1)) else r4 k)
    ⟨rfl, fun k => by rw [if_neg (by omega)]⟩ (by
      rintro i ⟨r, t⟩ - hi ⟨rfl, hr⟩
      simp only at hr hd
      have e1 : r (sn + i) = some (x (sn + i)) := by
        rw [hr, if_neg (by omega), hr4, if_neg (by omega)]; exact hrow _ (by omega)
      simp only [rowCopy, hd i (by omega), Option.bind_some, wrRow, wr_of_some r _ _ _ e1, Option.map_some]
      refine ⟨_, rfl, rfl, fun k => ?_⟩
      simp only [hr k]
      by_cases hk : k = sn + i
      · subst hk; rw [if_pos rfl, if_pos (by omega), show sn + i - sn = i by omega]
      · rw [if_neg hk]
        by_cases hk2 : sn ≤ k ∧ k < sn + i
        · rw [if_pos hk2, if_pos (by omega)]
        · rw [if_neg hk2, if_neg (by omega)])
  rw [e5]
  obtain ⟨r5, t5⟩ := s5
  obtain ⟨ht5, hr5⟩ := p5
  simp only at ht5 hr5
  subst ht5
  refine ⟨r5, t5, rfl, fun k => ?_, fun k => ?_⟩
  · rw [hr5 k]
    unfold fwd1 pos
    rw [show lowCount n 0 = sn by unfold lowCount; omega]
    by_cases hk : k < n
    · rw [if_pos hk]
      by_cases hk2 : k < sn
      · rw [if_neg (by omega), hr4, if_pos hk2, if_pos hk2, Nat.add_zero]
      · rw [if_pos (by omega), if_neg hk2]
        unfold lift
        rw [if_neg (by omega), if_pos (by omega)]
    · rw [if_neg hk, if_neg (by omega), hr4, if_neg (by omega)]
  · rw [ht2 k]
    by_cases hk : sn ≤ k ∧ k < n
    · rw [if_pos hk, htmp k hk.2]; rfl
    · rw [if_neg hk]

/-! ### Rows, odd -/

theorem rowOdd_ok {A : Arith} {B K : Int} (hA : Good A K) (hK : 4 * B + 2 ≤ K) (n : Nat) (hn : 2 ≤ n) (x : Nat → Int)
    (hx : ∀ k < n, -B ≤ x k ∧ x k ≤ B) (row tmp : Mem Int) (hrow : ∀ k < n, row k = some (x k))
    (htmp : ∀ k < n, (tmp k).isSome) :
    ∃ row' tmp', rowOdd A n (n / 2) (n - n / 2) (row, tmp) = some (row', tmp') ∧
      (∀ k, row' k = if k < n then some (fwd1 n 1 x k) else row k) ∧
      (∀ k, (tmp' k).isSome = (tmp k).isSome) := by
  obtain ⟨sn, hsn⟩ : ∃ sn, sn = n / 2 := ⟨_, rfl⟩
  obtain ⟨dn, hdn⟩ : ∃ dn, dn = n - sn := ⟨_, rfl⟩
  rw [← hsn, ← hdn]
  have hB : 0 ≤ B := by have := hx 0 (by omega); omega
  unfold rowOdd
  rw [if_neg (by omega)]
  -- sample 0
  have b0 := hx 0 (by omega)
  have b1 := hx 1 (by omega)
  have hr0 : row 0 = some (x 0) := hrow 0 (by omega)
  have hr1 : row 1 = some (x 1) := hrow 1 (by omega)
  have hp0 : predict n x 0 = x 0 - x 1 := by
    unfold predict lft rgt
    rw [if_pos rfl, if_neg (by omega)]
    simp only [Nat.zero_add]; omega
  simp only [hr0, hr1, Option.bind_some]
  rw [hA _ (by omega) (by omega)]
  obtain ⟨v0, hv0⟩ := Option.isSome_iff_exists.mp (htmp sn (by omega))
  simp only [Option.bind_some, wrTmp, wr_of_some tmp _ _ _ hv0, Option.map_some]
  rw [← hp0]
  -- first loop
  obtain ⟨s1, e1, p1⟩ := loopM_inv (rowOddD A sn) (sn - 1) 1 (row, fun k => if k = sn then some (predict n x 0) else tmp k)
    (fun i s => s.1 = row ∧ ∀ k, s.2 k = if sn ≤ k ∧ k < sn + i then some (predict n x (2 * (k - sn))) else tmp k)
    ⟨rfl, fun k => by
      by_cases hk : k = sn
      · subst hk; simp only; rw [if_pos trivial, if_pos (by omega), Nat.sub_self]
      · simp only; rw [if_neg hk, if_neg (by omega)]⟩ (by
      rintro i ⟨r, t⟩ hi1 hi ⟨hr, ht⟩
      simp only at hr ht
      subst hr
      have e1 : r (2 * i) = some (x (2 * i)) := hrow _ (by omega)
      have e2 : r (2 * i + 1) = some (x (2 * i + 1)) := hrow _ (by omega)
      have e3 : r (2 * (i - 1) + 1) = some (x (2 * (i - 1) + 1)) := hrow _ (by omega)
      have b1 := hx (2 * i) (by omega)
      have b2 := hx (2 * i + 1) (by omega)
      have b3 := hx (2 * (i - 1) + 1) (by omega)
      have hp : predict n x (2 * i) = x (2 * i) - (x (2 * i + 1) + x (2 * (i - 1) + 1)) / 2 := by
        unfold predict lft rgt
        rw [if_neg (by omega), if_neg (by omega), show 2 * i - 1 = 2 * (i - 1) + 1 by omega, Int.add_comm (x (2 * i + 1))]
      have h0 : (t (sn + i)).isSome := by
        have := ht (sn + i); rw [if_neg (by omega)] at this
        rw [this]; exact htmp _ (by omega)
      obtain ⟨v, hv⟩ := Option.isSome_iff_exists.mp h0
      simp only [rowOddD, e1, e2, e3, Option.bind_some, avg_ok hA (by omega : 2 * B ≤ K) _ _ b2 b3]
      rw [hA _ (by omega) (by omega)]
      simp only [Option.bind_some, wrTmp, wr_of_some t _ _ _ hv, Option.map_some]
      refine ⟨_, rfl, rfl, fun k => ?_⟩
      simp only [ht k]
      by_cases hk : k = sn + i
      · subst hk; rw [if_pos rfl, if_pos (by omega), show sn + i - sn = i by omega, hp]
      · rw [if_neg hk]
        by_cases hk2 : sn ≤ k ∧ k < sn + i
        · rw [if_pos hk2, if_pos (by omega)]
        · rw [if_neg hk2, if_neg (by omega)])
  rw [e1]
  simp only [Option.bind_some]
  obtain ⟨r1, t1⟩ := s1
  obtain ⟨hr1', ht1⟩ := p1
  simp only at hr1' ht1
  subst hr1'
  -- last high-pass sample
  obtain ⟨t2, e2, ht2⟩ : ∃ t2, (if n % 2 = 1 then
      (r1 (2 * max 1 sn)).bind fun x => (r1 (2 * (max 1 sn - 1) + 1)).bind fun a =>
      (A (x - a)).bind fun v => (wr t1 (sn + max 1 sn) v).map (r1, ·)
     else some (r1, t1)) = some (r1, t2) ∧
     ∀ k, t2 k = if sn ≤ k ∧ k < n then some (predict n x (2 * (k - sn))) else tmp k := by
    by_cases hod : n % 2 = 1
    · rw [if_pos hod, show max 1 sn = sn by omega]
      have b1 := hx (2 * sn) (by omega)
      have b2 := hx (2 * (sn - 1) + 1) (by omega)
      have hp : predict n x (2 * sn) = x (2 * sn) - x (2 * (sn - 1) + 1) := by
        unfold predict lft rgt
        rw [if_neg (by omega), if_pos (by omega), show 2 * sn - 1 = 2 * (sn - 1) + 1 by omega]
        omega
      have h0 : (t1 (sn + sn)).isSome := by
        have := ht1 (sn + sn); rw [if_neg (by omega)] at this
        rw [this]; exact htmp _ (by omega)
      obtain ⟨v, hv⟩ := Option.isSome_iff_exists.mp h0
      rw [hrow (2 * sn) (by omega), hrow (2 * (sn - 1) + 1) (by omega)]
      simp only [Option.bind_some]
      rw [hA _ (by omega) (by omega)]
      simp only [Option.bind_some, wr_of_some t1 _ _ _ hv, Option.map_some]
      refine ⟨_, rfl, fun k => ?_⟩
      have := ht1 k
      simp only [this]
      by_cases hk : k = sn + sn
      · rw [if_pos hk, if_pos (by omega), show k - sn = sn by omega, hp]
      · rw [if_neg hk]
        by_cases hk2 : sn ≤ k ∧ k < n
        · rw [if_pos hk2, if_pos (by omega)]
        · rw [if_neg hk2, if_neg (by omega)]
    · rw [if_neg hod]
      refine ⟨t1, rfl, fun k => ?_⟩
      have := ht1 k
      rw [this]
      by_cases hk2 : sn ≤ k ∧ k < n
      · rw [if_pos hk2, if_pos (by omega)]
      · rw [if_neg hk2, if_neg (by omega)]
  rw [e2]
  simp only [Option.bind_some]
  have hlow : ∀ i, i < sn → lift n 1 x (2 * i + 1) = x (2 * i + 1) + (predict n x (2 * i) + predict n x (rgt n (2 * i + 1)) + 2) / 4 := by
    intro i hi
    unfold lift lft
    rw [if_neg (by omega), if_neg (by omega), if_neg (by omega), show 2 * i + 1 - 1 = 2 * i by omega]
  have hd : ∀ i, i < dn → t2 (sn + i) = some (predict n x (2 * i)) := by
    intro i hi
    rw [ht2, if_pos (by omega), show sn + i - sn = i by omega]
  have hdb : ∀ i, i < dn → -(2 * B) ≤ predict n x (2 * i) ∧ predict n x (2 * i) ≤ 2 * B :=
    fun i hi => predict_bd hn hx _ (by omega)
  -- second loop
  obtain ⟨s3, e3, p3⟩ := loopM_inv (rowOddS A sn) (dn - 1) 0 (r1, t2)
    (fun i s => s.2 = t2 ∧ ∀ k, s.1 k = if k < i then some (lift n 1 x (2 * k + 1)) else r1 k)
    ⟨rfl, fun k => by rw [if_neg (by omega)]⟩ (by
      rintro i ⟨r, t⟩ hi1 hi ⟨rfl, hr⟩
      simp only at hr hd
      have e1 : r (2 * i + 1) = some (x (2 * i + 1)) := by rw [hr, if_neg (by omega)]; exact hrow _ (by omega)
      have b1 := hx (2 * i + 1) (by omega)
      have bp := hdb i (by omega)
      have bq := hdb (i + 1) (by omega)
      have e4 : r i = some (x i) := by rw [hr, if_neg (by omega)]; exact hrow _ (by omega)
      have hp : lift n 1 x (2 * i + 1) = x (2 * i + 1) + (predict n x (2 * i) + predict n x (2 * (i + 1)) + 2) / 4 := by
        rw [hlow i (by omega)]
        unfold rgt
        rw [if_neg (by omega), show 2 * i + 1 + 1 = 2 * (i + 1) by omega]
      simp only [rowOddS, e1, hd i (by omega), show sn + i + 1 = sn + (i + 1) from rfl, hd (i + 1) (by omega), Option.bind_some,
        upd_ok hA hK _ _ bp bq]
      rw [hA _ (by omega) (by omega)]
      simp only [Option.bind_some, wrRow, wr_of_some r _ _ _ e4, Option.map_some]
      refine ⟨_, rfl, rfl, fun k => ?_⟩
      simp only [hr k]
      by_cases hk : k = i
      · subst hk; rw [if_pos rfl, if_pos (by omega), hp]
      · rw [if_neg hk]
        by_cases hk2 : k < i
        · rw [if_pos hk2, if_pos (by omega)]
        · rw [if_neg hk2, if_neg (by omega)])
  rw [e3]
  simp only [Option.bind_some]
  obtain ⟨r3, t3⟩ := s3
  obtain ⟨ht3, hr3⟩ := p3
  simp only at ht3 hr3
  subst ht3
  -- last low-pass sample
  obtain ⟨r4, e4, hr4⟩ : ∃ r4, (if n % 2 = 0 then
      (r3 (2 * (dn - 1) + 1)).bind fun x => (t3 (sn + (dn - 1))).bind fun a => (upd A a a).bind fun h =>
      (A (x + h)).bind fun v => wrRow (r3, t3) (dn - 1) v
     else some (r3, t3)) = some (r4, t3) ∧ ∀ k, r4 k = if k < sn then some (lift n 1 x (2 * k + 1)) else r1 k := by
    by_cases hev : n % 2 = 0
    · rw [if_pos hev]
      have e1 : r3 (2 * (dn - 1) + 1) = some (x (2 * (dn - 1) + 1)) := by rw [hr3, if_neg (by omega)]; exact hrow _ (by omega)
      have e4 : r3 (dn - 1) = some (x (dn - 1)) := by rw [hr3, if_neg (by omega)]; exact hrow _ (by omega)
      have b1 := hx (2 * (dn - 1) + 1) (by omega)
      have bp := hdb (dn - 1) (by omega)
      have hp : lift n 1 x (2 * (dn - 1) + 1) =
          x (2 * (dn - 1) + 1) + (predict n x (2 * (dn - 1)) + predict n x (2 * (dn - 1)) + 2) / 4 := by
        rw [hlow (dn - 1) (by omega)]
        unfold rgt
        rw [if_pos (by omega), show 2 * (dn - 1) + 1 - 1 = 2 * (dn - 1) by omega]
      simp only [e1, hd (dn - 1) (by omega), Option.bind_some, upd_ok hA hK _ _ bp bp]
      rw [hA _ (by omega) (by omega)]
      simp only [Option.bind_some, wrRow, wr_of_some r3 _ _ _ e4, Option.map_some]
      refine ⟨_, rfl, fun k => ?_⟩
      simp only [hr3 k]
      by_cases hk : k = dn - 1
      · rw [if_pos hk, if_pos (by omega), hk, hp]
      · rw [if_neg hk]
        by_cases hk2 : k < sn
        · rw [if_pos hk2, if_pos (by omega)]
        · rw [if_neg hk2, if_neg (by omega)]
    · rw [if_neg hev]
      refine ⟨r3, rfl, fun k => ?_⟩
      rw [hr3]
      by_cases hk2 : k < sn
      · rw [if_pos hk2, if_pos (by omega)]
      · rw [if_neg hk2, if_neg (by omega)]
  rw [e4]
  simp only [Option.bind_some]
  -- copy
  obtain ⟨s5, e5, p5⟩ := loopM_inv (rowCopy sn) dn 0 (r4, t3)
    (fun i s => s.2 = t3 ∧ ∀ k, s.1 k = if sn ≤ k ∧ k < sn + i then some (predict n x (2 * (k - sn))) else r4 k)
    ⟨rfl, fun k => by rw [if_neg (by omega)]⟩ (by
      rintro i ⟨r, t⟩ - hi ⟨rfl, hr⟩
      simp only at hr hd
      have e1 : r (sn + i) = some (x (sn + i)) := by
        rw [hr, if_neg (by omega), hr4, if_neg (by omega)]; exact hrow _ (by omega)
      simp only [rowCopy, hd i (by omega), Option.bind_some, wrRow, wr_of_some r _ _ _ e1, Option.map_some]
      refine ⟨_, rfl, rfl, fun k => ?_⟩
      simp only [hr k]
      by_cases hk : k = sn + i
      · subst hk; rw [if_pos rfl, if_pos (by omega), show sn + i - sn = i by omega]
      · rw [if_neg hk]
        by_cases hk2 : sn ≤ k ∧ k < sn + i
        · rw [if_pos hk2, if_pos (by omega)]
        · rw [if_neg hk2, if_neg (by omega)])
  rw [e5]
  obtain ⟨r5, t5⟩ := s5
  obtain ⟨ht5, hr5⟩ := p5
  simp only at ht5 hr5
  subst ht5
  refine ⟨r5, t5, rfl, fun k => ?_, fun k => ?_⟩
  · rw [hr5 k]
    unfold fwd1 pos
    rw [show lowCount n 1 = sn by unfold lowCount; omega]
    by_cases hk : k < n
    · rw [if_pos hk]
      by_cases hk2 : k < sn
      · rw [if_neg (by omega), hr4, if_pos hk2, if_pos hk2]
      · rw [if_pos (by omega), if_neg hk2, Nat.sub_self, Nat.add_zero]
        unfold lift
        rw [if_neg (by omega), if_pos (by omega)]
    · rw [if_neg hk, if_neg (by omega), hr4, if_neg (by omega)]
  · rw [ht2 k]
    by_cases hk : sn ≤ k ∧ k < n
    · rw [if_pos hk, htmp k hk.2]; rfl
    · rw [if_neg hk]

/-- The row transform computes the specified coefficients, in place, for every width but an odd zero. -/
theorem encodeRow_ok {A : Arith} {B K : Int} (hA : Good A K) (hK : 4 * B + 2 ≤ K) (n : Nat) (even : Bool)
    (hn : even = false → 1 ≤ n) (x : Nat → Int) (hx : ∀ k < n, -B ≤ x k ∧ x k ≤ B) (row tmp : Mem Int)
    (hrow : ∀ k < n, row k = some (x k)) (htmp : ∀ k < n, (tmp k).isSome) :
    ∃ row' tmp', encodeRow A n even (row, tmp) = some (row', tmp') ∧
      (∀ k, row' k = if k < n then some (fwd1 n (if even then 0 else 1) x k) else row k) ∧
      (∀ k, (tmp' k).isSome = (tmp k).isSome) := by
  by_cases hn2 : 2 ≤ n
  · cases even
    · simpa only [encodeRow, Bool.false_eq_true, if_false, Nat.add_zero] using rowOdd_ok hA hK n hn2 x hx row tmp hrow htmp
    · simpa only [encodeRow, if_true] using rowEven_ok hA hK n hn2 x hx row tmp hrow htmp
  · cases even
    · obtain rfl : n = 1 := by have := hn rfl; omega
      have b0 := hx 0 (by omega)
      have hr0 : row 0 = some (x 0) := hrow 0 (by omega)
      simp only [encodeRow, Bool.false_eq_true, if_false, rowOdd, if_true, hr0, Option.bind_some]
      rw [hA _ (by omega) (by omega)]
      simp only [Option.bind_some, wrRow, wr_of_some row _ _ _ hr0, Option.map_some]
      refine ⟨_, _, rfl, fun k => ?_, fun _ => rfl⟩
      by_cases hk : k = 0
      · subst hk
        simp only [fwd1, lift, pos, lowCount, Nat.zero_lt_one, if_true]
        norm_num [Int.mul_comm]
      · rw [if_neg hk, if_neg (by omega)]
    · refine ⟨row, tmp, ?_, fun k => ?_, fun _ => rfl⟩
      · simp only [encodeRow, if_true, rowEven]; rw [if_neg (by omega)]
      · split
        · obtain rfl : k = 0 := by omega
          obtain rfl : n = 1 := by omega
          rw [hrow 0 (by omega)]; rfl
        · rfl

end Jp2.Dwt

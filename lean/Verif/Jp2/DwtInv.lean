import Verif.Jp2.DwtLemmas
namespace Jp2.Dwt

theorem addAvg_comm (A : Arith) (p q r : Nat) (t : Mem Int) : addAvg A p q r t = addAvg A p r q t := by
  unfold addAvg
  cases hq : t q <;> cases hr : t r <;> simp only [Option.bind_none, Option.bind_some]
  simp only [avg, Int.add_comm]

theorem subUpd_ok {A : Arith} {p q r : Nat} {t : Mem Int} {a b x y : Int} (ha : t q = some a) (hb : t r = some b) (hp : t p = some x)
    {h : Int} (hu : upd A a b = some h) (hA : A (x - h) = some y) :
    subUpd A p q r t = some (fun k => if k = p then some y else t k) := by
  simp only [subUpd, ha, hb, hp, hu, hA, Option.bind_some, wr_of_some t _ _ _ hp]

theorem addAvg_ok {A : Arith} {p q r : Nat} {t : Mem Int} {a b x y : Int} (ha : t q = some a) (hb : t r = some b) (hp : t p = some x)
    {h : Int} (hu : avg A a b = some h) (hA : A (x + h) = some y) :
    addAvg A p q r t = some (fun k => if k = p then some y else t k) := by
  simp only [addAvg, ha, hb, hp, hu, hA, Option.bind_some, wr_of_some t _ _ _ hp]

theorem decode_loops {A : Arith} {B K : Int} (hA : Good A K) (hK : 4 * B + 2 ≤ K) (n cas : Nat) (hc : cas ≤ 1) (hn : 2 ≤ n)
    (x : Nat → Int) (hx : ∀ k < n, -B ≤ x k ∧ x k ≤ B) (sn dn : Nat) (hsn : sn = lowCount n cas) (hdn : dn = n - sn)
    (f1 f2 : Nat → Mem Int → Option (Mem Int))
    (h1 : ∀ i < sn, ∀ t, f1 i t = subUpd A (2 * i + cas) (lft (2 * i + cas)) (rgt n (2 * i + cas)) t)
    (h2 : ∀ i < dn, ∀ t, f2 i t = addAvg A (2 * i + (1 - cas)) (lft (2 * i + (1 - cas))) (rgt n (2 * i + (1 - cas))) t)
    (t : Mem Int) (ht : ∀ k < n, t k = some (lift n cas x k)) :
    ∃ t', ((loopM f1 sn 0 t).bind fun t => loopM f2 dn 0 t) = some t' ∧
      ∀ k, t' k = if k < n then some (x k) else t k := by
  have hB : 0 ≤ B := by have := hx 0 (by omega); omega
  unfold lowCount at hsn
  have hhi : ∀ k < n, (k + cas) % 2 = 1 → lift n cas x k = predict n x k := by
    intro k hk h
    unfold lift
    rw [if_neg (by omega), if_pos h]
  obtain ⟨t1, e1, p1⟩ := loopM_inv f1 sn 0 t
    (fun i t' => ∀ k, t' k = if k < n ∧ (k + cas) % 2 = 0 ∧ k < 2 * i + cas then some (x k) else t k)
    (fun k => by rw [if_neg (by omega)]) (by
      rintro i t' - hi hi'
      rw [Nat.zero_add] at hi
      have hpn : 2 * i + cas < n := by omega
      have hl := lft_lt hn hpn
      have hr := rgt_lt hn hpn
      have ol : (lft (2 * i + cas) + cas) % 2 = 1 := by unfold lft; split <;> omega
      have or : (rgt n (2 * i + cas) + cas) % 2 = 1 := by unfold rgt; split <;> omega
      have ha : t' (lft (2 * i + cas)) = some (predict n x (lft (2 * i + cas))) := by
        rw [hi', if_neg (by omega), ht _ hl, hhi _ hl ol]
      have hb : t' (rgt n (2 * i + cas)) = some (predict n x (rgt n (2 * i + cas))) := by
        rw [hi', if_neg (by omega), ht _ hr, hhi _ hr or]
      have hp : t' (2 * i + cas) = some (lift n cas x (2 * i + cas)) := by
        rw [hi', if_neg (by omega), ht _ hpn]
      have bx := hx _ hpn
      have e : lift n cas x (2 * i + cas) - (predict n x (lft (2 * i + cas)) + predict n x (rgt n (2 * i + cas)) + 2) / 4 = x (2 * i + cas) := by
        unfold lift
        rw [if_neg (by omega), if_neg (by omega)]; omega
      rw [h1 i hi]
      refine ⟨_, subUpd_ok ha hb hp (upd_ok hA hK _ _ (predict_bd hn hx _ hl) (predict_bd hn hx _ hr))
        (y := x (2 * i + cas)) (by rw [e]; exact hA _ (by omega) (by omega)), fun k => ?_⟩
      simp only [hi' k]
      by_cases hk : k = 2 * i + cas
      · rw [if_pos hk, if_pos (by omega), hk]
      · rw [if_neg hk]
        by_cases hk2 : k < n ∧ (k + cas) % 2 = 0 ∧ k < 2 * i + cas
        · rw [if_pos hk2, if_pos (by omega)]
        · rw [if_neg hk2, if_neg (by omega)])
  obtain ⟨t2, e2, p2⟩ := loopM_inv f2 dn 0 t1
    (fun i t' => ∀ k, t' k = if k < n ∧ ((k + cas) % 2 = 0 ∨ k < 2 * i + (1 - cas)) then some (x k) else t k)
    (fun k => by
      rw [p1]
      by_cases hk : k < n ∧ (k + cas) % 2 = 0
      · rw [if_pos (by omega), if_pos (by omega)]
      · rw [if_neg (by omega), if_neg (by omega)]) (by
      rintro i t' - hi hi'
      rw [Nat.zero_add] at hi
      have hpn : 2 * i + (1 - cas) < n := by omega
      have hl := lft_lt hn hpn
      have hr := rgt_lt hn hpn
      have ol : (lft (2 * i + (1 - cas)) + cas) % 2 = 0 := by unfold lft; split <;> omega
      have or : (rgt n (2 * i + (1 - cas)) + cas) % 2 = 0 := by unfold rgt; split <;> omega
      have ha : t' (lft (2 * i + (1 - cas))) = some (x (lft (2 * i + (1 - cas)))) := by
        rw [hi', if_pos (by omega)]
      have hb : t' (rgt n (2 * i + (1 - cas))) = some (x (rgt n (2 * i + (1 - cas)))) := by
        rw [hi', if_pos (by omega)]
      have hp : t' (2 * i + (1 - cas)) = some (predict n x (2 * i + (1 - cas))) := by
        rw [hi', if_neg (by omega), ht _ hpn, hhi _ hpn (by omega)]
      have bx := hx _ hpn
      have e : predict n x (2 * i + (1 - cas)) + (x (lft (2 * i + (1 - cas))) + x (rgt n (2 * i + (1 - cas)))) / 2 = x (2 * i + (1 - cas)) := by
        unfold predict; omega
      rw [h2 i hi]
      refine ⟨_, addAvg_ok ha hb hp (avg_ok hA (by omega : 2 * B ≤ K) _ _ (hx _ hl) (hx _ hr))
        (y := x (2 * i + (1 - cas))) (by rw [e]; exact hA _ (by omega) (by omega)), fun k => ?_⟩
      simp only [hi' k]
      by_cases hk : k = 2 * i + (1 - cas)
      · rw [if_pos hk, if_pos (by omega), hk]
      · rw [if_neg hk]
        by_cases hk2 : k < n ∧ ((k + cas) % 2 = 0 ∨ k < 2 * i + (1 - cas))
        · rw [if_pos hk2, if_pos (by omega)]
        · rw [if_neg hk2, if_neg (by omega)])
  refine ⟨t2, by rw [e1]; simp only [Option.bind_some]; exact e2, fun k => ?_⟩
  rw [p2]
  by_cases hk : k < n
  · rw [if_pos (by omega), if_pos hk]
  · rw [if_neg (by omega), if_neg hk]

theorem clampIdx_some (i : Int) (n : Nat) (h : n ≠ 0) :
    clampIdx i n = some (if i < 0 then 0 else if n ≤ i.toNat then n - 1 else i.toNat) := by
  unfold clampIdx; rw [if_neg h]

theorem decode1_ok {A : Arith} {B K : Int} (hA : Good A K) (hK : 4 * B + 2 ≤ K) (n cas : Nat) (hc : cas ≤ 1)
    (x : Nat → Int) (hx : ∀ k < n, -B ≤ x k ∧ x k ≤ B)
    (t : Mem Int) (ht : ∀ k < n, t k = some (lift n cas x k)) :
    ∃ t', decode1 A (lowCount n cas) (n - lowCount n cas) cas t = some t' ∧
      ∀ k, t' k = if k < n then some (x k) else t k := by
  obtain ⟨sn, hsn⟩ : ∃ sn, sn = lowCount n cas := ⟨_, rfl⟩
  obtain ⟨dn, hdn⟩ : ∃ dn, dn = n - sn := ⟨_, rfl⟩
  rw [← hsn, ← hdn]
  have hsn' := hsn
  unfold lowCount at hsn'
  by_cases hn : 2 ≤ n
  · unfold decode1
    rcases Nat.le_one_iff_eq_zero_or_eq_one.mp hc with rfl | rfl
    · rw [if_pos rfl, if_pos (by omega)]
      refine decode_loops hA hK n 0 hc hn x hx sn dn hsn hdn _ _ (fun i hi t => ?_) (fun i hi t => ?_) t ht
      · rw [clampIdx_some _ _ (by omega), clampIdx_some _ _ (by omega)]
        simp only [Option.bind_some]
        congr 1
        · omega
        · unfold lft; split <;> split <;> try split
          all_goals omega
        · unfold rgt; split <;> split <;> try split
          all_goals omega
      · rw [clampIdx_some _ _ (by omega), clampIdx_some _ _ (by omega)]
        simp only [Option.bind_some]
        congr 1
        · omega
        · unfold lft; split <;> split <;> try split
          all_goals omega
        · unfold rgt; split <;> split <;> try split
          all_goals omega
    · rw [if_neg (by omega), if_neg (by omega)]
      refine decode_loops hA hK n 1 hc hn x hx sn dn hsn hdn _ _ (fun i hi t => ?_) (fun i hi t => ?_) t ht
      · rw [clampIdx_some _ _ (by omega), clampIdx_some _ _ (by omega)]
        simp only [Option.bind_some]
        congr 1
        · omega
        · unfold lft; split <;> split <;> try split
          all_goals omega
        · unfold rgt; split <;> split <;> try split
          all_goals omega
      · rw [clampIdx_some _ _ (by omega), clampIdx_some _ _ (by omega)]
        simp only [Option.bind_some]
        rw [addAvg_comm]
        congr 1
        · omega
        · unfold lft; split <;> split <;> try split
          all_goals omega
        · unfold rgt; split <;> split <;> try split
          all_goals omega
  · unfold decode1
    rcases Nat.le_one_iff_eq_zero_or_eq_one.mp hc with rfl | rfl
    · rw [if_pos rfl, if_neg (by omega)]
      refine ⟨t, rfl, fun k => ?_⟩
      split
      · obtain rfl : k = 0 := by omega
        obtain rfl : n = 1 := by omega
        rw [ht 0 (by omega)]; rfl
      · rfl
    · rw [if_neg (by omega)]
      by_cases h1 : n = 1
      · subst h1
        rw [if_pos (by omega)]
        have h0 : t 0 = some (2 * x 0) := ht 0 (by omega)
        simp only [h0, Option.bind_some, wr_of_some t 0 _ _ h0]
        refine ⟨_, rfl, fun k => ?_⟩
        by_cases hk : k = 0
        · subst hk; simp
        · rw [if_neg hk, if_neg (by omega)]
      · rw [if_neg (by omega)]
        obtain rfl : n = 0 := by omega
        obtain rfl : sn = 0 := by omega
        obtain rfl : dn = 0 := by omega
        exact ⟨t, rfl, fun k => by rw [if_neg (by omega)]⟩

/-- Interleaving places sample `i` of the band order at its position on the line. -/
theorem interleave_ok (n cas st : Nat) (hc : cas ≤ 1) (a t : Mem Int) (y : Nat → Int)
    (ha : ∀ i < n, a (i * st) = some (y (pos (lowCount n cas) cas i))) (ht : ∀ k < n, (t k).isSome) :
    ∃ t', interleave a st (lowCount n cas) (n - lowCount n cas) cas t = some t' ∧
      ∀ k, t' k = if k < n then some (y k) else t k := by
  obtain ⟨sn, hsn⟩ : ∃ sn, sn = lowCount n cas := ⟨_, rfl⟩
  obtain ⟨dn, hdn⟩ : ∃ dn, dn = n - sn := ⟨_, rfl⟩
  rw [← hsn, ← hdn]
  rw [← hsn] at ha
  unfold lowCount at hsn
  unfold interleave
  obtain ⟨t1, e1, p1⟩ := loopM_inv (fun i t => (a (i * st)).bind fun v => wr t (cas + i * 2) v) sn 0 t
    (fun i t' => ∀ k, t' k = if k < n ∧ (k + cas) % 2 = 0 ∧ k < 2 * i then some (y k) else t k)
    (fun k => by rw [if_neg (by omega)]) (by
      rintro i t' - hi hi'
      rw [Nat.zero_add] at hi
      have h0 : (t' (cas + i * 2)).isSome := by rw [hi', if_neg (by omega)]; exact ht _ (by omega)
      obtain ⟨v, hv⟩ := Option.isSome_iff_exists.mp h0
      simp only [ha i (by omega), Option.bind_some, wr_of_some t' _ _ _ hv]
      refine ⟨_, rfl, fun k => ?_⟩
      simp only [hi' k]
      by_cases hk : k = cas + i * 2
      · rw [if_pos hk, if_pos (by omega), hk]
        unfold pos; rw [if_pos hi, show 2 * i + cas = cas + i * 2 by omega]
      · rw [if_neg hk]
        by_cases hk2 : k < n ∧ (k + cas) % 2 = 0 ∧ k < 2 * i
        · rw [if_pos hk2, if_pos (by omega)]
        · rw [if_neg hk2, if_neg (by omega)])
  obtain ⟨t2, e2, p2⟩ := loopM_inv (fun i t => (a (sn * st + i * st)).bind fun v => wr t (1 - cas + i * 2) v) dn 0 t1
    (fun i t' => ∀ k, t' k = if k < n ∧ ((k + cas) % 2 = 0 ∨ k < 2 * i + (1 - cas)) then some (y k) else t k)
    (fun k => by
      rw [p1]
      by_cases hk : k < n ∧ (k + cas) % 2 = 0
      · rw [if_pos (by omega), if_pos (by omega)]
      · rw [if_neg (by omega), if_neg (by omega)]) (by
      rintro i t' - hi hi'
      rw [Nat.zero_add] at hi
      have h0 : (t' (1 - cas + i * 2)).isSome := by rw [hi', if_neg (by omega)]; exact ht _ (by omega)
      obtain ⟨v, hv⟩ := Option.isSome_iff_exists.mp h0
      have := ha (sn + i) (by omega)
      rw [Nat.add_mul] at this
      simp only [this, Option.bind_some, wr_of_some t' _ _ _ hv]
      refine ⟨_, rfl, fun k => ?_⟩
      simp only [hi' k]
      by_cases hk : k = 1 - cas + i * 2
      · rw [if_pos hk, if_pos (by omega), hk]
        unfold pos; rw [if_neg (by omega), show 2 * (sn + i - sn) + (1 - cas) = 1 - cas + i * 2 by omega]
      · rw [if_neg hk]
        by_cases hk2 : k < n ∧ ((k + cas) % 2 = 0 ∨ k < 2 * i + (1 - cas))
        · rw [if_pos hk2, if_pos (by omega)]
        · rw [if_neg hk2, if_neg (by omega)])
  refine ⟨t2, by rw [e1]; simp only [Option.bind_some]; exact e2, fun k => ?_⟩
  rw [p2]
  by_cases hk : k < n
  · rw [if_pos (by omega), if_pos hk]
  · rw [if_neg (by omega), if_neg hk]

/-- Copying a line back writes exactly its samples. -/
theorem copyBack_ok (t a : Mem Int) (st n : Nat) (hst : 0 < st) (x : Nat → Int) (ht : ∀ k < n, t k = some (x k))
    (ha : ∀ k < n, (a (k * st)).isSome) :
    ∃ a', copyBack t st n a = some a' ∧ (∀ k < n, a' (k * st) = some (x k)) ∧
      (∀ q, (∀ k < n, q ≠ k * st) → a' q = a q) := by
  obtain ⟨a1, e1, p1, p2⟩ := loopM_inv (fun k a => (t k).bind fun v => wr a (k * st) v) n 0 a
    (fun i a' => (∀ k < i, a' (k * st) = some (x k)) ∧ (∀ q, (∀ k < i, q ≠ k * st) → a' q = a q))
    ⟨fun k hk => by omega, fun _ _ => rfl⟩ (by
      rintro i a' - hi ⟨h1, h2⟩
      rw [Nat.zero_add] at hi
      have h0 : (a' (i * st)).isSome := by
        rw [h2 _ (fun k hk he => by have := Nat.eq_of_mul_eq_mul_right hst he; omega)]; exact ha _ hi
      obtain ⟨v, hv⟩ := Option.isSome_iff_exists.mp h0
      simp only [ht i hi, Option.bind_some, wr_of_some a' _ _ _ hv]
      refine ⟨_, rfl, fun k hk => ?_, fun q hq => ?_⟩
      · by_cases hki : k = i
        · subst hki; simp
        · rw [if_neg (fun he => hki (Nat.eq_of_mul_eq_mul_right hst he))]; exact h1 k (by omega)
      · rw [if_neg (hq i (by omega))]; exact h2 q (fun k hk => hq k (by omega)))
  rw [Nat.zero_add] at p1 p2
  exact ⟨a1, e1, p1, p2⟩

/-- The inverse line transform undoes `fwd1` in place. -/
theorem idwtLine_ok {A : Arith} {B K : Int} (hA : Good A K) (hK : 4 * B + 2 ≤ K) (n cas st : Nat) (hc : cas ≤ 1) (hst : 0 < st)
    (x : Nat → Int) (hx : ∀ k < n, -B ≤ x k ∧ x k ≤ B) (a t : Mem Int)
    (ha : ∀ i < n, a (i * st) = some (fwd1 n cas x i)) (ht : ∀ k < n, (t k).isSome) :
    ∃ a' t', idwtLine A st (lowCount n cas) (n - lowCount n cas) cas (a, t) = some (a', t') ∧
      (∀ k < n, a' (k * st) = some (x k)) ∧ (∀ q, (∀ k < n, q ≠ k * st) → a' q = a q) ∧
      (∀ k, (t' k).isSome = (t k).isSome) := by
  obtain ⟨t1, e1, p1⟩ := interleave_ok n cas st hc a t (lift n cas x) ha ht
  obtain ⟨t2, e2, p2⟩ := decode1_ok hA hK n cas hc x hx t1 (fun k hk => by rw [p1, if_pos hk])
  obtain ⟨a3, e3, p3, p4⟩ := copyBack_ok t2 a st n hst x (fun k hk => by rw [p2, if_pos hk]) (fun k hk => by rw [ha k hk]; rfl)
  have hsd : lowCount n cas + (n - lowCount n cas) = n := by unfold lowCount; omega
  refine ⟨a3, t2, ?_, p3, p4, fun k => ?_⟩
  · simp only [idwtLine, e1, e2, hsd, e3, Option.bind_some, Option.map_some]
  · rw [p2, p1]
    split
    · rw [ht k (by assumption)]; rfl
    · rfl

end Jp2.Dwt

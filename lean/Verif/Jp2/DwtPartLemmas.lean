import Verif.Jp2.DwtPart
import Verif.Jp2.DwtTile
/-! # Helper lemmas on the inverse transform of a part of a tile -/
namespace Jp2.Dwt

/-- The inverse of the update step on an interleaved line. -/
def lowW (W : Int → Int) (n : Nat) (y : Nat → Int) (k : Nat) : Int :=
  W (y k - (W (W (y (lft k) + y (rgt n k)) + 2)) >>> (2 : Nat))

/-- After the first loop. -/
def z1 (W : Int → Int) (n cas l0 l1 : Nat) (y : Nat → Int) (k : Nat) : Int :=
  if (k + cas) % 2 = 0 ∧ l0 ≤ k / 2 ∧ k / 2 < l1 then lowW W n y k else y k

/-- After both loops. -/
def z2 (W : Int → Int) (n cas l0 l1 h0 h1 : Nat) (y : Nat → Int) (k : Nat) : Int :=
  if (k + cas) % 2 = 1 ∧ h0 ≤ k / 2 ∧ k / 2 < h1 then
    W (z1 W n cas l0 l1 y k + (W (z1 W n cas l0 l1 y (lft k) + z1 W n cas l0 l1 y (rgt n k))) >>> (1 : Nat))
  else z1 W n cas l0 l1 y k

def part1 (W : Int → Int) (n cas l0 l1 h0 h1 : Nat) (y : Nat → Int) (k : Nat) : Int :=
  if n = 1 then (if cas = 0 then y k else (y k).tdiv 2) else z2 W n cas l0 l1 h0 h1 y k

theorem subUpd_W {W : Int → Int} {p q r : Nat} {t : Mem Int} {a b x : Int} (ha : t q = some a) (hb : t r = some b)
    (hp : t p = some x) : subUpd (fun x => some (W x)) p q r t =
      some (fun k => if k = p then some (W (x - (W (W (a + b) + 2)) >>> (2 : Nat))) else t k) :=
  subUpd_ok ha hb hp (h := (W (W (a + b) + 2)) >>> (2 : Nat)) rfl rfl

theorem addAvg_W {W : Int → Int} {p q r : Nat} {t : Mem Int} {a b x : Int} (ha : t q = some a) (hb : t r = some b)
    (hp : t p = some x) : addAvg (fun x => some (W x)) p q r t =
      some (fun k => if k = p then some (W (x + (W (a + b)) >>> (1 : Nat))) else t k) :=
  addAvg_ok ha hb hp (h := (W (a + b)) >>> (1 : Nat)) rfl rfl

theorem part_loops (W : Int → Int) (n cas l0 l1 h0 h1 : Nat) (hc : cas ≤ 1) (hn : 2 ≤ n)
    (sn dn : Nat) (hsn : sn = lowCount n cas) (hdn : dn = n - sn) (hl1 : l1 ≤ sn) (hh1 : h1 ≤ dn)
    (f1 f2 : Nat → Mem Int → Option (Mem Int))
    (e1 : ∀ i < sn, ∀ t, f1 i t = subUpd (fun x => some (W x)) (2 * i + cas) (lft (2 * i + cas)) (rgt n (2 * i + cas)) t)
    (e2 : ∀ i < dn, ∀ t, f2 i t = addAvg (fun x => some (W x)) (2 * i + (1 - cas)) (lft (2 * i + (1 - cas))) (rgt n (2 * i + (1 - cas))) t)
    (y : Nat → Int) (t : Mem Int) (ht : ∀ k < n, t k = some (y k)) :
    ∃ t', ((loopM f1 (l1 - l0) l0 t).bind fun t => loopM f2 (h1 - h0) h0 t) = some t' ∧
      ∀ k, t' k = if k < n then some (z2 W n cas l0 l1 h0 h1 y k) else t k := by
  unfold lowCount at hsn
  obtain ⟨t1, q1, p1⟩ := loopM_inv f1 (l1 - l0) l0 t
    (fun i t' => ∀ k, t' k = if k < n then some (if (k + cas) % 2 = 0 ∧ l0 ≤ k / 2 ∧ k / 2 < i then lowW W n y k else y k) else t k)
    (fun k => by
      split
      · rename_i hk; rw [if_neg (by omega), ht k hk]
      · rfl) (by
      rintro i t' hi0 hi hi'
      have hpn : 2 * i + cas < n := by omega
      have hl := lft_lt hn hpn
      have hr := rgt_lt hn hpn
      have ol : (lft (2 * i + cas) + cas) % 2 = 1 := by unfold lft; split <;> omega
      have or : (rgt n (2 * i + cas) + cas) % 2 = 1 := by unfold rgt; split <;> omega
      have ha : t' (lft (2 * i + cas)) = some (y (lft (2 * i + cas))) := by
        rw [hi', if_pos hl, if_neg (by omega)]
      have hb : t' (rgt n (2 * i + cas)) = some (y (rgt n (2 * i + cas))) := by
        rw [hi', if_pos hr, if_neg (by omega)]
      have hp : t' (2 * i + cas) = some (y (2 * i + cas)) := by
        rw [hi', if_pos hpn, if_neg (by omega)]
      rw [e1 i (by omega), subUpd_W ha hb hp]
      refine ⟨_, rfl, fun k => ?_⟩
      simp only [hi' k]
      by_cases hk : k = 2 * i + cas
      · rw [if_pos hk, if_pos (by omega), if_pos (by omega), hk]; rfl
      · rw [if_neg hk]
        by_cases hkn : k < n
        · rw [if_pos hkn, if_pos hkn]
          by_cases hk2 : (k + cas) % 2 = 0 ∧ l0 ≤ k / 2 ∧ k / 2 < i
          · rw [if_pos hk2, if_pos (by omega)]
          · rw [if_neg hk2, if_neg (by omega)]
        · rw [if_neg hkn, if_neg hkn])
  have p1' : ∀ k, t1 k = if k < n then some (z1 W n cas l0 l1 y k) else t k := by
    intro k
    rw [p1 k]
    unfold z1
    split
    · by_cases hk2 : (k + cas) % 2 = 0 ∧ l0 ≤ k / 2 ∧ k / 2 < l1
      · rw [if_pos hk2, if_pos (by omega)]
      · rw [if_neg hk2, if_neg (by omega)]
    · rfl
  obtain ⟨t2, q2, p2⟩ := loopM_inv f2 (h1 - h0) h0 t1
    (fun i t' => ∀ k, t' k = if k < n then some (if (k + cas) % 2 = 1 ∧ h0 ≤ k / 2 ∧ k / 2 < i then
      W (z1 W n cas l0 l1 y k + (W (z1 W n cas l0 l1 y (lft k) + z1 W n cas l0 l1 y (rgt n k))) >>> (1 : Nat))
      else z1 W n cas l0 l1 y k) else t k)
    (fun k => by
      rw [p1' k]
      split
      · rw [if_neg (by omega)]
      · rfl) (by
      rintro i t' hi0 hi hi'
      have hpn : 2 * i + (1 - cas) < n := by omega
      have hl := lft_lt hn hpn
      have hr := rgt_lt hn hpn
      have ol : (lft (2 * i + (1 - cas)) + cas) % 2 = 0 := by unfold lft; split <;> omega
      have or : (rgt n (2 * i + (1 - cas)) + cas) % 2 = 0 := by unfold rgt; split <;> omega
      have ha : t' (lft (2 * i + (1 - cas))) = some (z1 W n cas l0 l1 y (lft (2 * i + (1 - cas)))) := by
        rw [hi', if_pos hl, if_neg (by omega)]
      have hb : t' (rgt n (2 * i + (1 - cas))) = some (z1 W n cas l0 l1 y (rgt n (2 * i + (1 - cas)))) := by
        rw [hi', if_pos hr, if_neg (by omega)]
      have hp : t' (2 * i + (1 - cas)) = some (z1 W n cas l0 l1 y (2 * i + (1 - cas))) := by
        rw [hi', if_pos hpn, if_neg (by omega)]
      rw [e2 i (by omega), addAvg_W ha hb hp]
      refine ⟨_, rfl, fun k => ?_⟩
      simp only [hi' k]
      by_cases hk : k = 2 * i + (1 - cas)
      · rw [if_pos hk, if_pos (by omega), if_pos (by omega), hk]
      · rw [if_neg hk]
        by_cases hkn : k < n
        · rw [if_pos hkn, if_pos hkn]
          by_cases hk2 : (k + cas) % 2 = 1 ∧ h0 ≤ k / 2 ∧ k / 2 < i
          · rw [if_pos hk2, if_pos (by omega)]
          · rw [if_neg hk2, if_neg (by omega)]
        · rw [if_neg hkn, if_neg hkn])
  refine ⟨t2, by rw [q1]; exact q2, fun k => ?_⟩
  rw [p2 k]
  unfold z2
  split
  · by_cases hk2 : (k + cas) % 2 = 1 ∧ h0 ≤ k / 2 ∧ k / 2 < h1
    · rw [if_pos hk2, if_pos (by omega)]
    · rw [if_neg hk2, if_neg (by omega)]
  · rfl

theorem decodePart1_eq (W : Int → Int) (n cas l0 l1 h0 h1 : Nat) (hc : cas ≤ 1)
    (hl1 : l1 ≤ lowCount n cas) (hh1 : h1 ≤ n - lowCount n cas)
    (y : Nat → Int) (t : Mem Int) (ht : ∀ k < n, t k = some (y k)) :
    ∃ t', decodePart1 (fun x => some (W x)) (fun x => some (W x)) (lowCount n cas) (n - lowCount n cas) cas l0 l1 h0 h1 t = some t' ∧
      ∀ k, t' k = if k < n then some (part1 W n cas l0 l1 h0 h1 y k) else t k := by
  obtain ⟨sn, hsn⟩ : ∃ sn, sn = lowCount n cas := ⟨_, rfl⟩
  obtain ⟨dn, hdn⟩ : ∃ dn, dn = n - sn := ⟨_, rfl⟩
  rw [← hsn] at hl1 hh1 ⊢
  rw [← hdn] at hh1 ⊢
  have hsn' := hsn
  unfold lowCount at hsn'
  by_cases hn : 2 ≤ n
  · have hpart : ∀ k, part1 W n cas l0 l1 h0 h1 y k = z2 W n cas l0 l1 h0 h1 y k := fun k => by
      unfold part1; rw [if_neg (by omega)]
    simp only [hpart]
    unfold decodePart1
    rcases Nat.le_one_iff_eq_zero_or_eq_one.mp hc with rfl | rfl
    · rw [if_pos rfl, if_pos (by omega)]
      refine part_loops W n 0 l0 l1 h0 h1 hc hn sn dn hsn hdn hl1 hh1 _ _ (fun i hi t => ?_) (fun i hi t => ?_) y t ht
      · rw [clampIdx_some _ _ (by omega), clampIdx_some _ _ (by omega)]
        simp only [Option.bind_some]
        congr 1
        · omega
        · unfold lft; split <;> split <;> try split
          all_goals omega
        · unfold rgt; split <;> split <;> try split
          all_goals omega
      · rw [clampIdx_some _ _ (by omega), clampIdx_some _ _ (by omega)]
        simp only [Option.bind_some]
        congr 1
        · omega
        · unfold lft; split <;> split <;> try split
          all_goals omega
        · unfold rgt; split <;> split <;> try split
          all_goals omega
    · rw [if_neg (by omega), if_neg (by omega)]
      refine part_loops W n 1 l0 l1 h0 h1 hc hn sn dn hsn hdn hl1 hh1 _ _ (fun i hi t => ?_) (fun i hi t => ?_) y t ht
      · rw [clampIdx_some _ _ (by omega), clampIdx_some _ _ (by omega)]
        simp only [Option.bind_some]
        congr 1
        · omega
        · unfold lft; split <;> split <;> try split
          all_goals omega
        · unfold rgt; split <;> split <;> try split
          all_goals omega
      · rw [clampIdx_some _ _ (by omega), clampIdx_some _ _ (by omega)]
        simp only [Option.bind_some]
        rw [addAvg_comm]
        congr 1
        · omega
        · unfold lft; split <;> split <;> try split
          all_goals omega
        · unfold rgt; split <;> split <;> try split
          all_goals omega
  · unfold decodePart1
    rcases Nat.le_one_iff_eq_zero_or_eq_one.mp hc with rfl | rfl
    · rw [if_pos rfl, if_neg (by omega)]
      refine ⟨t, rfl, fun k => ?_⟩
      split
      · obtain rfl : k = 0 := by omega
        obtain rfl : n = 1 := by omega
        rw [ht 0 (by omega)]; rfl
      · rfl
    · rw [if_neg (by omega)]
      by_cases hn1 : n = 1
      · subst hn1
        rw [if_pos (by omega)]
        have h0 : t 0 = some (y 0) := ht 0 (by omega)
        simp only [h0, Option.bind_some, wr_of_some t 0 _ _ h0]
        refine ⟨_, rfl, fun k => ?_⟩
        by_cases hk : k = 0
        · subst hk; simp [part1]
        · rw [if_neg hk, if_neg (by omega)]
      · rw [if_neg (by omega)]
        obtain rfl : n = 0 := by omega
        obtain rfl : sn = 0 := by omega
        obtain rfl : dn = 0 := by omega
        obtain rfl : l1 = 0 := by omega
        obtain rfl : h1 = 0 := by omega
        rw [Nat.zero_sub, Nat.zero_sub]
        exact ⟨t, rfl, fun k => by rw [if_neg (by omega)]⟩

/-- Which sample of the band order sits at position `k`. -/
def ip (sn cas k : Nat) : Nat := if (k + cas) % 2 = 0 then k / 2 else sn + k / 2

theorem ip_pos (n cas i : Nat) (hc : cas ≤ 1) : ip (lowCount n cas) cas (pos (lowCount n cas) cas i) = i := by
  unfold ip pos
  by_cases h : i < lowCount n cas
  · rw [if_pos h, if_pos (by omega)]; omega
  · rw [if_neg h, if_neg (by omega)]; omega

/-- The inverse of a line given in band order. -/
def invLine (W : Int → Int) (n cas : Nat) (f : Nat → Int) (k : Nat) : Int :=
  part1 W n cas 0 (lowCount n cas) 0 (n - lowCount n cas) (fun k => f (ip (lowCount n cas) cas k)) k

theorem idwtLine_inv (W : Int → Int) (n cas st : Nat) (hc : cas ≤ 1) (hst : 0 < st) (f : Nat → Int) (a t : Mem Int)
    (ha : ∀ i < n, a (i * st) = some (f i)) (ht : ∀ k < n, (t k).isSome) :
    ∃ a' t', idwtLine (fun x => some (W x)) st (lowCount n cas) (n - lowCount n cas) cas (a, t) = some (a', t') ∧
      (∀ k < n, a' (k * st) = some (invLine W n cas f k)) ∧ (∀ q, (∀ k < n, q ≠ k * st) → a' q = a q) ∧
      (∀ k, (t' k).isSome = (t k).isSome) := by
  obtain ⟨t1, e1, p1⟩ := interleave_ok n cas st hc a t (fun k => f (ip (lowCount n cas) cas k))
    (fun i hi => by rw [ha i hi]; simp only [ip_pos n cas i hc]) ht
  obtain ⟨t2, e2, p2⟩ := decodePart1_eq W n cas 0 (lowCount n cas) 0 (n - lowCount n cas) hc (Nat.le_refl _) (Nat.le_refl _)
    (fun k => f (ip (lowCount n cas) cas k)) t1 (fun k hk => by rw [p1, if_pos hk])
  obtain ⟨a3, e3, p3, p4⟩ := copyBack_ok t2 a st n hst (invLine W n cas f) (fun k hk => by rw [p2, if_pos hk]; rfl)
    (fun k hk => by rw [ha k hk]; rfl)
  have hsd : lowCount n cas + (n - lowCount n cas) = n := by unfold lowCount; omega
  have e2' : decode1 (fun x => some (W x)) (lowCount n cas) (n - lowCount n cas) cas t1 = some t2 := e2
  refine ⟨a3, t2, ?_, p3, p4, fun k => ?_⟩
  · simp only [idwtLine, e1, e2', hsd, e3, Option.bind_some, Option.map_some]
  · rw [p2, p1]
    split
    · rw [ht k (by assumption)]; rfl
    · rfl

/-- Horizontal inverse, then vertical. -/
def invRows (W : Int → Int) (rw casx : Nat) (x : Plane) : Plane := fun j i => invLine W rw casx (x j) i
def invCols (W : Int → Int) (rh casy : Nat) (x : Plane) : Plane := fun j i => invLine W rh casy (fun k => x k i) j
def invLevel (W : Int → Int) (r : Res) (x : Plane) : Plane :=
  invCols W r.h (r.y0 % 2) (invRows W r.w (r.x0 % 2) x)

theorem decodeLevel_inv (W : Int → Int) (w : Nat) (hw0 : 0 < w) (lo r : Res) (hw : r.w ≤ w)
    (hlw : lo.w = lowCount r.w (r.x0 % 2)) (hlh : lo.h = lowCount r.h (r.y0 % 2))
    {x : Plane} {m0 m t : Mem Int} (h : Holds w r.w r.h m0 x m) (ht : ∀ q < max r.w r.h, (t q).isSome) :
    ∃ m' t', decodeLevel (fun x => some (W x)) w lo r (m, t) = some (m', t') ∧ Holds w r.w r.h m0 (invLevel W r x) m' ∧
      (∀ q, (t' q).isSome = (t q).isSome) := by
  unfold decodeLevel invLevel
  rw [hlw, hlh]
  clear hlw hlh
  generalize r.w = rw' at *
  generalize r.h = rh at *
  obtain ⟨V, hV⟩ : ∃ V, V = invRows W rw' (r.x0 % 2) x := ⟨_, rfl⟩
  rw [← hV]
  obtain ⟨s1, e1, p1, d1⟩ := loopM_inv
    (fun j s => at_ (idwtLine (fun x => some (W x)) 1 (lowCount rw' (r.x0 % 2)) (rw' - lowCount rw' (r.x0 % 2)) (r.x0 % 2)) (j * w) s) rh 0 (m, t)
    (fun b s => Holds w rw' rh m0 (fun j i => if j < b then V j i else x j i) s.1 ∧
      (∀ q, (s.2 q).isSome = (t q).isSome))
    ⟨h.congr (fun j hj i hi => by rw [if_neg (by omega)]), fun _ => rfl⟩ (by
      rintro b ⟨m1, t1⟩ - hb ⟨h1, d1⟩
      rw [Nat.zero_add] at hb
      simp only at h1 d1
      obtain ⟨a', t', e, q1, q2, q3⟩ := idwtLine_inv W rw' (r.x0 % 2) 1 (by omega) (by omega) (x b)
        (fun i => m1 (b * w + i)) t1
        (fun i hi => by rw [Nat.mul_one, h1.get hw hb hi, if_neg (by omega)]) (fun k hk => by rw [d1]; exact ht k (by omega))
      refine ⟨(fun k => if b * w ≤ k then a' (k - b * w) else m1 k, t'), ?_, ?_, fun q => by rw [q3, d1]⟩
      · unfold at_; simp only [e, Option.map_some]
      · have := h1.upd hw (m' := fun k => if b * w ≤ k then a' (k - b * w) else m1 k) (S := fun j _ => j = b)
          (y := V) (by
            intro j hj i hi hs
            subst hs
            have := q1 i hi
            rw [Nat.mul_one] at this
            rw [if_pos (by omega), show j * w + i - j * w = i by omega, this, hV]; rfl) (by
            intro q hq
            by_cases hbq : b * w ≤ q
            · rw [if_pos hbq, q2]
              · rw [show b * w + (q - b * w) = q by omega]
              · intro k hk he
                exact hq b hb k hk rfl (by omega)
            · rw [if_neg hbq])
        refine this.congr (fun j hj i hi => ?_)
        by_cases hj1 : j < b
        · rw [if_neg (by omega), if_pos hj1, if_pos (by omega)]
        · by_cases hj2 : j < b + 1
          · rw [if_pos (by omega), if_pos hj2]
          · rw [if_neg (by omega), if_neg hj1, if_neg hj2])
  rw [e1]
  simp only [Option.bind_some, Nat.zero_add] at p1 d1 ⊢
  obtain ⟨s2, e2, p2, d2⟩ := loopM_inv
    (fun j s => at_ (idwtLine (fun x => some (W x)) w (lowCount rh (r.y0 % 2)) (rh - lowCount rh (r.y0 % 2)) (r.y0 % 2)) j s) rw' 0 s1
    (fun b s => Holds w rw' rh m0 (fun j i => if i < b then invCols W rh (r.y0 % 2) V j i else V j i) s.1 ∧
      (∀ q, (s.2 q).isSome = (t q).isSome))
    ⟨p1.congr (fun j hj i hi => by rw [if_pos hj, if_neg (by omega)]), d1⟩ (by
      rintro b ⟨m1, t1⟩ - hb ⟨h1, d1⟩
      rw [Nat.zero_add] at hb
      simp only at h1 d1
      obtain ⟨a', t', e, q1, q2, q3⟩ := idwtLine_inv W rh (r.y0 % 2) w (by omega) hw0 (fun k => V k b)
        (fun i => m1 (b + i)) t1
        (fun i hi => by rw [Nat.add_comm, h1.get hw hi hb, if_neg (by omega)]) (fun k hk => by rw [d1]; exact ht k (by omega))
      refine ⟨(fun k => if b ≤ k then a' (k - b) else m1 k, t'), ?_, ?_, fun q => by rw [q3, d1]⟩
      · unfold at_; simp only [e, Option.map_some]
      · have := h1.upd hw (m' := fun k => if b ≤ k then a' (k - b) else m1 k) (S := fun _ i => i = b)
          (y := invCols W rh (r.y0 % 2) V) (by
            intro j hj i hi hs
            subst hs
            rw [if_pos (by omega), show j * w + i - i = j * w by omega, q1 j hj]; rfl) (by
            intro q hq
            by_cases hbq : b ≤ q
            · rw [if_pos hbq, q2]
              · rw [show b + (q - b) = q by omega]
              · intro k hk he
                exact hq k hk b hb rfl (by omega)
            · rw [if_neg hbq])
        refine this.congr (fun j hj i hi => ?_)
        by_cases hj1 : i < b
        · rw [if_neg (by omega), if_pos hj1, if_pos (by omega)]
        · by_cases hj2 : i < b + 1
          · rw [if_pos (by omega), if_pos hj2]
          · rw [if_neg (by omega), if_neg hj1, if_neg hj2])
  rw [Nat.zero_add] at p2
  exact ⟨s2.1, s2.2, e2, p2.congr (fun j hj i hi => if_pos hi), d2⟩

end Jp2.Dwt

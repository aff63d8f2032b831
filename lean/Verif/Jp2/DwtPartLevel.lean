import Verif.Jp2.DwtPartLemmas
import Verif.Jp2.DwtProps
/-! # Helper lemmas: one level of the inverse transform of a part of a tile -/
namespace Jp2.Dwt

/-- Position `k` is one of those loaded. -/
def InW (cas l0 l1 h0 h1 k : Nat) : Prop :=
  ((k + cas) % 2 = 0 → l0 ≤ k / 2 ∧ k / 2 < l1) ∧ ((k + cas) % 2 = 1 → h0 ≤ k / 2 ∧ k / 2 < h1)

theorem z1_agree (W : Int → Int) (n cas l0 l1 h0 h1 : Nat) (hc : cas ≤ 1) (hn : 2 ≤ n) (y y' : Nat → Int)
    (h : ∀ k < n, InW cas l0 l1 h0 h1 k → y k = y' k) (k : Nat) (hk : k < n) (p : InW cas l0 l1 h0 h1 k)
    (q : (k + cas) % 2 = 0 → InW cas l0 l1 h0 h1 (lft k) ∧ InW cas l0 l1 h0 h1 (rgt n k)) :
    z1 W n cas l0 l1 y k = z1 W n cas 0 (lowCount n cas) y' k := by
  unfold z1
  by_cases e : (k + cas) % 2 = 0
  · have := p.1 e
    rw [if_pos ⟨e, this.1, this.2⟩, if_pos ⟨e, by omega, by unfold lowCount; omega⟩]
    unfold lowW
    rw [h k hk p, h _ (lft_lt hn hk) (q e).1, h _ (rgt_lt hn hk) (q e).2]
  · rw [if_neg (fun h => e h.1), if_neg (fun h => e h.1), h k hk p]

theorem z2_agree (W : Int → Int) (n cas l0 l1 h0 h1 : Nat) (hc : cas ≤ 1) (hn : 2 ≤ n) (y y' : Nat → Int)
    (h : ∀ k < n, InW cas l0 l1 h0 h1 k → y k = y' k) (k : Nat) (hk : k < n) (p : InW cas l0 l1 h0 h1 k)
    (pl : InW cas l0 l1 h0 h1 (lft k)) (pr : InW cas l0 l1 h0 h1 (rgt n k))
    (q : (k + cas) % 2 = 1 → InW cas l0 l1 h0 h1 (lft (lft k)) ∧ InW cas l0 l1 h0 h1 (rgt n (lft k)) ∧
      InW cas l0 l1 h0 h1 (lft (rgt n k)) ∧ InW cas l0 l1 h0 h1 (rgt n (rgt n k))) :
    z2 W n cas l0 l1 h0 h1 y k = z2 W n cas 0 (lowCount n cas) 0 (n - lowCount n cas) y' k := by
  unfold z2
  by_cases e : (k + cas) % 2 = 1
  · have := p.2 e
    rw [if_pos ⟨e, this.1, this.2⟩, if_pos ⟨e, by omega, by unfold lowCount; omega⟩,
      z1_agree W n cas l0 l1 h0 h1 hc hn y y' h k hk p (fun _ => ⟨pl, pr⟩),
      z1_agree W n cas l0 l1 h0 h1 hc hn y y' h _ (lft_lt hn hk) pl (fun _ => ⟨(q e).1, (q e).2.1⟩),
      z1_agree W n cas l0 l1 h0 h1 hc hn y y' h _ (rgt_lt hn hk) pr (fun _ => ⟨(q e).2.2.1, (q e).2.2.2⟩)]
  · rw [if_neg (fun h => e h.1), if_neg (fun h => e h.1)]
    exact z1_agree W n cas l0 l1 h0 h1 hc hn y y' h k hk p (fun _ => ⟨pl, pr⟩)

/-- What the buffer holds after the loads. -/
def loaded (sn cas l0 l1 h0 h1 : Nat) (f y0 : Nat → Int) (k : Nat) : Int :=
  if (k + cas) % 2 = 1 ∧ h0 ≤ k / 2 ∧ k / 2 < h1 then f (sn + k / 2)
  else if (k + cas) % 2 = 0 ∧ l0 ≤ k / 2 ∧ k / 2 < l1 then f (k / 2) else y0 k

theorem readCells_eq (size : Nat) (f : Nat → Int) (x0 x1 c j0 n : Nat) (hc : c ≤ 1) (hs : x1 ≤ size) (hn : ∀ i, i < x1 - x0 → 2 * (j0 + i) + c < n)
    (y : Nat → Int) (t : Mem Int) (ht : ∀ k < n, t k = some (y k)) :
    ∃ t', readCells size f x0 x1 (c + 2 * j0) t = some t' ∧
      ∀ k, t' k = if k < n then some (if (k + c) % 2 = 0 ∧ j0 ≤ k / 2 ∧ k / 2 < j0 + (x1 - x0) then f (x0 + (k / 2 - j0)) else y k) else t k := by
  unfold readCells
  by_cases h : x0 < x1 ∧ x1 ≤ size
  · rw [if_pos h]
    obtain ⟨t1, e1, p1⟩ := loopM_inv (fun i t => wr t (c + 2 * j0 + 2 * i) (f (x0 + i))) (x1 - x0) 0 t
      (fun b t' => ∀ k, t' k = if k < n then some (if (k + c) % 2 = 0 ∧ j0 ≤ k / 2 ∧ k / 2 < j0 + b then f (x0 + (k / 2 - j0)) else y k) else t k)
      (fun k => by
        split
        · rename_i hk; rw [if_neg (by omega), ht k hk]
        · rfl) (by
        rintro b t' - hb hb'
        rw [Nat.zero_add] at hb
        have hbn := hn b hb
        have h0 := hb' (c + 2 * j0 + 2 * b)
        rw [if_pos (by omega)] at h0
        rw [wr_of_some _ _ _ _ h0]
        refine ⟨_, rfl, fun k => ?_⟩
        simp only [hb' k]
        by_cases hk : k = c + 2 * j0 + 2 * b
        · rw [if_pos hk, if_pos (by omega), if_pos (by omega), show k / 2 - j0 = b by omega]
        · rw [if_neg hk]
          by_cases hkn : k < n
          · rw [if_pos hkn, if_pos hkn]
            by_cases hk2 : (k + c) % 2 = 0 ∧ j0 ≤ k / 2 ∧ k / 2 < j0 + b
            · rw [if_pos hk2, if_pos (by omega)]
            · rw [if_neg hk2, if_neg (by omega)]
          · rw [if_neg hkn, if_neg hkn])
    rw [Nat.zero_add] at p1
    exact ⟨t1, e1, p1⟩
  · rw [if_neg h]
    refine ⟨t, rfl, fun k => ?_⟩
    split
    · rename_i hk; rw [if_neg (by omega), ht k hk]
    · rfl

theorem interPart_eq (size n cas l0 l1 h0 h1 : Nat) (hc : cas ≤ 1) (hs : n ≤ size) (f : Nat → Int)
    (hl1 : l1 ≤ lowCount n cas) (hh1 : h1 ≤ n - lowCount n cas) (y : Nat → Int) (t : Mem Int) (ht : ∀ k < n, t k = some (y k)) :
    ∃ t', interPart size f (lowCount n cas) cas l0 l1 h0 h1 t = some t' ∧
      ∀ k < n, t' k = some (loaded (lowCount n cas) cas l0 l1 h0 h1 f y k) := by
  have hsn : lowCount n cas = (n + (1 - cas)) / 2 := rfl
  generalize lowCount n cas = sn at *
  obtain ⟨t1, e1, p1⟩ := readCells_eq size f l0 l1 cas l0 n hc (by omega) (fun i hi => by omega) y t ht
  obtain ⟨t2, e2, p2⟩ := readCells_eq size f (sn + h0) (sn + h1) (1 - cas) h0 n (by omega) (by omega) (fun i hi => by omega)
    (fun k => if (k + cas) % 2 = 0 ∧ l0 ≤ k / 2 ∧ k / 2 < l0 + (l1 - l0) then f (l0 + (k / 2 - l0)) else y k) t1
    (fun k hk => by rw [p1 k, if_pos hk])
  refine ⟨t2, by unfold interPart; rw [e1]; exact e2, fun k hk => ?_⟩
  rw [p2 k, if_pos hk]
  unfold loaded
  by_cases a : (k + cas) % 2 = 1 ∧ h0 ≤ k / 2 ∧ k / 2 < h1
  · rw [if_pos a, if_pos (by omega), show sn + h0 + (k / 2 - h0) = sn + k / 2 by omega]
  · rw [if_neg a, if_neg (by omega)]
    by_cases b : (k + cas) % 2 = 0 ∧ l0 ≤ k / 2 ∧ k / 2 < l1
    · rw [if_pos b, if_pos (by omega), show l0 + (k / 2 - l0) = k / 2 by omega]
    · rw [if_neg b, if_neg (by omega)]

/-- The geometry of one axis at one level: a resolution `X..R`, a window `a..b` in it, and the windows the code computes. -/
structure Axis (X R a b n sn cas : Nat) (x : Win) : Prop where
  hXa : X ≤ a
  hab : a ≤ b
  hbR : b ≤ R
  hn : n = R - X
  hc : cas = X % 2
  hsn : sn = lowCount n cas
  hl0 : x.l0 = (a + 1) / 2 - (X + 1) / 2 - 2
  hl1 : x.l1 = min ((b + 1) / 2 - (X + 1) / 2 + 2) sn
  hh0 : x.h0 = a / 2 - X / 2 - 2
  hh1 : x.h1 = min (b / 2 - X / 2 + 2) (n - sn)
  ht0 : x.t0 = if cas = 0 then min (2 * x.l0) (2 * x.h0 + 1) else min (2 * x.h0) (2 * x.l0 + 1)
  ht1 : x.t1 = if cas = 0 then min (max (2 * x.l1) (2 * x.h1 + 1)) n else min (max (2 * x.h1) (2 * x.l1 + 1)) n

/-- The positions that come out right: the window and two more on each side. -/
def Gd (X a b k : Nat) : Prop := a ≤ X + k + 2 ∧ X + k < b + 2

section
variable {X R a b n sn cas : Nat} {x : Win}

theorem Axis.cas_le (g : Axis X R a b n sn cas x) : cas ≤ 1 := by have := g.hc; omega

theorem Axis.inW (g : Axis X R a b n sn cas x) (k : Nat) (hk : k < n)
    (h : a ≤ X + k + 3 ∨ (a ≤ X + k + 4 ∧ (k + cas) % 2 = 1)) (h' : X + k < b + 4) : InW cas x.l0 x.l1 x.h0 x.h1 k := by
  have hc := g.cas_le
  obtain ⟨g1, g2, g3, g4, g5, g6, g7, g8, g9, g10, -, -⟩ := g
  unfold lowCount at g6
  unfold InW
  rw [g7, g8, g9, g10]
  clear g7 g8 g9 g10
  obtain ⟨u, hu⟩ : ∃ u, X = 2 * u + cas := ⟨X / 2, by omega⟩
  clear g5
  constructor
  · intro e
    obtain ⟨i, rfl⟩ : ∃ i, k = 2 * i + cas := ⟨k / 2, by omega⟩
    have h : a ≤ X + (2 * i + cas) + 3 := by omega
    have hi : i < sn := by clear h h' g1 g2; omega
    rw [show (2 * i + cas) / 2 = i by omega, show (X + 1) / 2 = u + cas by omega]
    clear g3 g4 g6 hk e
    refine ⟨by omega, ?_⟩
    rw [Nat.lt_min]
    exact ⟨by omega, hi⟩
  · intro e
    obtain ⟨i, rfl⟩ : ∃ i, k = 2 * i + (1 - cas) := ⟨k / 2, by omega⟩
    have h : a ≤ X + (2 * i + (1 - cas)) + 4 := by omega
    have hi : i < n - sn := by clear h h' g1 g2; omega
    rw [show (2 * i + (1 - cas)) / 2 = i by omega, show X / 2 = u by omega]
    clear g3 g4 g6 hk e
    refine ⟨by omega, ?_⟩
    rw [Nat.lt_min]
    exact ⟨by omega, hi⟩

theorem lft_near (k : Nat) : (lft k = k + 1) ∨ (lft k + 1 = k) := by unfold lft; split <;> omega
theorem rgt_near {n k : Nat} (hn : 2 ≤ n) : (rgt n k = k + 1) ∨ (rgt n k + 1 = k) := by unfold rgt; split <;> omega

theorem Axis.agree (W : Int → Int) (g : Axis X R a b n sn cas x) (f f' y0 : Nat → Int)
    (hl : ∀ i, x.l0 ≤ i → i < x.l1 → f i = f' i) (hh : ∀ i, x.h0 ≤ i → i < x.h1 → f (sn + i) = f' (sn + i))
    (k : Nat) (hk : k < n) (hg : Gd X a b k) :
    part1 W n cas x.l0 x.l1 x.h0 x.h1 (loaded sn cas x.l0 x.l1 x.h0 x.h1 f y0) k = invLine W n cas f' k := by
  have hc := g.cas_le
  obtain ⟨ga, gb⟩ := hg
  have hag : ∀ k < n, InW cas x.l0 x.l1 x.h0 x.h1 k →
      loaded sn cas x.l0 x.l1 x.h0 x.h1 f y0 k = f' (ip (lowCount n cas) cas k) := by
    intro k hk p
    unfold loaded ip
    rw [← g.hsn]
    by_cases e : (k + cas) % 2 = 0
    · have := p.1 e
      rw [if_neg (by omega), if_pos ⟨e, this.1, this.2⟩, if_pos e, hl _ this.1 this.2]
    · have := p.2 (by omega)
      rw [if_pos ⟨by omega, this.1, this.2⟩, if_neg e, hh _ this.1 this.2]
  have pk := g.inW k hk (Or.inl (by omega)) (by omega)
  have L : ∀ k', (k' = k + 1 ∨ k' + 1 = k) → k' < n → InW cas x.l0 x.l1 x.h0 x.h1 k' :=
    fun k' h hk' => g.inW k' hk' (Or.inl (by omega)) (by omega)
  have LL : (k + cas) % 2 = 1 → ∀ k' k'', (k' = k + 1 ∨ k' + 1 = k) → (k'' = k' + 1 ∨ k'' + 1 = k') → k'' < n →
      InW cas x.l0 x.l1 x.h0 x.h1 k'' :=
    fun e k' k'' h h' hk => g.inW k'' hk (Or.inr ⟨by omega, by omega⟩) (by omega)
  unfold invLine part1
  by_cases h1 : n = 1
  · rw [if_pos h1, if_pos h1, hag k hk pk]
  · rw [if_neg h1, if_neg h1]
    have hn : 2 ≤ n := by omega
    have b1 := lft_lt hn hk
    have b2 := rgt_lt hn hk
    have n1 := lft_near k
    have n2 := @rgt_near n k hn
    exact z2_agree W n cas x.l0 x.l1 x.h0 x.h1 hc hn _ _ hag k hk pk (L _ n1 b1) (L _ n2 b2)
      (fun e => ⟨LL e _ _ n1 (lft_near _) (lft_lt hn b1), LL e _ _ n1 (rgt_near hn) (rgt_lt hn b1),
        LL e _ _ n2 (lft_near _) (lft_lt hn b2), LL e _ _ n2 (rgt_near hn) (rgt_lt hn b2)⟩)

theorem Axis.tr (g : Axis X R a b n sn cas x) (k : Nat) (hk : k < n) (hg : Gd X a b k) : x.t0 ≤ k ∧ k < x.t1 := by
  have hc := g.cas_le
  have := g.inW k hk (by unfold Gd at hg; omega) (by unfold Gd at hg; omega)
  rw [g.ht0, g.ht1]
  unfold InW at this
  by_cases e : (k + cas) % 2 = 0
  · have := this.1 e
    split <;> omega
  · have := this.2 (by omega)
    split <;> omega

theorem Axis.t1_le (g : Axis X R a b n sn cas x) : x.t1 ≤ n := by rw [g.ht1]; split <;> omega
theorem Axis.l1_le (g : Axis X R a b n sn cas x) : x.l1 ≤ sn := by rw [g.hl1]; omega
theorem Axis.h1_le (g : Axis X R a b n sn cas x) : x.h1 ≤ n - sn := by rw [g.hh1]; omega

theorem partCol_ok (W : Int → Int) (g : Axis X R a b n sn cas x) (size : Nat) (hs : n ≤ size) (f : Nat → Int) (t : Mem Int)
    (ht : ∀ k < n, (t k).isSome) :
    ∃ (t' : Mem Int) (v : Nat → Int), partCol (fun x => some (W x)) size f sn (n - sn) cas x t = some t' ∧ (∀ k < n, t' k = some (v k)) ∧
      ∀ f' : Nat → Int, (∀ i, x.l0 ≤ i → i < x.l1 → f i = f' i) → (∀ i, x.h0 ≤ i → i < x.h1 → f (sn + i) = f' (sn + i)) →
        ∀ k < n, Gd X a b k → v k = invLine W n cas f' k := by
  have ht' : ∀ k < n, t k = some ((t k).getD 0) := fun k hk => by
    obtain ⟨v, hv⟩ := Option.isSome_iff_exists.mp (ht k hk); rw [hv]; rfl
  have a1 := g.l1_le
  have a2 := g.h1_le
  have hsn := g.hsn
  rw [hsn] at a1 a2
  obtain ⟨t1, e1, p1⟩ := interPart_eq size n cas x.l0 x.l1 x.h0 x.h1 g.cas_le hs f a1 a2 _ t ht'
  obtain ⟨t2, e2, p2⟩ := decodePart1_eq W n cas x.l0 x.l1 x.h0 x.h1 g.cas_le a1 a2 _ t1 p1
  rw [← hsn] at e1 e2 p2
  refine ⟨t2, _, by unfold partCol; rw [e1]; exact e2, fun k hk => by rw [p2 k, if_pos hk], fun f' hl hh k hk hg => ?_⟩
  exact g.agree W f f' _ hl hh k hk hg

theorem partRow_ok (W : Int → Int) (g : Axis X R a b n sn cas x) (size : Nat) (hs : n ≤ size) (f : Nat → Int) (t : Mem Int)
    (ht : ∀ k < n, (t k).isSome) :
    ∃ (t' : Mem Int) (v : Nat → Int), partRow (fun x => some (W x)) (fun x => some (W x)) size f sn (n - sn) cas n x t = some t' ∧ (∀ k < n, t' k = some (v k)) ∧
      ∀ f' : Nat → Int, (∀ i, x.l0 ≤ i → i < x.l1 → f i = f' i) → (∀ i, x.h0 ≤ i → i < x.h1 → f (sn + i) = f' (sn + i)) →
        ∀ k < n, Gd X a b k → v k = invLine W n cas f' k := by
  have wz : ∀ (t : Mem Int) (i : Nat) (c : Prop) [Decidable c], (c → i < n) → (∀ k < n, (t k).isSome) →
      ∃ t', (if c then wr t i 0 else some t) = some t' ∧ ∀ k < n, (t' k).isSome := by
    intro t i c _ hi ht
    by_cases h : c
    · rw [if_pos h]
      obtain ⟨v, hv⟩ := Option.isSome_iff_exists.mp (ht i (hi h))
      rw [wr_of_some _ _ _ _ hv]
      refine ⟨_, rfl, fun k hk => ?_⟩
      split
      · rfl
      · exact ht k hk
    · rw [if_neg h]; exact ⟨t, rfl, ht⟩
  obtain ⟨t1, e1, p1⟩ := wz t (x.t1 - 1) (1 ≤ x.t1 ∧ x.t1 < n) (by omega) ht
  obtain ⟨t2, e2, p2⟩ := wz t1 x.t1 (x.t1 < n) (by omega) p1
  obtain ⟨t3, v, e3, p3⟩ := partCol_ok W g size hs f t2 p2
  refine ⟨t3, v, ?_, p3⟩
  unfold partRow
  rw [e1]
  simp only [Option.bind_some]
  rw [e2]
  exact e3

end

theorem writeRow_ok (size : Nat) (t : Mem Int) (v : Nat → Int) (j t0 t1 n : Nat) (hn : t1 ≤ n) (hs : n ≤ size)
    (ht : ∀ k < n, t k = some (v k)) (p : Plane) :
    writeRow size t j t0 t1 p = some (fun j' i' => if j' = j ∧ t0 ≤ i' ∧ i' < t1 then v i' else p j' i') := by
  unfold writeRow
  split
  · obtain ⟨p1, e1, q1⟩ := loopM_inv (fun k (p : Plane) => (t (t0 + k)).map fun v j' i' => if j' = j ∧ i' = t0 + k then v else p j' i') (t1 - t0) 0 p
      (fun b p' => p' = fun j' i' => if j' = j ∧ t0 ≤ i' ∧ i' < t0 + b then v i' else p j' i')
      (by funext j' i'; rw [if_neg (by omega)]) (by
        rintro b p' - hb rfl
        rw [ht _ (by omega)]
        refine ⟨_, rfl, ?_⟩
        funext j' i'
        simp only
        by_cases h : j' = j ∧ i' = t0 + b
        · rw [if_pos h, if_pos (by omega), h.2]
        · rw [if_neg h]
          by_cases h2 : j' = j ∧ t0 ≤ i' ∧ i' < t0 + b
          · rw [if_pos h2, if_pos (by omega)]
          · rw [if_neg h2, if_neg (by omega)])
    rw [e1, q1]
    congr 1
    funext j' i'
    by_cases h2 : j' = j ∧ t0 ≤ i' ∧ i' < t1
    · rw [if_pos h2, if_pos (by omega)]
    · rw [if_neg h2, if_neg (by omega)]
  · congr 1
    funext j' i'
    rw [if_neg (by omega)]

theorem writeCol_ok (size : Nat) (t : Mem Int) (v : Nat → Int) (i t0 t1 n : Nat) (hn : t1 ≤ n) (hs : n ≤ size)
    (ht : ∀ k < n, t k = some (v k)) (p : Plane) :
    writeCol size t i t0 t1 p = some (fun j' i' => if i' = i ∧ t0 ≤ j' ∧ j' < t1 then v j' else p j' i') := by
  unfold writeCol
  split
  · obtain ⟨p1, e1, q1⟩ := loopM_inv (fun k (p : Plane) => (t (t0 + k)).map fun v j' i' => if i' = i ∧ j' = t0 + k then v else p j' i') (t1 - t0) 0 p
      (fun b p' => p' = fun j' i' => if i' = i ∧ t0 ≤ j' ∧ j' < t0 + b then v j' else p j' i')
      (by funext j' i'; rw [if_neg (by omega)]) (by
        rintro b p' - hb rfl
        rw [ht _ (by omega)]
        refine ⟨_, rfl, ?_⟩
        funext j' i'
        simp only
        by_cases h : i' = i ∧ j' = t0 + b
        · rw [if_pos h, if_pos (by omega), h.2]
        · rw [if_neg h]
          by_cases h2 : i' = i ∧ t0 ≤ j' ∧ j' < t0 + b
          · rw [if_pos h2, if_pos (by omega)]
          · rw [if_neg h2, if_neg (by omega)])
    rw [e1, q1]
    congr 1
    funext j' i'
    by_cases h2 : i' = i ∧ t0 ≤ j' ∧ j' < t1
    · rw [if_pos h2, if_pos (by omega)]
    · rw [if_neg h2, if_neg (by omega)]
  · congr 1
    funext j' i'
    rw [if_neg (by omega)]

/-- The cells of an axis that a level reads. -/
def Want (sn : Nat) (x : Win) (i : Nat) : Prop := (x.l0 ≤ i ∧ i < x.l1) ∨ (sn + x.h0 ≤ i ∧ i < sn + x.h1)

theorem partLevel_ok (W : Int → Int) (junk : Nat → Nat → Nat → Int) (mx Wd Hd : Nat) (x y : Win) (lo r : Res)
    {ax bx ay by' : Nat} (gx : Axis r.x0 r.x1 ax bx r.w lo.w (r.x0 % 2) x) (gy : Axis r.y0 r.y1 ay by' r.h lo.h (r.y0 % 2) y)
    (hW : r.w ≤ Wd) (hH : r.h ≤ Hd) (hmx : max r.w r.h ≤ mx) (p q : Plane)
    (hin : ∀ j i, Want lo.h y j → Want lo.w x i → p j i = q j i) :
    ∃ p', partLevel (fun x => some (W x)) (fun x => some (W x)) junk mx Wd Hd x y lo r p = some p' ∧
      (∀ j < r.h, ∀ i < r.w, Gd r.x0 ax bx i → Gd r.y0 ay by' j → p' j i = invLevel W r q j i) ∧
      (∀ j i, ¬(j < r.h ∧ i < r.w) → p' j i = p j i) := by
  have hfx : ∀ (g : Nat → Int) k, k < r.w → (fresh g mx k).isSome := fun g k hk => by unfold fresh; rw [if_pos (by omega)]; rfl
  have hfy : ∀ (g : Nat → Int) k, k < r.h → (fresh g mx k).isSome := fun g k hk => by unfold fresh; rw [if_pos (by omega)]; rfl
  have tx := gx.t1_le
  have ty := gy.t1_le
  unfold partLevel
  obtain ⟨p1, e1, a1, a2⟩ := loopM_inv (fun j (p : Plane) =>
    if (y.l0 ≤ j ∧ j < y.l1) ∨ (y.h0 + lo.h ≤ j ∧ j < y.h1 + lo.h) then
      (partRow (fun x => some (W x)) (fun x => some (W x)) Wd (p j) lo.w (r.w - lo.w) (r.x0 % 2) r.w x (fresh (junk 0 j) mx)).bind fun t =>
      writeRow Wd t j x.t0 x.t1 p
    else some p) r.h 0 p
    (fun b p' => (∀ j < b, Want lo.h y j → ∀ i < r.w, Gd r.x0 ax bx i → p' j i = invLine W r.w (r.x0 % 2) (q j) i) ∧
      (∀ j i, ¬(j < b ∧ i < r.w) → p' j i = p j i))
    ⟨fun j hj => by omega, fun _ _ _ => rfl⟩ (by
      rintro b p' - hb ⟨h1, h2⟩
      rw [Nat.zero_add] at hb
      by_cases hw : (y.l0 ≤ b ∧ b < y.l1) ∨ (y.h0 + lo.h ≤ b ∧ b < y.h1 + lo.h)
      · rw [if_pos hw]
        have hwb : Want lo.h y b := by unfold Want; omega
        obtain ⟨t', v, e, hv, ha⟩ := partRow_ok W gx Wd hW (p' b) (fresh (junk 0 b) mx) (hfx _)
        rw [e]
        simp only [Option.bind_some]
        rw [writeRow_ok Wd t' v b x.t0 x.t1 r.w tx hW hv]
        refine ⟨_, rfl, fun j hj hwj i hi hg => ?_, fun j i hji => ?_⟩
        · by_cases hjb : j = b
          · subst hjb
            have := gx.tr i hi hg
            rw [if_pos ⟨rfl, this⟩]
            refine ha (q j) (fun i' l l' => ?_) (fun i' l l' => ?_) i hi hg
            · rw [h2 _ _ (by omega)]; exact hin _ _ hwj (Or.inl ⟨l, l'⟩)
            · rw [h2 _ _ (by omega)]; exact hin _ _ hwj (Or.inr ⟨by omega, by omega⟩)
          · rw [if_neg (by omega)]; exact h1 j (by omega) hwj i hi hg
        · rw [if_neg (by omega)]; exact h2 j i (by omega)
      · rw [if_neg hw]
        refine ⟨p', rfl, fun j hj hwj i hi hg => ?_, fun j i hji => h2 j i (by omega)⟩
        have : j ≠ b := by rintro rfl; unfold Want at hwj; omega
        exact h1 j (by omega) hwj i hi hg)
  rw [e1]
  simp only [Option.bind_some, Nat.zero_add] at a1 a2 ⊢
  obtain ⟨p2, e2, b1, b2⟩ := loopM_inv (fun i (p : Plane) =>
    (partCol (fun x => some (W x)) Hd (fun j => p j i) lo.h (r.h - lo.h) (r.y0 % 2) y (fresh (junk 1 i) mx)).bind fun t =>
    writeCol Hd t i y.t0 y.t1 p) (x.t1 - x.t0) x.t0 p1
    (fun b p' => (∀ i, x.t0 ≤ i → i < b → Gd r.x0 ax bx i → ∀ j < r.h, Gd r.y0 ay by' j → p' j i = invLevel W r q j i) ∧
      (∀ j i, ¬(j < r.h ∧ x.t0 ≤ i ∧ i < b) → p' j i = p1 j i))
    ⟨fun i hi hi' => by omega, fun _ _ _ => rfl⟩ (by
      rintro b p' hb0 hb ⟨h1, h2⟩
      obtain ⟨t', v, e, hv, ha⟩ := partCol_ok W gy Hd hH (fun j => p' j b) (fresh (junk 1 b) mx) (hfy _)
      rw [e]
      simp only [Option.bind_some]
      rw [writeCol_ok Hd t' v b y.t0 y.t1 r.h ty hH hv]
      refine ⟨_, rfl, fun i hi0 hi hg j hj hgj => ?_, fun j i hji => ?_⟩
      · by_cases hib : i = b
        · subst hib
          have := gy.tr j hj hgj
          rw [if_pos ⟨rfl, this⟩]
          have l1 := gy.l1_le
          have l2 := gy.h1_le
          refine ha (fun j' => invLine W r.w (r.x0 % 2) (q j') i) (fun j' l l' => ?_) (fun j' l l' => ?_) j hj hgj
          · have hsn := lowCount_le r.h (r.y0 % 2)
            rw [← gy.hsn] at hsn
            rw [h2 _ _ (by omega)]; exact a1 _ (by omega) (Or.inl ⟨l, l'⟩) i (by omega) hg
          · rw [h2 _ _ (by omega)]; exact a1 _ (by omega) (Or.inr ⟨by omega, by omega⟩) i (by omega) hg
        · rw [if_neg (by omega)]; exact h1 i hi0 (by omega) hg j hj hgj
      · rw [if_neg (by omega)]; exact h2 j i (by omega))
  refine ⟨p2, e2, fun j hj i hi hgx hgy => ?_, fun j i hji => ?_⟩
  · have := gx.tr i hi hgx
    exact b1 i this.1 (by omega) hgx j hj hgy
  · rw [b2 j i (by omega), a2 j i hji]

end Jp2.Dwt

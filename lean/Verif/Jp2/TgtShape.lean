import Verif.Jp2.TgtSpec
import Verif.Jp2.TgtLemmas2
/-!
# Helper lemmas: the shape built by `create`
-/
namespace Jp2.Tgt
open Jp2.Bio

/-! ## Sizes -/

theorem across_zero (n : Nat) : across n 0 = n := by simp [across]

theorem across_succ (n l : Nat) : across n (l + 1) = across ((n + 1) / 2) l := by
  unfold across
  have hp : 0 < 2 ^ l := Nat.two_pow_pos l
  rw [Nat.pow_succ, Nat.mul_comm, ← Nat.div_div_eq_div_mul]
  congr 1
  omega

theorem across_succ' (n l : Nat) : across n (l + 1) = (across n l + 1) / 2 := by
  induction l generalizing n with
  | zero => rw [across_succ, across_zero, across_zero]
  | succ l ih => rw [across_succ, ih, ← across_succ]

theorem across_pos (n l : Nat) (h : 0 < n) : 0 < across n l := by
  induction l generalizing n with
  | zero => rw [across_zero]; exact h
  | succ l ih => rw [across_succ]; exact ih _ (by omega)

theorem below_zero (w h : Nat) : below w h 0 = 0 := rfl

theorem below_succ (w h l : Nat) : below w h (l + 1) = w * h + below ((w + 1) / 2) ((h + 1) / 2) l := by
  unfold below
  rw [List.range_succ_eq_map, List.map_cons, List.sum_cons, across_zero, across_zero, List.map_map]
  congr 2
  apply List.map_congr_left
  intro i _
  simp only [Function.comp, Nat.succ_eq_add_one, across_succ]

theorem below_succ' (w h l : Nat) : below w h (l + 1) = below w h l + across w l * across h l := by
  unfold below
  rw [List.range_succ, List.map_append, List.sum_append]; simp

theorem below_mono (w h : Nat) {a b : Nat} (hab : a ≤ b) : below w h a ≤ below w h b := by
  obtain ⟨k, rfl⟩ := Nat.exists_eq_add_of_le hab
  induction k with
  | zero => simp
  | succ k ih => rw [show a + (k + 1) = a + k + 1 by omega, below_succ']; have := ih (by omega); omega

/-! ## One row -/

/-- Give the nodes in `[a, b)` the parents `f`. -/
def relink (t : Mem Node) (a b : Nat) (f : Nat → Nat) : Mem Node :=
  fun i => if a ≤ i ∧ i < b then (t i).map fun nd => { nd with parent := some (f i) } else t i

theorem setParent_eq (t : Mem Node) (i p : Nat) (h : (t i).isSome) :
    setParent t i p = some (relink t i (i + 1) (fun _ => p)) := by
  obtain ⟨nd, hi⟩ := Option.isSome_iff_exists.mp h
  unfold setParent
  rw [hi]
  simp only [Option.bind_some]
  rw [wr_eq_upd t i _ nd hi]
  congr 1
  funext k
  unfold upd relink
  by_cases e : k = i
  · subst e; rw [if_pos rfl, if_pos (by omega), hi]; rfl
  · rw [if_neg e, if_neg (by omega)]

theorem relink_isSome (t : Mem Node) (a b : Nat) (f : Nat → Nat) (i : Nat) : (relink t a b f i).isSome = (t i).isSome := by
  unfold relink
  split
  · cases t i <;> rfl
  · rfl

theorem relink_relink (t : Mem Node) (a b c : Nat) (f g h : Nat → Nat) (hab : a ≤ b) (hbc : b ≤ c)
    (hf : ∀ i, a ≤ i → i < b → h i = f i) (hg : ∀ i, b ≤ i → i < c → h i = g i) :
    relink (relink t a b f) b c g = relink t a c h := by
  funext i
  unfold relink
  by_cases h1 : a ≤ i ∧ i < b
  · rw [if_neg (by omega), if_pos h1, if_pos (by omega), hf i h1.1 h1.2]
  · by_cases h2 : b ≤ i ∧ i < c
    · rw [if_pos h2, if_neg h1, if_pos (by omega), hg i h2.1 h2.2]
    · rw [if_neg h2, if_neg h1, if_neg (by omega)]

theorem relink_empty (t : Mem Node) (a : Nat) (f : Nat → Nat) : relink t a a f = t := by
  funext i; unfold relink; rw [if_neg (by omega)]

theorem linkRow_eq (k : Nat) (t : Mem Node) (node par : Nat) (h : ∀ i, node ≤ i → i < node + k → (t i).isSome) :
    linkRow k t node par =
      some (relink t node (node + k) (fun i => par + (i - node) / 2), node + k, par + (k + 1) / 2) := by
  induction k using Nat.strongRecOn generalizing t node par with
  | _ k ih =>
    match k, ih with
    | 0, _ => simp [linkRow, relink_empty]
    | 1, _ =>
      simp only [linkRow]
      rw [setParent_eq _ _ _ (h node (by omega) (by omega))]
      have e : relink t node (node + 1) (fun _ => par) = relink t node (node + 1) (fun i => par + (i - node) / 2) := by
        funext i; unfold relink
        by_cases hi : node ≤ i ∧ i < node + 1
        · rw [if_pos hi, if_pos hi]
          simp only
          rw [show (i - node) / 2 = 0 by omega]; rfl
        · rw [if_neg hi, if_neg hi]
      rw [e]; rfl
    | k + 2, ih =>
      simp only [linkRow]
      rw [setParent_eq _ _ _ (h node (by omega) (by omega))]
      simp only [Option.bind_some]
      rw [setParent_eq _ _ _ (by rw [relink_isSome]; exact h (node + 1) (by omega) (by omega))]
      simp only [Option.bind_some]
      rw [ih k (by omega) _ _ _ (fun i h1 h2 => by
        rw [relink_isSome, relink_isSome]; exact h i (by omega) (by omega))]
      simp only [Option.some.injEq, Prod.mk.injEq]
      refine ⟨?_, by omega, by omega⟩
      rw [relink_relink t node (node + 1) (node + 1 + 1) _ _ (fun _ => par) (by omega) (by omega) (by simp) (by simp)]
      rw [show node + 1 + 1 = node + 2 by omega, show node + 2 + k = node + (k + 2) by omega]
      apply relink_relink _ _ _ _ _ _ _ (by omega) (by omega)
      · intro i h1 h2; rw [show (i - node) / 2 = 0 by omega]; rfl
      · intro i h1 h2; omega

/-! ## One level -/

theorem linkRows_eq (w h : Nat) (hw : 0 < w) (k j : Nat) (hk : j + k = h) (t : Mem Node) (N P par par0 : Nat)
    (hp : 0 < k → par = P + (j / 2) * ((w + 1) / 2))
    (hp0 : 0 < k → j % 2 = 0 → par0 = par)
    (hend : k = 0 → par = P + ((h + 1) / 2) * ((w + 1) / 2) ∧ par0 = par)
    (hs : ∀ i, N + j * w ≤ i → i < N + h * w → (t i).isSome) :
    linkRows w h k j t (N + j * w) par par0 =
      some (relink t (N + j * w) (N + h * w) (fun i => P + ((i - N) / w / 2) * ((w + 1) / 2) + ((i - N) % w) / 2),
        N + h * w, P + ((h + 1) / 2) * ((w + 1) / 2), P + ((h + 1) / 2) * ((w + 1) / 2)) := by
  induction k generalizing j t par par0 with
  | zero =>
    obtain ⟨e1, e2⟩ := hend rfl
    have : j = h := by omega
    subst this
    simp only [linkRows, relink_empty]
    rw [e2, e1]
  | succ k ih =>
    have hpar := hp (by omega)
    have hpar0 := hp0 (by omega)
    have hjw : (j + 1) * w ≤ h * w := Nat.mul_le_mul_right w (by omega)
    rw [Nat.succ_mul] at hjw
    simp only [linkRows]
    rw [linkRow_eq w t _ par (fun i h1 h2 => hs i h1 (by omega))]
    simp only [Option.bind_some]
    have hnode : N + j * w + w = N + (j + 1) * w := by rw [Nat.succ_mul]; omega
    have hcomb : ∀ (f : Nat → Nat), (∀ i, f i = P + ((i - N) / w / 2) * ((w + 1) / 2) + ((i - N) % w) / 2) →
        relink (relink t (N + j * w) (N + (j + 1) * w) (fun i => par + (i - (N + j * w)) / 2)) (N + (j + 1) * w) (N + h * w) f
        = relink t (N + j * w) (N + h * w) f := by
      intro f hf
      apply relink_relink _ _ _ _ _ _ _ (by omega) (by omega)
      · intro i h1 h2
        rw [hf]
        have e1 : (i - N) / w = j := by
          apply Nat.div_eq_of_lt_le
          · omega
          · omega
        have e2 : (i - N) % w = i - (N + j * w) := by
          have := Nat.div_add_mod (i - N) w
          rw [e1, Nat.mul_comm] at this; omega
        rw [e1, e2, hpar]
      · intros; rfl
    by_cases hc : j % 2 = 1 ∨ j = h - 1
    · rw [if_pos hc, hnode]
      rw [ih (j + 1) (by omega) _ _ _]
      · rw [hcomb _ (fun _ => rfl)]
      · intro h0
        have : (j + 1) / 2 = j / 2 + 1 := by omega
        rw [this, Nat.succ_mul, hpar]; omega
      · intros; rfl
      · intro h0
        have : (h + 1) / 2 = j / 2 + 1 := by omega
        rw [this, Nat.succ_mul, hpar]
        exact ⟨by omega, rfl⟩
      · intro i h1 h2; rw [relink_isSome]; exact hs i (by omega) h2
    · rw [if_neg hc, hnode]
      rw [ih (j + 1) (by omega) _ _ _]
      · rw [hcomb _ (fun _ => rfl)]
      · intro h0
        rw [hpar0 (by omega), hpar, show (j + 1) / 2 = j / 2 by omega]
      · intro h0 h1; omega
      · intro h0; omega
      · intro i h1 h2; rw [relink_isSome]; exact hs i (by omega) h2

/-! ## All levels -/

/-- The levels of a tree of depth `L + 1`. -/
def levList (w h : Nat) : Nat → List (Nat × Nat)
  | 0 => [(w, h)]
  | L + 1 => (w, h) :: levList ((w + 1) / 2) ((h + 1) / 2) L

structure Linked (w h L N : Nat) (t t' : Mem Node) : Prop where
  outside : ∀ i, i < N ∨ N + below w h L ≤ i → t' i = t i
  dom : ∀ i, (t' i).isSome = (t i).isSome
  inside : ∀ l x y, l < L → x < across w l → y < across h l →
    (t' (N + nodeAt w h l x y)).map (·.parent) = some (some (N + nodeAt w h (l + 1) (x / 2) (y / 2)))
  up : ∀ i nd, N ≤ i → i < N + below w h L → t' i = some nd →
    ∃ p, nd.parent = some p ∧ i < p ∧ N + w * h ≤ p ∧ p ≤ N + below w h L

theorem isDepth_succ (w h L : Nat) (hd : IsDepth w h (L + 2)) : IsDepth ((w + 1) / 2) ((h + 1) / 2) (L + 1) := by
  obtain ⟨_, h1, h2⟩ := hd
  refine ⟨by omega, ?_, fun l hl => ?_⟩
  · rw [← across_succ, ← across_succ]; exact h1
  · rw [← across_succ, ← across_succ]; exact h2 (l + 1) (by omega)

theorem linkLevels_eq (L : Nat) (w h : Nat) (hw : 0 < w) (hh : 0 < h) (hd : IsDepth w h (L + 1)) (t : Mem Node) (N : Nat)
    (hs : ∀ i, N ≤ i → i < N + below w h L → (t i).isSome) :
    ∃ t', linkLevels (levList w h L) t N (N + w * h) (N + w * h) = some (t', N + below w h L) ∧
      Linked w h L N t t' := by
  induction L generalizing w h t N with
  | zero =>
    refine ⟨t, rfl, fun _ _ => rfl, fun _ => rfl, fun l x y hl => by omega, fun i nd h1 h2 => ?_⟩
    rw [below_zero] at h2; omega
  | succ L ih =>
    rw [below_succ] at hs
    have hrow := linkRows_eq w h hw h 0 (by omega) t N (N + w * h) (N + w * h) (N + w * h) (by simp) (by simp)
      (by omega) (fun i h1 h2 => hs i (by omega) (by rw [Nat.mul_comm h w] at h2; omega))
    rw [Nat.zero_mul, Nat.add_zero] at hrow
    obtain ⟨t1, ht1⟩ : ∃ t1, t1 = relink t N (N + h * w)
      (fun i => N + w * h + ((i - N) / w / 2) * ((w + 1) / 2) + ((i - N) % w) / 2) := ⟨_, rfl⟩
    rw [← ht1] at hrow
    have hd1 : ∀ i, (t1 i).isSome = (t i).isSome := fun i => by rw [ht1, relink_isSome]
    obtain ⟨t', g1, g2⟩ := ih ((w + 1) / 2) ((h + 1) / 2) (by omega) (by omega) (isDepth_succ w h L hd) t1 (N + w * h)
      (fun i h1 h2 => by rw [hd1]; exact hs i (by omega) (by omega))
    have hcomm : (h + 1) / 2 * ((w + 1) / 2) = (w + 1) / 2 * ((h + 1) / 2) := Nat.mul_comm _ _
    refine ⟨t', ?_, ?_, ?_, ?_, ?_⟩
    · have : linkLevels (levList w h (L + 1)) t N (N + w * h) (N + w * h) =
          (linkRows w h h 0 t N (N + w * h) (N + w * h)).bind fun (t, node, par, par0) =>
            linkLevels (levList ((w + 1) / 2) ((h + 1) / 2) L) t node par par0 := by
        cases L <;> rfl
      rw [this, hrow]
      simp only [Option.bind_some]
      rw [hcomm, Nat.mul_comm h w, g1, below_succ, Nat.add_assoc]
    · intro i hi
      rw [below_succ] at hi
      by_cases h1 : i < N + w * h
      · rw [g2.outside i (Or.inl h1), ht1]
        unfold relink
        rw [if_neg (by rw [Nat.mul_comm h w]; omega)]
      · rw [g2.outside i (Or.inr (by omega)), ht1]
        unfold relink
        rw [if_neg (by rw [Nat.mul_comm h w]; omega)]
    · intro i; rw [g2.dom, hd1]
    · intro l x y hl hx hy
      cases l with
      | zero =>
        rw [across_zero] at hx hy
        have e0 : nodeAt w h 0 x y = y * w + x := by unfold nodeAt; rw [below_zero, across_zero]; omega
        have e1 : nodeAt w h 1 (x / 2) (y / 2) = w * h + y / 2 * ((w + 1) / 2) + x / 2 := by
          unfold nodeAt; rw [below_succ, below_zero, across_succ, across_zero]; omega
        have hlt : y * w + x < w * h := by
          have : (y + 1) * w ≤ h * w := Nat.mul_le_mul_right w (by omega)
          rw [Nat.succ_mul, Nat.mul_comm h w] at this; omega
        rw [e0, e1, g2.outside _ (Or.inl (by omega)), ht1]
        unfold relink
        rw [if_pos (by rw [Nat.mul_comm h w]; omega)]
        obtain ⟨nd, hnd⟩ := Option.isSome_iff_exists.mp (hs (N + (y * w + x)) (by omega) (by omega))
        rw [hnd]
        simp only [Option.map_some, Option.some.injEq]
        rw [show N + (y * w + x) - N = y * w + x by omega]
        have e3 : (y * w + x) / w = y := Nat.div_eq_of_lt_le (by omega) (by rw [Nat.succ_mul]; omega)
        have e4 : (y * w + x) % w = x := by
          have := Nat.div_add_mod (y * w + x) w
          rw [e3, Nat.mul_comm] at this; omega
        rw [e3, e4]; omega
      | succ l =>
        have key : ∀ l x y, N + nodeAt w h (l + 1) x y = N + w * h + nodeAt ((w + 1) / 2) ((h + 1) / 2) l x y := by
          intro l x y
          unfold nodeAt; rw [below_succ, across_succ]; omega
        rw [across_succ] at hx hy
        rw [key, key]
        exact g2.inside l x y (by omega) hx hy
    · intro i nd h1 h2 hnd
      rw [below_succ] at h2 ⊢
      by_cases h3 : i < N + w * h
      · rw [g2.outside i (Or.inl h3), ht1] at hnd
        unfold relink at hnd
        rw [if_pos (by rw [Nat.mul_comm h w]; omega)] at hnd
        simp only [Option.map_eq_some_iff] at hnd
        obtain ⟨nd0, _, rfl⟩ := hnd
        refine ⟨_, rfl, by omega, by omega, ?_⟩
        -- the parent lies on the next level
        have hy : (i - N) / w < h := by
          apply Nat.div_lt_of_lt_mul; omega
        have hx : (i - N) % w < w := Nat.mod_lt _ hw
        have hyy : (i - N) / w / 2 + 1 ≤ (h + 1) / 2 := by omega
        have hm := Nat.mul_le_mul_right ((w + 1) / 2) hyy
        rw [Nat.succ_mul, hcomm] at hm
        have hb : (w + 1) / 2 * ((h + 1) / 2) ≤ below ((w + 1) / 2) ((h + 1) / 2) L + 1 := by
          cases L with
          | zero =>
            have := (isDepth_succ w h 0 hd).2.1
            simp only [Nat.zero_add, Nat.sub_self, across_zero] at this
            omega
          | succ L => rw [below_succ]; omega
        omega
      · obtain ⟨p, k1, k2, k3, k4⟩ := g2.up i nd (by omega) (by omega) hnd
        exact ⟨p, k1, k2, by omega, by omega⟩

/-! ## `create` -/

theorem levels_eq (m : Mode) (j w h : Nat) (hw : 0 < w) (hh : 0 < h) (hwj : w ≤ 2 ^ j) (hhj : h ≤ 2 ^ j)
    (hp : w * h < 2 ^ 31) : ∃ L, L ≤ j ∧ levels m (j + 1) w h = some (levList w h L) ∧ IsDepth w h (L + 1) := by
  induction j generalizing w h with
  | zero =>
    have : w = 1 := by simp at hwj; omega
    have : h = 1 := by simp at hhj; omega
    subst_vars
    refine ⟨0, by omega, ?_, by omega, by simp [across], by intro l hl; omega⟩
    simp only [levels]
    rw [ar_of_I32 m _ (by unfold I32; omega)]; rfl
  | succ j ih =>
    have hpos : 0 < w * h := Nat.mul_pos hw hh
    have har : ar m (w * h : Int) = some (w * h : Int) := by
      apply ar_of_I32; unfold I32
      have : ((w * h : Nat) : Int) < 2 ^ 31 := by exact_mod_cast hp
      rw [Nat.cast_mul] at this
      have h0 : (0 : Int) ≤ (w : Int) * h := by exact_mod_cast Nat.zero_le (w * h)
      omega
    have hmod : ((w * h : Int) % 2 ^ 32).toNat = w * h := by
      have : ((w : Int) * h) = ((w * h : Nat) : Int) := by push_cast; rfl
      rw [this]; omega
    by_cases h1 : w * h ≤ 1
    · refine ⟨0, by omega, ?_, by omega, ?_, by intro l hl; omega⟩
      · simp only [levels]
        rw [har]
        simp only [Option.bind_some]
        rw [hmod, if_pos h1]; rfl
      · simp only [Nat.zero_add, Nat.sub_self, across_zero]; omega
    · have hle : (w + 1) / 2 * ((h + 1) / 2) ≤ w * h := Nat.mul_le_mul (by omega) (by omega)
      rw [Nat.pow_succ] at hwj hhj
      obtain ⟨L, g1, g2, g3⟩ := ih ((w + 1) / 2) ((h + 1) / 2) (by omega) (by omega) (by omega) (by omega) (by omega)
      refine ⟨L + 1, by omega, ?_, by omega, ?_, ?_⟩
      · rw [levels, har]
        simp only [Option.bind_some]
        rw [hmod, if_neg h1, g2]; rfl
      · have := g3.2.1
        rw [← across_succ, ← across_succ] at this; exact this
      · intro l hl
        cases l with
        | zero => rw [across_zero, across_zero]; omega
        | succ l => rw [across_succ, across_succ]; exact g3.2.2 l (by omega)

theorem levList_sum (w h L : Nat) : ((levList w h L).map fun p => p.1 * p.2).sum = below w h (L + 1) := by
  induction L generalizing w h with
  | zero => simp [levList, below_succ, below_zero]
  | succ L ih => rw [below_succ, ← ih]; simp [levList]

theorem below_le (w h L : Nat) (hw : 0 < w) (hh : 0 < h) : below w h (L + 1) ≤ 2 * (w * h) + L := by
  induction L generalizing w h with
  | zero => rw [below_succ, below_zero]; omega
  | succ L ih =>
    rw [below_succ]
    have := ih ((w + 1) / 2) ((h + 1) / 2) (by omega) (by omega)
    have h2 : 2 * ((w + 1) / 2 * ((h + 1) / 2)) ≤ w * h + 1 := by
      have a : (2 * ((w + 1) / 2)) * (2 * ((h + 1) / 2)) ≤ (w + 1) * (h + 1) :=
        Nat.mul_le_mul (by omega) (by omega)
      have b : w + h ≤ w * h + 1 := by
        clear a this ih
        obtain ⟨p, rfl⟩ : ∃ p, w = p + 1 := ⟨w - 1, by omega⟩
        obtain ⟨q, rfl⟩ : ∃ q, h = q + 1 := ⟨h - 1, by omega⟩
        have : (p + 1) * (q + 1) = p * q + p + q + 1 := by ring
        rw [this]
        have : 0 ≤ p * q := Nat.zero_le _
        omega
      have c : (2 * ((w + 1) / 2)) * (2 * ((h + 1) / 2)) = 4 * ((w + 1) / 2 * ((h + 1) / 2)) := by ring
      have d : (w + 1) * (h + 1) = w * h + w + h + 1 := by ring
      rw [c, d] at a
      omega
    omega

theorem reset_eq (n : Nat) (t : Mem Node) (h : ∀ i, i < n → (t i).isSome) :
    ∃ t', reset n t = some t' ∧
      ∀ i, t' i = if i < n then (t i).map fun nd => { nd with value := 999, low := 0, known := false } else t i := by
  obtain ⟨t', h1, h2⟩ := loopM_inv
    (fun i t => (t i).bind fun nd => wr t i { nd with value := 999, low := 0, known := false }) n 0 t
    (fun k u => ∀ i, u i = if i < k then (t i).map fun nd => { nd with value := 999, low := 0, known := false } else t i)
    (by intro i; rw [if_neg (by omega)])
    (by
      intro k u _ hk hu
      obtain ⟨nd, hnd⟩ := Option.isSome_iff_exists.mp (h k (by omega))
      have huk : u k = some nd := by rw [hu, if_neg (by omega)]; exact hnd
      refine ⟨_, by rw [huk]; simp only [Option.bind_some]; exact wr_eq_upd u k _ nd huk, ?_⟩
      intro i
      unfold upd
      by_cases e : i = k
      · subst e; rw [if_pos rfl, if_pos (by omega), hnd]; rfl
      · rw [if_neg e, hu]
        by_cases h1 : i < k
        · rw [if_pos h1, if_pos (by omega)]
        · rw [if_neg h1, if_neg (by omega)])
  rw [Nat.zero_add] at h2
  exact ⟨t', h1, h2⟩

/-- What `create` yields. -/
structure Shape (w h L n : Nat) (t : Mem Node) : Prop where
  depth : IsDepth w h L
  le31 : L ≤ 31
  count : n = below w h L
  dom : ∀ i, (t i).isSome ↔ i < n
  inside : ∀ l x y, l + 1 < L → x < across w l → y < across h l →
    (t (nodeAt w h l x y)).map (·.parent) = some (some (nodeAt w h (l + 1) (x / 2) (y / 2)))
  root : (t (nodeAt w h (L - 1) 0 0)).map (·.parent) = some none
  up : ∀ i nd, t i = some nd → nd.parent = none ∨ ∃ p, nd.parent = some p ∧ i < p ∧ w * h ≤ p ∧ p < n

theorem create_eq (m : Mode) (w h : Nat) (hw : 0 < w) (hh : 0 < h) (hp : w * h ≤ 2 ^ 30) :
    ∃ L n t, create m w h = some (some (n, t)) ∧ Shape w h L n t ∧
      (∀ i nd, t i = some nd → nd.value = 999 ∧ nd.low = 0 ∧ nd.known = false) := by
  have hw2 : w ≤ 2 ^ 30 := by
    have : w * 1 ≤ w * h := Nat.mul_le_mul_left w hh
    omega
  have hh2 : h ≤ 2 ^ 30 := by
    have : 1 * h ≤ w * h := Nat.mul_le_mul_right h hw
    omega
  obtain ⟨L, g1, g2, g3⟩ := levels_eq m 30 w h hw hh hw2 hh2 (by omega)
  have hpos : 0 < w * h := Nat.mul_pos hw hh
  have hbl := below_le w h L hw hh
  have hsucc : below w h (L + 1) = below w h L + 1 := by
    have := g3.2.1
    simp only [Nat.add_sub_cancel] at this
    rw [below_succ', this]
  have hn : below w h (L + 1) % 2 ^ 32 = below w h (L + 1) := Nat.mod_eq_of_lt (by omega)
  have hcal : ∀ n i, ((calloc n) i).isSome ↔ i < n := by
    intro n i; unfold calloc; split <;> simp [*]
  obtain ⟨t1, k1, k2⟩ := linkLevels_eq L w h hw hh g3 (calloc (below w h (L + 1))) 0
    (fun i _ h2 => by rw [hcal]; omega)
  simp only [Nat.zero_add] at k1 k2
  have hroot : (t1 (below w h L)).isSome := by rw [k2.dom, hcal]; omega
  obtain ⟨nr, hnr⟩ := Option.isSome_iff_exists.mp hroot
  have hd2 : ∀ i, (upd t1 (below w h L) { nr with parent := none } i).isSome ↔ i < below w h (L + 1) := by
    intro i
    unfold upd
    split
    · simp; omega
    · rw [k2.dom, hcal]
  obtain ⟨t2, q1, q2⟩ := reset_eq (below w h (L + 1)) (upd t1 (below w h L) { nr with parent := none })
    (fun i hi => (hd2 i).mpr hi)
  have hmap : ∀ i, (t2 i).map (·.parent) = (upd t1 (below w h L) { nr with parent := none } i).map (·.parent) := by
    intro i
    rw [q2]
    split
    · rw [Option.map_map]; rfl
    · rfl
  have hdom2 : ∀ i, (t2 i).isSome ↔ i < below w h (L + 1) := by
    intro i
    rw [← hd2 i, q2]
    split
    · rw [Option.isSome_map]
    · rfl
  refine ⟨L + 1, below w h (L + 1), t2, ?_, ?_, ?_⟩
  · unfold create
    rw [g2]
    simp only [Option.bind_some, levList_sum]
    rw [hn, if_neg (by omega), show w * h % 2 ^ 32 = w * h from Nat.mod_eq_of_lt (by omega), k1]
    simp only [Option.bind_some, hnr]
    rw [wr_eq_upd t1 _ _ nr hnr]
    simp only [Option.bind_some, q1, Option.map_some]
  · constructor
    · exact g3
    · omega
    · rfl
    · exact hdom2
    · intro l x y hl hx hy
      have hlt : nodeAt w h l x y < below w h L := by
        unfold nodeAt
        have : (y + 1) * across w l ≤ across h l * across w l := Nat.mul_le_mul_right _ (by omega)
        rw [Nat.succ_mul, Nat.mul_comm (across h l)] at this
        have h3 := below_succ' w h l
        have h4 := below_mono w h (show l + 1 ≤ L by omega)
        omega
      have := k2.inside l x y (by omega) hx hy
      simp only [Nat.zero_add] at this
      rw [hmap]
      unfold upd; rw [if_neg (by omega)]; exact this
    · have : nodeAt w h (L + 1 - 1) 0 0 = below w h L := by simp [nodeAt]
      rw [this, hmap]; simp [upd]
    · intro i nd hi
      have hlt := (hdom2 i).mp (by rw [hi]; rfl)
      have hm := hmap i
      rw [hi] at hm
      unfold upd at hm
      split at hm
      · left; simpa using hm
      · right
        rename_i hne
        obtain ⟨x, hx⟩ := Option.isSome_iff_exists.mp (show (t1 i).isSome by rw [k2.dom, hcal]; omega)
        obtain ⟨p, p1, p2, p3, p4⟩ := k2.up i x (by omega) (by omega) hx
        rw [hx] at hm
        simp only [Option.map_some, Option.some.injEq] at hm
        exact ⟨p, by rw [hm]; exact p1, p2, by omega, by omega⟩
  · intro i nd hi
    rw [q2] at hi
    split at hi
    · simp only [Option.map_eq_some_iff] at hi
      obtain ⟨x, _, rfl⟩ := hi
      exact ⟨rfl, rfl, rfl⟩
    · rename_i hne
      have : ¬ (upd t1 (below w h L) { nr with parent := none } i).isSome := by rw [hd2]; exact hne
      rw [hi] at this; simp at this

/-! ## Every leaf reaches the root -/

theorem half_lt (n l x : Nat) (h : x < across n l) : x / 2 < across n (l + 1) := by
  rw [across_succ']; omega

theorem climb_shape (w h L n : Nat) (t : Mem Node) (hs : Shape w h L n t) (k l x y : Nat) (hk : l + k + 1 = L)
    (hx : x < across w l) (hy : y < across h l) (room : Nat) (hr : k ≤ room) (stk : List Nat) :
    climb t room (nodeAt w h l x y) stk =
      some (nodeAt w h (L - 1) 0 0,
        ((List.range k).map fun j => nodeAt w h (l + j) (x / 2 ^ j) (y / 2 ^ j)).reverse ++ stk) := by
  induction k generalizing l x y room stk with
  | zero =>
    have hl : L - 1 = l := by omega
    have h1 := hs.depth.2.1
    rw [hl] at h1
    have h2 : across w l = 1 ∧ across h l = 1 := ⟨Nat.eq_one_of_mul_eq_one_right h1, Nat.eq_one_of_mul_eq_one_left h1⟩
    have hx0 : x = 0 := by omega
    have hy0 : y = 0 := by omega
    subst hx0 hy0
    have hroot := hs.root
    rw [hl] at hroot ⊢
    simp only [Option.map_eq_some_iff] at hroot
    obtain ⟨nd, n1, n2⟩ := hroot
    unfold climb
    rw [n1]; simp only [Option.bind_some, n2]; rfl
  | succ k ih =>
    have hin := hs.inside l x y (by omega) hx hy
    simp only [Option.map_eq_some_iff] at hin
    obtain ⟨nd, n1, n2⟩ := hin
    obtain ⟨r, rfl⟩ : ∃ r, room = r + 1 := ⟨room - 1, by omega⟩
    unfold climb
    rw [n1]; simp only [Option.bind_some, n2]
    rw [ih (l + 1) (x / 2) (y / 2) (by omega) (half_lt w l x hx) (half_lt h l y hy) r (by omega)]
    congr 2
    rw [List.range_succ_eq_map, List.map_cons, List.reverse_cons, List.map_map]
    simp only [Nat.add_zero, Nat.pow_zero, Nat.div_one, List.append_assoc, List.cons_append, List.nil_append]
    congr 2
    apply List.map_congr_left
    intro j _
    simp only [Function.comp, Nat.succ_eq_add_one]
    rw [Nat.pow_succ', ← Nat.div_div_eq_div_mul, ← Nat.div_div_eq_div_mul]
    congr 1; omega

theorem shape_reaches (w h L n : Nat) (t : Mem Node) (hs : Shape w h L n t) (hw : 0 < w) (leaf : Nat) (hl : leaf < w * h) :
    Reaches t leaf := by
  have hL := hs.depth.1
  have h31 := hs.le31
  have e : leaf = nodeAt w h 0 (leaf % w) (leaf / w) := by
    unfold nodeAt; rw [below_zero, across_zero]
    have := Nat.div_add_mod leaf w
    rw [Nat.mul_comm] at this; omega
  have := climb_shape w h L n t hs (L - 1) 0 (leaf % w) (leaf / w) (by omega) (by rw [across_zero]; exact Nat.mod_lt _ hw)
    (by rw [across_zero]; exact Nat.div_lt_of_lt_mul hl) 31 (by omega) []
  rw [← e] at this
  exact ⟨_, _, this⟩

end Jp2.Tgt

import Verif.Jp2.SparseLemmas
import Mathlib.Tactic.ByContra
import Mathlib.Tactic.Tauto
/-!
# The block loops of sparse arrays
-/
namespace Jp2.Sparse

/-- Cells `x ≤ X < x'`, `y ≤ Y < y'`. -/
def Rect (x x' y y' : Nat) (X Y : Nat) : Prop := x ≤ X ∧ X < x' ∧ y ≤ Y ∧ Y < y'

def Or2 (S T : Nat → Nat → Prop) : Nat → Nat → Prop := fun X Y => S X Y ∨ T X Y

theorem span {x bw k x1 : Nat} (hbw : 0 < bw) (hk : k < min (bw - x % bw) (x1 - x)) : (x + k) / bw = x / bw ∧ (x + k) % bw = x % bw + k ∧ x + k < x1 := by
  have h1 : k < bw - x % bw := lt_of_lt_of_le hk (min_le_left _ _)
  have h2 : k < x1 - x := lt_of_lt_of_le hk (min_le_right _ _)
  have h3 := Nat.div_add_mod x bw
  have h4 := Nat.mod_lt x hbw
  have h6 : x % bw + k < bw := by omega
  obtain ⟨q, hq⟩ : ∃ q, q = x / bw := ⟨_, rfl⟩
  obtain ⟨r, hr⟩ : ∃ r, r = x % bw := ⟨_, rfl⟩
  rw [← hq, ← hr] at h3 ⊢
  rw [← hr] at h6
  have h5 : x + k = bw * q + (r + k) := by omega
  refine ⟨?_, ?_, by omega⟩
  · rw [h5, Nat.mul_add_div hbw, Nat.div_eq_of_lt h6, Nat.add_zero]
  · rw [h5, Nat.mul_add_mod, Nat.mod_eq_of_lt h6]

/-- The loops, for any step that handles one rectangle within a block. -/
theorem loops (rd : Bool) (x0 y0 x1 y1 cs ls bw bh : Nat) (hbw : 0 < bw) (hbh : 0 < bh) (Inv : (Nat → Nat → Prop) → Sa × Mem Int → Prop)
    (hdim : ∀ S st, Inv S st → st.1.bw = bw ∧ st.1.bh = bh)
    (hstep : ∀ S st x y xi yi, Inv S st → x0 ≤ x → x < x1 → y0 ≤ y → y < y1 → xi = min (bw - x % bw) (x1 - x) → yi = min (bh - y % bh) (y1 - y) →
      ∃ st', step rd x0 y0 x y (x / bw) (y / bh) (x % bw) (y % bh) xi yi cs ls st = some st' ∧ Inv (Or2 S (Rect x (x + xi) y (y + yi))) st')
    (st : Sa × Mem Int) (h0 : Inv (fun _ _ => False) st) (hy : y0 ≤ y1) (hx : x0 ≤ x1) :
    ∃ st', yLoop rd x0 y0 x1 y1 cs ls (y1 - y0 + 1) y0 (y0 / bh) st = some st' ∧ Inv (Rect x0 x1 y0 y1) st' := by
  -- columns
  have hxl : ∀ (fuel x : Nat) (S : Nat → Nat → Prop) (st : Sa × Mem Int) (y yi : Nat), Inv S st → x0 ≤ x → x ≤ x1 → (x = x0 ∨ x = x1 ∨ x % bw = 0) → x1 - x < fuel →
      y0 ≤ y → y < y1 → yi = min (bh - y % bh) (y1 - y) →
      ∀ bx, (x < x1 → bx = x / bw) → ∃ st', xLoop rd x0 y0 x1 y (y / bh) (y % bh) yi cs ls fuel x bx st = some st' ∧ Inv (Or2 S (Rect x x1 y (y + yi))) st' := by
    intro fuel
    induction fuel with
    | zero => intro x S st y yi _ _ _ _ hf; omega
    | succ fuel ih =>
      intro x S st y yi hI hx0 hxle hmod hf hy0 hy1 hyi bx hbx
      unfold xLoop
      by_cases hlt : x < x1
      · rw [if_pos hlt]
        have hb := (hdim S st hI).1
        have hm := Nat.mod_lt x hbw
        have hxi : (if x = x0 then bw - x0 % bw else bw) = bw - x % bw := by
          split
          · rename_i h; rw [h]
          · rcases hmod with h | h | h
            · contradiction
            · omega
            · rw [h]; omega
        simp only [hb, hxi]
        rw [hbx hlt, show bw - (bw - x % bw) = x % bw by omega]
        obtain ⟨xi, hxi'⟩ : ∃ xi, xi = min (bw - x % bw) (x1 - x) := ⟨_, rfl⟩
        rw [← hxi']
        obtain ⟨st1, h1, hI1⟩ := hstep S st x y xi yi hI hx0 hlt hy0 hy1 hxi' hyi
        have hpos : 0 < xi := by rw [hxi']; exact lt_min (by omega) (by omega)
        have hle1 : xi ≤ x1 - x := by rw [hxi']; exact min_le_right _ _
        have hle2 : xi ≤ bw - x % bw := by rw [hxi']; exact min_le_left _ _
        have hcase : xi = bw - x % bw ∨ x + xi = x1 := by
          rcases Nat.le_total (bw - x % bw) (x1 - x) with h | h
          · left; rw [hxi', min_eq_left h]
          · right; rw [hxi', min_eq_right h]; omega
        have hmul : xi = bw - x % bw → (x + xi) % bw = 0 ∧ (x + xi) / bw = x / bw + 1 := by
          intro h
          have h3 := Nat.div_add_mod x bw
          have h5 : x + xi = bw * (x / bw + 1) := by rw [Nat.mul_add, Nat.mul_one]; omega
          exact ⟨by rw [h5]; exact Nat.mul_mod_right _ _, by rw [h5]; exact Nat.mul_div_cancel_left _ hbw⟩
        rw [h1, Option.bind_some]
        obtain ⟨st2, h2, hI2⟩ := ih (x + xi) _ st1 y yi hI1 (by omega) (by omega)
          (by rcases hcase with h | h
              · exact Or.inr (Or.inr (hmul h).1)
              · exact Or.inr (Or.inl h)) (by omega) hy0 hy1 hyi (x / bw + 1)
          (fun hlt2 => by rcases hcase with h | h
                          · rw [(hmul h).2]
                          · omega)
        refine ⟨st2, h2, ?_⟩
        have hS : Or2 (Or2 S (Rect x (x + xi) y (y + yi))) (Rect (x + xi) x1 y (y + yi)) = Or2 S (Rect x x1 y (y + yi)) := by
          funext X Y
          apply propext
          unfold Or2 Rect
          constructor
          · rintro ((h | h) | h)
            · exact Or.inl h
            · exact Or.inr ⟨by omega, by omega, by omega, by omega⟩
            · exact Or.inr ⟨by omega, by omega, by omega, by omega⟩
          · rintro (h | h)
            · exact Or.inl (Or.inl h)
            · by_cases hX : X < x + xi
              · exact Or.inl (Or.inr ⟨by omega, by omega, by omega, by omega⟩)
              · exact Or.inr ⟨by omega, by omega, by omega, by omega⟩
        rw [← hS]; exact hI2
      · rw [if_neg hlt]
        refine ⟨st, rfl, ?_⟩
        have hS : Or2 S (Rect x x1 y (y + yi)) = S := by
          funext X Y
          apply propext
          unfold Or2 Rect
          constructor
          · rintro (h | h)
            · exact h
            · omega
          · exact Or.inl
        rw [hS]; exact hI
  -- rows
  have hyl : ∀ (fuel y : Nat) (st : Sa × Mem Int), Inv (Rect x0 x1 y0 y) st → y0 ≤ y → y ≤ y1 → (y = y0 ∨ y = y1 ∨ y % bh = 0) → y1 - y < fuel →
      ∀ b, (y < y1 → b = y / bh) → ∃ st', yLoop rd x0 y0 x1 y1 cs ls fuel y b st = some st' ∧ Inv (Rect x0 x1 y0 y1) st' := by
    intro fuel
    induction fuel with
    | zero => intro y st _ _ _ _ hf; omega
    | succ fuel ih =>
      intro y st hI hy0 hyle hmod hf b hb'
      unfold yLoop
      by_cases hlt : y < y1
      · rw [if_pos hlt]
        obtain ⟨hb, hb2⟩ := hdim _ st hI
        have hm := Nat.mod_lt y hbh
        have hyi : (if y = y0 then bh - y0 % bh else bh) = bh - y % bh := by
          split
          · rename_i h; rw [h]
          · rcases hmod with h | h | h
            · contradiction
            · omega
            · rw [h]; omega
        simp only [hb, hb2, hyi]
        rw [hb' hlt, show bh - (bh - y % bh) = y % bh by omega]
        obtain ⟨yi, hyi'⟩ : ∃ yi, yi = min (bh - y % bh) (y1 - y) := ⟨_, rfl⟩
        rw [← hyi']
        obtain ⟨st1, h1, hI1⟩ := hxl (x1 - x0 + 1) x0 _ st y yi hI (Nat.le_refl _) hx (Or.inl rfl) (by omega) hy0 hlt hyi' (x0 / bw) (fun _ => rfl)
        have hpos : 0 < yi := by rw [hyi']; exact lt_min (by omega) (by omega)
        have hle1 : yi ≤ y1 - y := by rw [hyi']; exact min_le_right _ _
        have hcase : yi = bh - y % bh ∨ y + yi = y1 := by
          rcases Nat.le_total (bh - y % bh) (y1 - y) with h | h
          · left; rw [hyi', min_eq_left h]
          · right; rw [hyi', min_eq_right h]; omega
        have hmul : yi = bh - y % bh → (y + yi) % bh = 0 ∧ (y + yi) / bh = y / bh + 1 := by
          intro h
          have h3 := Nat.div_add_mod y bh
          have h5 : y + yi = bh * (y / bh + 1) := by rw [Nat.mul_add, Nat.mul_one]; omega
          exact ⟨by rw [h5]; exact Nat.mul_mod_right _ _, by rw [h5]; exact Nat.mul_div_cancel_left _ hbh⟩
        rw [h1, Option.bind_some]
        have hS : Or2 (Rect x0 x1 y0 y) (Rect x0 x1 y (y + yi)) = Rect x0 x1 y0 (y + yi) := by
          funext X Y
          apply propext
          unfold Or2 Rect
          omega
        rw [hS] at hI1
        exact ih (y + yi) st1 hI1 (by omega) (by omega)
          (by rcases hcase with h | h
              · exact Or.inr (Or.inr (hmul h).1)
              · exact Or.inr (Or.inl h)) (by omega) (y / bh + 1)
          (fun hlt2 => by rcases hcase with h | h
                          · rw [(hmul h).2]
                          · omega)
      · rw [if_neg hlt]
        have : y = y1 := by omega
        subst this
        exact ⟨st, rfl, hI⟩
  refine hyl (y1 - y0 + 1) y0 st ?_ (Nat.le_refl _) hy (Or.inl rfl) (by omega) _ (fun _ => rfl)
  have hS : Rect x0 x1 y0 y0 = fun _ _ => False := by
    funext X Y
    apply propext
    unfold Rect
    constructor
    · intro h; omega
    · exact False.elim
  rw [hS]; exact h0

/-! ## Reading -/

/-- What a block shows at an offset. -/
def rdSrc (p : Option (Mem Int)) (i : Nat) : Option Int := match p with
  | none => some 0
  | some b => b i

theorem readBlock_eq' (b : Option (Mem Int)) (bw so bo cs ls xi yi : Nat) (hxi : xi < 2 ^ 32) (d : Mem Int) :
    readBlock b bw so bo cs ls xi yi d = copy2 (fun j k => rdSrc b (so + j * bw + k))
      (fun j k => bo + j * ls + k * cs % 2 ^ 32) xi yi d := by
  rw [readBlock_eq _ _ _ _ _ _ _ _ hxi]
  rfl


/-- The buffer holds every cell of the region at a place of its own, and the column offsets fit in 32 bits. -/
structure Fits (x0 y0 x1 y1 cs ls : Nat) (buf : Mem Int) : Prop where
  dom : ∀ X Y, Rect x0 x1 y0 y1 X Y → (buf (pos x0 y0 cs ls X Y)).isSome
  inj : ∀ X Y X' Y', Rect x0 x1 y0 y1 X Y → Rect x0 x1 y0 y1 X' Y' → pos x0 y0 cs ls X Y = pos x0 y0 cs ls X' Y' → X = X' ∧ Y = Y'
  small : (x1 - x0) * cs < 2 ^ 32

structure RInv (sa : Sa) (x0 y0 x1 y1 cs ls : Nat) (buf0 : Mem Int) (S : Nat → Nat → Prop) (st : Sa × Mem Int) : Prop where
  same : st.1 = sa
  sub : ∀ X Y, S X Y → Rect x0 x1 y0 y1 X Y
  hit : ∀ X Y, S X Y → st.2 (pos x0 y0 cs ls X Y) = get sa X Y
  miss : ∀ i, (∀ X Y, S X Y → i ≠ pos x0 y0 cs ls X Y) → st.2 i = buf0 i

theorem idx_eq {sa : Sa} (h : WF sa) {x y : Nat} (hx : x < sa.width) (hy : y < sa.height) :
    (y / sa.bh * sa.bch % 2 ^ 32 + x / sa.bw) % 2 ^ 32 = y / sa.bh * sa.bch + x / sa.bw := by
  have h1 := (idx_lt h hx hy).1
  have h2 := h.small
  have h3 : y / sa.bh * sa.bch < 2 ^ 32 := lt_of_le_of_lt (Nat.le_add_right _ _) (lt_trans h1 h2)
  rw [Nat.mod_eq_of_lt h3, Nat.mod_eq_of_lt (lt_trans h1 h2)]

theorem mul_small {x x0 x1 cs : Nat} (h : (x1 - x0) * cs < 2 ^ 32) (hx : x < x1 - x0) : x * cs % 2 ^ 32 = x * cs := by
  apply Nat.mod_eq_of_lt
  exact lt_of_le_of_lt (Nat.mul_le_mul_right _ (by omega)) h

theorem read_step {sa : Sa} (hw : WF sa) {x0 y0 x1 y1 cs ls : Nat} {buf0 : Mem Int} (hx1 : x1 ≤ sa.width) (hy1 : y1 ≤ sa.height)
    (hf : Fits x0 y0 x1 y1 cs ls buf0) (S : Nat → Nat → Prop) (st : Sa × Mem Int) (x y xi yi : Nat) (hI : RInv sa x0 y0 x1 y1 cs ls buf0 S st)
    (hx0 : x0 ≤ x) (hxl : x < x1) (hy0 : y0 ≤ y) (hyl : y < y1) (hxi : xi = min (sa.bw - x % sa.bw) (x1 - x)) (hyi : yi = min (sa.bh - y % sa.bh) (y1 - y)) :
    ∃ st', step true x0 y0 x y (x / sa.bw) (y / sa.bh) (x % sa.bw) (y % sa.bh) xi yi cs ls st = some st' ∧
      RInv sa x0 y0 x1 y1 cs ls buf0 (Or2 S (Rect x (x + xi) y (y + yi))) st' := by
  obtain ⟨sa', buf⟩ := st
  have hsame := hI.same
  simp only at hsame
  subst hsame
  have hxle : xi ≤ x1 - x := by rw [hxi]; exact min_le_right _ _
  have hyle : yi ≤ y1 - y := by rw [hyi]; exact min_le_right _ _
  obtain ⟨p, hp⟩ := Option.isSome_iff_exists.mp (hw.dom _ (idx_lt hw (show x < sa'.width by omega) (show y < sa'.height by omega)).1)
  have hsz : ∀ i, (buf0 i).isSome → (buf i).isSome := by
    intro i hi
    by_cases hex : ∃ X Y, S X Y ∧ i = pos x0 y0 cs ls X Y
    · obtain ⟨X, Y, hS, he⟩ := hex
      have hr := hI.sub X Y hS
      have h1 : buf (pos x0 y0 cs ls X Y) = get sa' X Y := hI.hit X Y hS
      rw [he, h1]
      exact get_some hw (by have := hr.2.1; omega) (by have := hr.2.2.2; omega)
    · have := hI.miss i (fun X Y hS he => hex ⟨X, Y, hS, he⟩)
      simp only at this
      rw [this]; exact hi
  have hpos : ∀ j k, j < yi → k < xi → (y - y0) * ls + (x - x0) * cs % 2 ^ 32 + j * ls + k * cs % 2 ^ 32 = pos x0 y0 cs ls (x + k) (y + j) := by
    intro j k hj hk
    rw [mul_small hf.small (by omega), mul_small hf.small (show k < x1 - x0 by omega)]
    unfold pos
    rw [show x + k - x0 = (x - x0) + k by omega, show y + j - y0 = (y - y0) + j by omega]
    ring
  have hsrc : ∀ j k, j < yi → k < xi →
      rdSrc p (y % sa'.bh * sa'.bw + x % sa'.bw + j * sa'.bw + k) = get sa' (x + k) (y + j) := by
    intro j k hj hk
    rw [hxi] at hk
    rw [hyi] at hj
    obtain ⟨a1, a2, _⟩ := span hw.bw hk
    obtain ⟨b1, b2, _⟩ := span hw.bh hj
    unfold get
    rw [a1, b1, hp, Option.bind_some, a2, b2]
    cases p with
    | none => rfl
    | some b =>
      show b _ = b _
      congr 1; ring
  have hrect : ∀ j k, j < yi → k < xi → Rect x0 x1 y0 y1 (x + k) (y + j) := fun j k hj hk => ⟨by omega, by omega, by omega, by omega⟩
  have hws := hw.wsmall
  obtain ⟨buf', h1, h2⟩ := copy2_spec (src := fun j k => rdSrc p (y % sa'.bh * sa'.bw + x % sa'.bw + j * sa'.bw + k))
    (dst := fun j k => (y - y0) * ls + (x - x0) * cs % 2 ^ 32 + j * ls + k * cs % 2 ^ 32) buf xi yi
    (fun j k hj hk => by
      try simp only
      rw [hsrc j k hj hk]
      have hr := hrect j k hj hk
      exact get_some hw (by have := hr.2.1; omega) (by have := hr.2.2.2; omega))
    (fun j k hj hk => by rw [hpos j k hj hk]; exact hsz _ (hf.dom _ _ (hrect j k hj hk)))
    (fun j k j' k' hj hk hj' hk' he => by
      try simp only at he
      rw [hpos j k hj hk, hpos j' k' hj' hk'] at he
      have := hf.inj _ _ _ _ (hrect j k hj hk) (hrect j' k' hj' hk') he
      omega)
  refine ⟨(sa', buf'), ?_, ⟨rfl, ?_, ?_, ?_⟩⟩
  · unfold step
    simp only
    rw [idx_eq hw (by omega) (by omega), hp, Option.bind_some, if_pos trivial, readBlock_eq' _ _ _ _ _ _ _ _ (by omega), h1]
    rfl
  · rintro X Y (h | h)
    · exact hI.sub X Y h
    · unfold Rect at *; omega
  · have hnew : ∀ X Y, Rect x (x + xi) y (y + yi) X Y → buf' (pos x0 y0 cs ls X Y) = get sa' X Y := by
      intro X Y h
      obtain ⟨r1, r2, r3, r4⟩ := h
      have := h2.hit (Y - y) (X - x) (by omega) (by omega)
      try simp only at this
      rw [hpos _ _ (by omega) (by omega), hsrc _ _ (by omega) (by omega), show x + (X - x) = X by omega, show y + (Y - y) = Y by omega] at this
      exact this
    rintro X Y (h | h)
    · by_cases hin : Rect x (x + xi) y (y + yi) X Y
      · exact hnew X Y hin
      · have hm := h2.miss (pos x0 y0 cs ls X Y) (by
          intro j k hj hk he
          try simp only at he
          rw [hpos j k hj hk] at he
          have := hf.inj _ _ _ _ (hI.sub X Y h) (hrect j k hj hk) he
          exact hin ⟨by omega, by omega, by omega, by omega⟩)
        show buf' _ = _
        rw [hm]; exact hI.hit X Y h
    · exact hnew X Y h
  · intro i hi
    have hm := h2.miss i (by
      intro j k hj hk he
      try simp only at he
      rw [hpos j k hj hk] at he
      exact hi (x + k) (y + j) (Or.inr ⟨by omega, by omega, by omega, by omega⟩) he)
    show buf' i = _
    rw [hm]; exact hI.miss i (fun X Y h => hi X Y (Or.inl h))

/-! ## Writing -/

structure WInv (sa : Sa) (x0 y0 x1 y1 cs ls : Nat) (buf : Mem Int) (S : Nat → Nat → Prop) (st : Sa × Mem Int) : Prop where
  wf : WF st.1
  dims : st.1.width = sa.width ∧ st.1.height = sa.height ∧ st.1.bw = sa.bw ∧ st.1.bh = sa.bh ∧ st.1.bch = sa.bch ∧ st.1.bcv = sa.bcv
  same : st.2 = buf
  hit : ∀ X Y, S X Y → X < sa.width → Y < sa.height → get st.1 X Y = buf (pos x0 y0 cs ls X Y)
  miss : ∀ X Y, ¬ S X Y → X < sa.width → Y < sa.height → get st.1 X Y = get sa X Y

theorem write_step {sa : Sa} {x0 y0 x1 y1 cs ls : Nat} {buf : Mem Int} (hx1 : x1 ≤ sa.width) (hy1 : y1 ≤ sa.height)
    (hdom : ∀ X Y, Rect x0 x1 y0 y1 X Y → (buf (pos x0 y0 cs ls X Y)).isSome) (hsmall : (x1 - x0) * cs < 2 ^ 32)
    (S : Nat → Nat → Prop) (st : Sa × Mem Int) (x y xi yi : Nat) (hI : WInv sa x0 y0 x1 y1 cs ls buf S st)
    (hx0 : x0 ≤ x) (hxl : x < x1) (hy0 : y0 ≤ y) (hyl : y < y1) (hxi : xi = min (sa.bw - x % sa.bw) (x1 - x)) (hyi : yi = min (sa.bh - y % sa.bh) (y1 - y)) :
    ∃ st', step false x0 y0 x y (x / sa.bw) (y / sa.bh) (x % sa.bw) (y % sa.bh) xi yi cs ls st = some st' ∧
      WInv sa x0 y0 x1 y1 cs ls buf (Or2 S (Rect x (x + xi) y (y + yi))) st' := by
  obtain ⟨sc, buf'⟩ := st
  have hsame := hI.same
  simp only at hsame
  subst hsame
  have hw : WF sc := hI.wf
  obtain ⟨d1, d2, d3, d4, d5, d6⟩ := hI.dims
  simp only at d1 d2 d3 d4 d5 d6
  rw [← d1] at hx1
  rw [← d2] at hy1
  rw [← d3] at hxi ⊢
  rw [← d4] at hyi ⊢
  have hxle : xi ≤ x1 - x := by rw [hxi]; exact min_le_right _ _
  have hyle : yi ≤ y1 - y := by rw [hyi]; exact min_le_right _ _
  have hxle2 : xi ≤ sc.bw - x % sc.bw := by rw [hxi]; exact min_le_left _ _
  have hyle2 : yi ≤ sc.bh - y % sc.bh := by rw [hyi]; exact min_le_left _ _
  have hidx := idx_lt hw (show x < sc.width by omega) (show y < sc.height by omega)
  obtain ⟨p, hp⟩ := Option.isSome_iff_exists.mp (hw.dom _ hidx.1)
  have hpos : ∀ j k, j < yi → k < xi → (y - y0) * ls + (x - x0) * cs % 2 ^ 32 + j * ls + k * cs % 2 ^ 32 = pos x0 y0 cs ls (x + k) (y + j) := by
    intro j k hj hk
    rw [mul_small hsmall (by omega), mul_small hsmall (show k < x1 - x0 by omega)]
    unfold pos
    rw [show x + k - x0 = (x - x0) + k by omega, show y + j - y0 = (y - y0) + j by omega]
    ring
  have hrect : ∀ j k, j < yi → k < xi → Rect x0 x1 y0 y1 (x + k) (y + j) := fun j k hj hk => ⟨by omega, by omega, by omega, by omega⟩
  have hws := hw.wsmall
  have hxm := Nat.mod_lt x hw.bw
  have hym := Nat.mod_lt y hw.bh
  have hdst : ∀ j k, y % sc.bh * sc.bw + x % sc.bw + j * sc.bw + k = (y % sc.bh + j) * sc.bw + (x % sc.bw + k) := fun j k => by ring
  -- the block as it was
  have hb0 : ∃ b0, p.getD (calloc (sc.bw * sc.bh)) = b0 ∧ (∀ k, k < sc.bw * sc.bh → (b0 k).isSome) ∧
      (∀ X Y, X < sc.width → X / sc.bw = x / sc.bw → Y / sc.bh = y / sc.bh → get sc X Y = b0 (Y % sc.bh * sc.bw + X % sc.bw)) := by
    refine ⟨_, rfl, ?_, ?_⟩
    · intro k hk
      cases p with
      | none => simp only [Option.getD_none]; unfold calloc; rw [if_pos hk]; rfl
      | some b => exact hw.blk _ b hp k hk
    · intro X Y _ hX hY
      unfold get
      rw [hX, hY, hp, Option.bind_some]
      cases p with
      | none =>
        simp only [Option.getD_none]
        unfold calloc
        rw [if_pos (off_lt (Nat.mod_lt _ hw.bh) (Nat.mod_lt _ hw.bw))]
      | some b => rfl
  obtain ⟨b0, hb0, hbs, hbg⟩ := hb0
  obtain ⟨b1, h1, h2⟩ := copy2_spec (src := fun j k => buf' ((y - y0) * ls + (x - x0) * cs % 2 ^ 32 + j * ls + k * cs % 2 ^ 32))
    (dst := fun j k => y % sc.bh * sc.bw + x % sc.bw + j * sc.bw + k) b0 xi yi
    (fun j k hj hk => by rw [hpos j k hj hk]; exact hdom _ _ (hrect j k hj hk))
    (fun j k hj hk => by rw [hdst]; exact hbs _ (off_lt (by omega) (by omega)))
    (fun j k j' k' hj hk hj' hk' he => by
      try simp only at he
      rw [hdst, hdst] at he
      have := idx_inj (by omega) (by omega) he
      omega)
  have hwr := wr_of_some sc.blocks (y / sc.bh * sc.bch + x / sc.bw) (some b1) p hp
  obtain ⟨nb, hnb⟩ : ∃ nb : Mem (Option (Mem Int)), nb = fun k => if k = y / sc.bh * sc.bch + x / sc.bw then some (some b1) else sc.blocks k := ⟨_, rfl⟩
  rw [← hnb] at hwr
  have hstep : step false x0 y0 x y (x / sc.bw) (y / sc.bh) (x % sc.bw) (y % sc.bh) xi yi cs ls (sc, buf') = some ({ sc with blocks := nb }, buf') := by
    unfold step
    simp only
    rw [idx_eq hw (by omega) (by omega), hp, Option.bind_some, if_neg (by decide), hb0, writeBlock_eq _ _ _ _ _ _ _ _ (by omega), h1, Option.bind_some, hwr]
    rfl
  -- the new plane
  have hgetb : ∀ X Y, X < sc.width → X / sc.bw = x / sc.bw → Y / sc.bh = y / sc.bh →
      get { sc with blocks := nb } X Y = b1 (Y % sc.bh * sc.bw + X % sc.bw) := by
    intro X Y _ hX hY
    unfold get
    show (nb (Y / sc.bh * sc.bch + X / sc.bw)).bind _ = _
    rw [hX, hY, hnb]
    simp
  have hgeto : ∀ X Y, X < sc.width → ¬ (X / sc.bw = x / sc.bw ∧ Y / sc.bh = y / sc.bh) → get { sc with blocks := nb } X Y = get sc X Y := by
    intro X Y hX hne
    unfold get
    show (nb (Y / sc.bh * sc.bch + X / sc.bw)).bind _ = _
    have hX' : X / sc.bw < sc.bch := by rw [hw.h]; exact div_lt_ceildiv hw.bw hX
    have hi : Y / sc.bh * sc.bch + X / sc.bw ≠ y / sc.bh * sc.bch + x / sc.bw := by
      intro he
      have := idx_inj hX' hidx.2 he
      exact hne ⟨this.2, this.1⟩
    rw [hnb]
    simp only [if_neg hi]

  -- cells of the rectangle and others
  have hin : ∀ X Y, Rect x (x + xi) y (y + yi) X Y → get { sc with blocks := nb } X Y = buf' (pos x0 y0 cs ls X Y) := by
    intro X Y ⟨r1, r2, r3, r4⟩
    obtain ⟨k, hk⟩ : ∃ k, X = x + k := ⟨X - x, by omega⟩
    obtain ⟨j, hj⟩ : ∃ j, Y = y + j := ⟨Y - y, by omega⟩
    subst hk hj
    have hk : k < xi := by omega
    have hj : j < yi := by omega
    obtain ⟨a1, a2, _⟩ := span hw.bw (hxi ▸ hk)
    obtain ⟨c1, c2, _⟩ := span hw.bh (hyi ▸ hj)
    rw [hgetb _ _ (by omega) a1 c1, a2, c2, ← hdst]
    have := h2.hit j k hj hk
    try simp only at this
    rw [this, hpos j k hj hk]
  have hout : ∀ X Y, ¬ Rect x (x + xi) y (y + yi) X Y → X < sc.width → Y < sc.height → get { sc with blocks := nb } X Y = get sc X Y := by
    intro X Y hne hX hY
    by_cases hb : X / sc.bw = x / sc.bw ∧ Y / sc.bh = y / sc.bh
    · rw [hgetb X Y hX hb.1 hb.2, hbg X Y hX hb.1 hb.2]
      apply h2.miss
      intro j k hj hk he
      try simp only at he
      rw [hdst] at he
      have h3 := idx_inj (Nat.mod_lt _ hw.bw) (by omega) he
      have e1 := Nat.div_add_mod X sc.bw
      have e2 := Nat.div_add_mod x sc.bw
      have e3 := Nat.div_add_mod Y sc.bh
      have e4 := Nat.div_add_mod y sc.bh
      rw [hb.1] at e1
      rw [hb.2] at e3
      exact hne ⟨by omega, by omega, by omega, by omega⟩
    · exact hgeto X Y hX hb
  refine ⟨_, hstep, ⟨⟨hw.bw, hw.bh, hw.h, hw.v, hw.small, hw.wsmall, hw.hsmall, ?_, ?_⟩, ⟨d1, d2, d3, d4, d5, d6⟩, rfl, ?_, ?_⟩⟩
  · intro i hi
    show (nb i).isSome
    rw [hnb]
    simp only
    split
    · rfl
    · exact hw.dom i hi
  · intro i b hb k hk
    replace hb : nb i = some (some b) := hb
    rw [hnb] at hb
    simp only at hb
    split at hb
    · injection hb with hb
      injection hb with hb
      subst hb
      by_cases hex : ∃ j l, j < yi ∧ l < xi ∧ k = y % sc.bh * sc.bw + x % sc.bw + j * sc.bw + l
      · obtain ⟨j, l, hj, hl, he⟩ := hex
        have := h2.hit j l hj hl
        try simp only at this
        rw [he, this, hpos j l hj hl]
        exact hdom _ _ (hrect j l hj hl)
      · rw [h2.miss k (fun j l hj hl he => hex ⟨j, l, hj, hl, he⟩)]
        exact hbs k hk
    · exact hw.blk i b hb k hk
  · rintro X Y (h | h) hX hY
    · by_cases hr : Rect x (x + xi) y (y + yi) X Y
      · exact hin X Y hr
      · exact (hout X Y hr (by omega) (by omega)).trans (hI.hit X Y h hX hY)
    · exact hin X Y h
  · intro X Y hne hX hY
    exact (hout X Y (fun h => hne (Or.inr h)) (by omega) (by omega)).trans (hI.miss X Y (fun h => hne (Or.inl h)) hX hY)

theorem valid_iff {sa : Sa} {x0 y0 x1 y1 : Nat} : valid sa x0 y0 x1 y1 = true ↔ x0 < x1 ∧ x1 ≤ sa.width ∧ y0 < y1 ∧ y1 ≤ sa.height := by
  unfold valid
  simp only [Bool.not_eq_true', Bool.or_eq_false_iff, decide_eq_false_iff_not]
  omega

theorem read_spec {sa : Sa} (hw : WF sa) {x0 y0 x1 y1 cs ls : Nat} {buf : Mem Int} (fg : Bool) (hv : valid sa x0 y0 x1 y1 = true)
    (hf : Fits x0 y0 x1 y1 cs ls buf) :
    ∃ buf', read sa x0 y0 x1 y1 buf cs ls fg = some (true, sa, buf') ∧
      (∀ X Y, Rect x0 x1 y0 y1 X Y → buf' (pos x0 y0 cs ls X Y) = get sa X Y) ∧
      (∀ i, (∀ X Y, Rect x0 x1 y0 y1 X Y → i ≠ pos x0 y0 cs ls X Y) → buf' i = buf i) := by
  obtain ⟨v1, v2, v3, v4⟩ := valid_iff.mp hv
  obtain ⟨⟨sa', buf'⟩, h, hI⟩ := loops true x0 y0 x1 y1 cs ls sa.bw sa.bh hw.bw hw.bh (RInv sa x0 y0 x1 y1 cs ls buf)
    (fun S st hI => by rw [hI.same]; exact ⟨rfl, rfl⟩) (fun S st x y xi yi hI a1 a2 a3 a4 a5 a6 => read_step hw v2 v4 hf S st x y xi yi hI a1 a2 a3 a4 a5 a6)
    (sa, buf) ⟨rfl, fun _ _ h => h.elim, fun _ _ h => h.elim, fun _ _ => rfl⟩ (by omega) (by omega)
  have hs := hI.same
  simp only at hs
  subst hs
  refine ⟨buf', ?_, hI.hit, hI.miss⟩
  unfold read readOrWrite
  rw [if_neg (by rw [hv]; decide), h]
  rfl

theorem write_spec {sa : Sa} (hw : WF sa) {x0 y0 x1 y1 cs ls : Nat} {buf : Mem Int} (fg : Bool) (hv : valid sa x0 y0 x1 y1 = true)
    (hdom : ∀ X Y, Rect x0 x1 y0 y1 X Y → (buf (pos x0 y0 cs ls X Y)).isSome) (hsmall : (x1 - x0) * cs < 2 ^ 32) :
    ∃ sa', write sa x0 y0 x1 y1 buf cs ls fg = some (true, sa', buf) ∧ WInv sa x0 y0 x1 y1 cs ls buf (Rect x0 x1 y0 y1) (sa', buf) := by
  obtain ⟨v1, v2, v3, v4⟩ := valid_iff.mp hv
  obtain ⟨⟨sa', buf'⟩, h, hI⟩ := loops false x0 y0 x1 y1 cs ls sa.bw sa.bh hw.bw hw.bh (WInv sa x0 y0 x1 y1 cs ls buf)
    (fun S st hI => ⟨hI.dims.2.2.1, hI.dims.2.2.2.1⟩)
    (fun S st x y xi yi hI a1 a2 a3 a4 a5 a6 => write_step v2 v4 hdom hsmall S st x y xi yi hI a1 a2 a3 a4 a5 a6)
    (sa, buf) ⟨hw, ⟨rfl, rfl, rfl, rfl, rfl, rfl⟩, rfl, fun _ _ h => h.elim, fun _ _ _ _ _ => rfl⟩ (by omega) (by omega)
  have hs := hI.same
  simp only at hs
  subst hs
  refine ⟨sa', ?_, hI⟩
  unfold write readOrWrite
  rw [if_neg (by rw [hv]; decide), h]
  rfl

theorem create_wf {w h bw bh : Nat} {sa : Sa} (hw32 : w < 2 ^ 32) (hh32 : h < 2 ^ 32) (hc : create w h bw bh = some sa) :
    WF sa ∧ sa.width = w ∧ sa.height = h ∧ ∀ X Y, X < w → Y < h → get sa X Y = some 0 := by
  unfold create at hc
  split at hc
  · simp at hc
  rename_i h0
  split at hc
  · simp at hc
  split at hc
  · simp at hc
  rename_i h2
  injection hc with hc
  have hwf : WF sa := by
    subst hc
    refine ⟨by show 0 < bw; omega, by show 0 < bh; omega, rfl, rfl, ?_, hw32, hh32, ?_, ?_⟩
    · show ceildiv w bw * ceildiv h bh < 2 ^ 32
      have h3 : ceildiv w bw ≤ (2 ^ 32 - 1) / ceildiv h bh := by omega
      have h4 : ceildiv w bw * ceildiv h bh ≤ 2 ^ 32 - 1 :=
        le_trans (Nat.mul_le_mul_right _ h3) (Nat.div_mul_le_self _ _)
      omega
    · intro i hi
      replace hi : i < ceildiv w bw * ceildiv h bh := hi
      show (if i < ceildiv w bw * ceildiv h bh then some (none : Option (Mem Int)) else none).isSome
      rw [if_pos hi]; rfl
    · intro i b hb
      replace hb : (if i < ceildiv w bw * ceildiv h bh then some (none : Option (Mem Int)) else none) = some (some b) := hb
      split at hb
      · simp at hb
      · simp at hb
  have hd : sa.width = w ∧ sa.height = h := by subst hc; exact ⟨rfl, rfl⟩
  refine ⟨hwf, hd.1, hd.2, ?_⟩
  intro X Y hX hY
  have hi := (idx_lt hwf (hd.1 ▸ hX) (hd.2 ▸ hY)).1
  subst hc
  show (if _ then some (none : Option (Mem Int)) else none).bind _ = _
  rw [if_pos hi]
  rfl

end Jp2.Sparse

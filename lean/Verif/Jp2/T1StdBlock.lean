import Verif.Jp2.T1StdPass
import Verif.Jp2.T1Round
/-!
# All passes of the encoder make the decisions of the standard
-/
namespace Jp2.T1
open Std (Block one near Part inOrder)

variable {B : Block} {data : List Nat}

/-! ## The flags at the start -/

theorem init_word {w h k X : Nat} (hk : k < (h + 3) / 4) (hX : X ≤ w + 1) :
    wd (initFlags w h) w k X = if k < h / 4 then 0#32 else if h % 4 = 1 then 0x49000000#32 else if h % 4 = 2 then 0x48000000#32 else 0x40000000#32 := by
  have hc : (k + 1) * (w + 2) + X = (w + 2) + (k * (w + 2) + X) := by rw [Nat.add_mul]; omega
  unfold wd
  rw [hc]
  unfold initFlags
  rw [List.append_assoc, List.append_assoc, app_getD_right (by simp), List.length_replicate, Nat.add_sub_cancel_left]
  rcases Nat.lt_or_ge k (h / 4) with hl | hl
  · have hlt : k * (w + 2) + X < h / 4 * (w + 2) := by
      have : (k + 1) * (w + 2) ≤ h / 4 * (w + 2) := Nat.mul_le_mul_right _ hl
      rw [Nat.add_mul] at this
      omega
    rw [app_getD_left (by simpa using hlt), rep_getD hlt, if_pos hl]
  · have he : k = h / 4 := by omega
    have h4 : ¬ h % 4 = 0 := by omega
    rw [he, app_getD_right (by simp), List.length_replicate, Nat.add_sub_cancel_left, if_neg h4, app_getD_left (by simp; omega), rep_getD (by omega),
      if_neg (Nat.lt_irrefl _)]

theorem padded_init (Y X : Nat) : padded B Std.St.init Y X = false := by
  unfold padded Std.St.init; simp

theorem init_bit {w h k X i : Nat} (hk : k < (h + 3) / 4) (hX : X ≤ w + 1) (hi : i < 32)
    (h1 : (wd (initFlags w h) w k X).getLsbD i = true) : k = h / 4 ∧ ∃ j < 4, h % 4 ≤ j ∧ i = 21 + 3 * j := by
  rw [init_word hk hX] at h1
  have a1 : ∀ i < 32, (0x49000000#32).getLsbD i = true → i = 24 ∨ i = 27 ∨ i = 30 := by decide +kernel
  have a2 : ∀ i < 32, (0x48000000#32).getLsbD i = true → i = 27 ∨ i = 30 := by decide +kernel
  have a3 : ∀ i < 32, (0x40000000#32).getLsbD i = true → i = 30 := by decide +kernel
  by_cases hl : k < h / 4
  · rw [if_pos hl] at h1; simp at h1
  rw [if_neg hl] at h1
  refine ⟨by omega, ?_⟩
  by_cases c1 : h % 4 = 1
  · rw [if_pos c1] at h1
    rcases a1 i hi h1 with h | h | h
    · exact ⟨1, by omega, by omega, h⟩
    · exact ⟨2, by omega, by omega, h⟩
    · exact ⟨3, by omega, by omega, h⟩
  rw [if_neg c1] at h1
  by_cases c2 : h % 4 = 2
  · rw [if_pos c2] at h1
    rcases a2 i hi h1 with h | h
    · exact ⟨2, by omega, by omega, h⟩
    · exact ⟨3, by omega, by omega, h⟩
  rw [if_neg c2] at h1
  exact ⟨3, by omega, by omega, a3 i hi h1⟩

theorem init_bit_false {w h k X i : Nat} (hk : k < (h + 3) / 4) (hX : X ≤ w + 1) (hi : i < 32) (hn : ∀ j < 4, h % 4 ≤ j → k = h / 4 → i ≠ 21 + 3 * j) :
    (wd (initFlags w h) w k X).getLsbD i = false := by
  cases hb : (wd (initFlags w h) w k X).getLsbD i with
  | false => rfl
  | true =>
    obtain ⟨h1, j, h2, h3, h4⟩ := init_bit hk hX hi hb
    exact absurd h4 (hn j h2 h3 h1)

theorem init_rep (B : Block) : Rep B Std.St.init (initFlags B.w B.h) where
  len := by
    rw [init_len]
    by_cases h0 : B.h % 4 = 0
    · rw [if_pos h0, show (B.h + 3) / 4 = B.h / 4 by omega, Nat.add_mul]; omega
    · rw [if_neg h0, show (B.h + 3) / 4 = B.h / 4 + 1 by omega, Nat.add_mul, Nat.add_mul]; omega
  sg := fun k hk X _ h2 j hj c hc => by
    rw [padded_init, init_bit_false hk (by omega) (by omega) (fun i _ _ _ => by omega), Bool.false_and]
  own := fun k hk X h2 j hj => by
    rw [padded_init, init_bit_false hk (by omega) (by omega) (fun i _ _ _ => by omega), Bool.false_and]
  no := fun k hk X _ h2 => by
    rw [padded_init, init_bit_false hk (by omega) (by omega) (fun i _ _ _ => by omega), Bool.false_and]
  so := fun k hk X _ h2 => by
    rw [padded_init, init_bit_false hk (by omega) (by omega) (fun i _ _ _ => by omega)]; simp
  mu := fun k hk X _ h2 j hj => by
    rw [init_bit_false hk (by omega) (by omega) (fun i _ _ _ => by omega)]; rfl
  pi := fun k hk X _ h2 j hj hjh => by
    rw [init_bit_false hk (by omega) (by omega) (fun i _ _ _ => by omega)]; rfl
  rs := fun y x h => by simp [Std.St.init] at h

/-! ## One pass -/

theorem raw_std (st : Style) (n b t : Nat) : rawE st n b t = Std.isRaw st.bypass n b t := by
  unfold rawE Std.isRaw
  have : decide ((b : Int) < (n : Int) - 4) = decide (b + 5 ≤ n) := decide_eq_decide.mpr (by omega)
  rw [this]
  cases st.bypass <;> cases decide (t < 2) <;> cases decide (b + 5 ≤ n) <;> rfl

/-- Before pass `t`. -/
def Pre (B : Block) (t : Nat) (s : Std.St) (F : List Word) : Prop := Rep B s F ∧ (t = 0 → ∀ y < B.h, ∀ x < B.w, s.vis y x = false)

theorem pass_std (hD : Dat B data) (hb : B.band < 4) {st : Style} (hv : st.vsc = B.causal) (n b t : Nat) (ht : t < 3) :
    Ref (rawE st n b t) (Pre B t) (Pre B ((t + 1) % 3)) (passTrace B.band B.w B.h n st data b t) (Std.pass B st.segsym (rawE st n b t) b t) := by
  unfold passTrace
  rw [hv]
  by_cases h0 : t = 0
  · subst h0
    rw [if_pos rfl]
    intro s F hP
    obtain ⟨tr, F', e1, e2, e3⟩ := ref_sigPass (raw := rawE st n b 0) (b := b) hD hb s F ⟨hP.1, fun y hy x hx _ => hP.2 rfl y hy x hx⟩
    exact ⟨tr, F', e1, e2, e3, by simp⟩
  rw [if_neg h0]
  by_cases h1 : t = 1
  · subst h1
    rw [if_pos rfl]
    intro s F hP
    obtain ⟨tr, F', e1, e2, e3⟩ := ref_refPass (raw := rawE st n b 1) (b := b) hD s F hP.1
    exact ⟨tr, F', e1, e2, e3, by simp⟩
  rw [if_neg h1]
  have h2 : t = 2 := by omega
  subst h2
  have hr : rawE st n b 2 = false := by unfold rawE; simp
  rw [hr]
  intro s F hP
  obtain ⟨tr, F', e1, e2, e3⟩ := ref_clnPass (b := b) hD hb s F hP.1
  have hseg : (if st.segsym then Enc.emit [(18, 1), (18, 0), (18, 1), (18, 0)] Enc.skip else Enc.skip) F' =
      some (if st.segsym then [(18, 1), (18, 0), (18, 1), (18, 0)] else [], F') := by
    cases st.segsym <;> rfl
  refine ⟨tr ++ (if st.segsym then [(18, 1), (18, 0), (18, 1), (18, 0)] else []), F', ?_, ?_, ?_, ?_⟩
  · unfold Enc.seq
    rw [e1, Option.bind_some]
    simp only [hseg, Option.map_some]
  · unfold Std.pass
    rw [if_neg (by omega : ¬ 2 = 0), if_neg (by omega : ¬ 2 = 1)]
    dsimp only
    rw [List.map_append, e2]
    cases st.segsym <;> rfl
  · unfold Std.pass
    rw [if_neg (by omega), if_neg (by omega)]
    have h3 := rep_congr_vis (v := fun _ _ => false) e3 (fun y hy x hx => by
      have : done ((B.h + 3) / 4) 0 0 y x = true := by unfold done; rw [decide_eq_true]; unfold scanned; omega
      unfold hide; simp [this])
    exact h3
  · intro _ y _ x _
    unfold Std.pass
    rw [if_neg (by omega), if_neg (by omega)]

/-! ## All passes -/

/-- The passes from pass `t` of plane `b1 - 1` on. -/
def orderFrom : Nat → Nat → List (Nat × Nat)
  | 0, _ => []
  | b + 1, t => if t = 0 then (b, 0) :: (b, 1) :: (b, 2) :: Std.below b else if t = 1 then (b, 1) :: (b, 2) :: Std.below b else (b, 2) :: Std.below b

theorem orderFrom_step {b t : Nat} (ht : t < 3) : orderFrom (b + 1) t = (b, t) :: (if t + 1 = 3 then orderFrom b 0 else orderFrom (b + 1) (t + 1)) := by
  interval_cases t
  · rfl
  · rfl
  · cases b <;> rfl

/-- What the standard says of a pass of the encoder. -/
def cpass (bt : Nat × Nat) (i : PI) : Std.CPass := ⟨bt.1, bt.2, i.raw, i.tr.map (lab i.raw)⟩

theorem trace_std (hD : Dat B data) (hb : B.band < 4) {st : Style} (hv : st.vsc = B.causal) (n : Nat) : ∀ (fuel b1 t : Nat) (s : Std.St) (F : List Word),
    t < 3 → (b1 = 0 ∨ 3 * b1 ≤ fuel + t) → Pre B t s F →
    ∃ items F', traceLoop B.band B.w B.h n st data fuel b1 t F = some (items, F') ∧
      List.zipWith cpass (orderFrom b1 t) items = Std.passesOf B st.bypass st.segsym n (orderFrom b1 t) s ∧ items.length = (orderFrom b1 t).length ∧
      items.map PI.term = (orderFrom b1 t).map fun q => isTerm st n q.1 q.2 := by
  intro fuel
  induction fuel with
  | zero =>
    intro b1 t s F ht hf hP
    have : b1 = 0 := by omega
    subst this
    exact ⟨[], F, rfl, rfl, rfl, rfl⟩
  | succ fuel ih =>
    intro b1 t s F ht hf hP
    cases b1 with
    | zero => exact ⟨[], F, rfl, rfl, rfl, rfl⟩
    | succ b =>
      obtain ⟨tr, F1, e1, e2, e3⟩ := pass_std hD hb hv n b t ht s F hP
      unfold traceLoop
      rw [e1, Option.bind_some, orderFrom_step ht]
      unfold Std.passesOf
      dsimp only
      rw [← raw_std]
      by_cases h2 : t + 1 = 3
      · rw [if_pos h2, if_pos h2]
        rw [show (t + 1) % 3 = 0 by omega] at e3
        obtain ⟨items, F', k1, k2, k3, k4⟩ := ih b 0 _ F1 (by omega) (by omega) e3
        refine ⟨_ :: items, F', by rw [k1]; rfl, ?_, by simp [k3], by simp [k4]⟩
        rw [List.zipWith_cons_cons, k2]
        unfold cpass
        dsimp only
        rw [e2]
      · rw [if_neg h2, if_neg h2]
        rw [show (t + 1) % 3 = t + 1 by omega] at e3
        obtain ⟨items, F', k1, k2, k3, k4⟩ := ih (b + 1) (t + 1) _ F1 (by omega) (by omega) e3
        refine ⟨_ :: items, F', by rw [k1]; rfl, ?_, by simp [k3], by simp [k4]⟩
        rw [List.zipWith_cons_cons, k2]
        unfold cpass
        dsimp only
        rw [e2]

theorem order_from (n : Nat) : orderFrom n 2 = Std.order n := by cases n <;> rfl

theorem term_std (st : Style) (n b t : Nat) (ht : t < 3) : isTerm st n b t = Std.ends st.bypass st.termall n b t := by
  unfold isTerm Std.ends
  have h1 : decide ((b : Int) < (n : Int) - 4) = decide (b + 5 ≤ n) := decide_eq_decide.mpr (by omega)
  have h2 : decide ((b : Int) = (n : Int) - 4) = (b + 4 == n) := by
    rw [← Bool.beq_eq_decide_eq]
    by_cases h : b + 4 = n
    · rw [beq_iff_eq.mpr h]; simp; omega
    · rw [beq_eq_false_iff_ne.mpr h]; simp; omega
  rw [h1, h2]
  have h3 : decide (0 < t) = decide (1 ≤ t) := rfl
  rw [h3]
  cases st.termall <;> cases (b == 0) <;> cases (t == 2) <;> cases st.bypass <;> cases (b + 4 == n) <;> cases decide (b + 5 ≤ n) <;> cases decide (1 ≤ t) <;> rfl

end Jp2.T1

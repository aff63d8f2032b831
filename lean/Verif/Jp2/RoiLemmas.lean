import Verif.Jp2.Roi
import Verif.Jp2.T1SafeProps
import Verif.Jp2.T1Props
/-! # Helpers for C79 -/
namespace Jp2.T1
open Jp2.Mqc (Mqc startCtxs)

variable {σ : Type} {k : Int}

/-- The same state with all coefficients `k` times as large. -/
def Sc (k : Int) (s s' : DS σ) : Prop := s'.c = s.c ∧ s'.g = s.g ∧ s'.d = s.d.map (· * k)

/-- A run of `a'` on large coefficients is one of `a` on small ones. -/
def Back (k : Int) (a a' : Dec σ) : Prop := ∀ s s', Sc k s s' → ∀ t', a' s' = some t' → ∃ t, a s = some t ∧ Sc k t t'

theorem Back.skip : Back k (Dec.skip : Dec σ) Dec.skip := fun s s' h t' ht => by
  injection ht with ht
  exact ⟨s, rfl, ht ▸ h⟩

theorem Back.seq {a a' b b' : Dec σ} (ha : Back k a a') (hb : Back k b b') : Back k (Dec.seq a b) (Dec.seq a' b') := by
  intro s s' h t' ht
  obtain ⟨u', h1, h2⟩ := Option.bind_eq_some_iff.mp ht
  obtain ⟨u, e1, e2⟩ := ha s s' h u' h1
  obtain ⟨t, e3, e4⟩ := hb u u' e2 t' h2
  exact ⟨t, by unfold Dec.seq; rw [e1]; exact e3, e4⟩

theorem Back.ite {a a' b b' : Dec σ} {p : Prop} [Decidable p] (ha : Back k a a') (hb : Back k b b') :
    Back k (if p then a else b) (if p then a' else b') := by
  split <;> assumption

theorem Back.get {f : Nat} {a a' : Word → Dec σ} (h : ∀ x, Back k (a x) (a' x)) : Back k (Dec.get f a) (Dec.get f a') := by
  intro s s' hs t' ht
  obtain ⟨x, h1, h2⟩ := Option.bind_eq_some_iff.mp ht
  rw [hs.2.1] at h1
  obtain ⟨t, e1, e2⟩ := h x s s' hs t' h2
  exact ⟨t, by unfold Dec.get; rw [h1]; exact e1, e2⟩

theorem Back.upd (u : List Word → Option (List Word)) : Back k (Dec.upd u : Dec σ) (Dec.upd u) := by
  intro s s' hs t' ht
  obtain ⟨g, h1, h2⟩ := Option.map_eq_some_iff.mp ht
  rw [hs.2.1] at h1
  refine ⟨{ s with g := g }, by unfold Dec.upd; rw [h1]; rfl, ?_⟩
  rw [← h2]
  exact ⟨hs.1, rfl, hs.2.2⟩

theorem Back.bit {C : Coder σ} {raw : Bool} {cx : Option Nat} {a a' : Nat → Dec σ} (h : ∀ v, Back k (a v) (a' v)) :
    Back k (Dec.bit C raw cx a) (Dec.bit C raw cx a') := by
  intro s s' hs t' ht
  obtain ⟨⟨v, c⟩, h1, h2⟩ := Option.bind_eq_some_iff.mp ht
  rw [hs.1] at h1
  obtain ⟨t, e1, e2⟩ := h v { s with c := c } { s' with c := c } ⟨rfl, hs.2.1, hs.2.2⟩ t' h2
  exact ⟨t, by unfold Dec.bit; rw [h1]; exact e1, e2⟩

theorem Back.put (i : Nat) {v v' : Int} (hv : v' = v * k) : Back k (Dec.put i v : Dec σ) (Dec.put i v') := by
  intro s s' hs t' ht
  unfold Dec.put at ht ⊢
  split at ht
  · rename_i hi
    injection ht with ht
    rw [hs.2.2, List.length_map] at hi
    rw [if_pos hi]
    refine ⟨_, rfl, ?_⟩
    rw [← ht]
    exact ⟨hs.1, hs.2.1, by simp only; rw [hs.2.2, List.map_set, hv]⟩
  · cases ht

theorem Back.add (hk : 0 < k) (i : Nat) {t u : Int → Int} (hu : ∀ y, u (y * k) = t y * k) : Back k (Dec.add i t : Dec σ) (Dec.add i u) := by
  intro s s' hs t' ht
  obtain ⟨v', h1, h2⟩ := Option.bind_eq_some_iff.mp ht
  rw [hs.2.2, List.getElem?_map] at h1
  obtain ⟨v, h3, h4⟩ := Option.map_eq_some_iff.mp h1
  subst h4
  rw [hu, ← add_mul] at h2
  split at h2
  · rename_i hb
    injection h2 with h2
    have hr : -2 ^ 31 ≤ v + t v ∧ v + t v < 2 ^ 31 := by
      obtain ⟨b1, b2⟩ := hb
      constructor <;> by_contra hc <;> nlinarith
    refine ⟨{ s with d := s.d.set i (v + t v) }, by unfold Dec.add; rw [h3, Option.bind_some, if_pos hr], ?_⟩
    rw [← h2]
    exact ⟨hs.1, hs.2.1, by simp only; rw [hs.2.2, List.map_set]⟩
  · cases h2

theorem decSign_back {C : Coder σ} {w : Nat} {raw : Bool} {oph : Int} {f dp ci : Nat} {vsc : Bool} {x : Word} :
    Back k (decSign C w raw oph f dp ci vsc x) (decSign C w raw (oph * k) f dp ci vsc x) := by
  intro s s' hs t' ht
  unfold decSign at ht ⊢
  split at ht
  · rename_i hr
    rw [if_pos hr]
    refine Back.bit (fun v => Back.seq (Back.put _ ?_) (Back.upd _)) s s' hs t' ht
    split <;> ring
  · rename_i hr
    rw [if_neg hr]
    split at ht
    · cases ht
    · rename_i hf
      rw [if_neg hf]
      obtain ⟨p, h1, ht⟩ := Option.bind_eq_some_iff.mp ht
      obtain ⟨n, h2, ht⟩ := Option.bind_eq_some_iff.mp ht
      obtain ⟨b, h3, ht⟩ := Option.bind_eq_some_iff.mp ht
      rw [hs.2.1] at h1 h2
      rw [h1, Option.bind_some, h2, Option.bind_some, h3, Option.bind_some]
      refine Back.bit (fun v => Back.seq (Back.put _ ?_) (Back.upd _)) s s' hs t' ht
      split <;> ring

theorem decSigStep_back {C : Coder σ} {o w : Nat} {raw : Bool} {oph : Int} {f dp ci : Nat} {vsc : Bool} :
    Back k (decSigStep C o w raw oph f dp ci vsc) (decSigStep C o w raw (oph * k) f dp ci vsc) :=
  Back.get fun _ => Back.ite (Back.bit fun _ => Back.seq (Back.ite (decSign_back) Back.skip) (Back.upd _)) Back.skip

theorem decRefStep_back (hk : 0 < k) {C : Coder σ} {raw : Bool} {p : Int} {f dp ci : Nat} :
    Back k (decRefStep C raw p f dp ci) (decRefStep C raw (p * k) f dp ci) := by
  refine Back.get fun _ => Back.ite (Back.bit fun v => Back.seq (Back.add hk _ fun y => ?_) (Back.upd _)) Back.skip
  have : y * k < 0 ↔ y < 0 := by
    constructor
    · intro h; by_contra hc; nlinarith
    · intro h; nlinarith
  simp only [this]
  split_ifs <;> ring

theorem decClnStep_back {C : Coder σ} {o w : Nat} {check part : Bool} {oph : Int} {f dp ci : Nat} {vsc : Bool} :
    Back k (decClnStep C o w check part oph f dp ci vsc) (decClnStep C o w check part (oph * k) f dp ci vsc) :=
  Back.get fun _ => Back.ite (Back.ite (decSign_back) (Back.bit fun _ => Back.ite Back.skip (decSign_back))) Back.skip

theorem rowsD_back (w : Nat) {a a' : Nat → Nat → Dec σ} (h : ∀ dp ci, Back k (a dp ci) (a' dp ci)) (n ci dp : Nat) :
    Back k (rowsD w a n ci dp) (rowsD w a' n ci dp) := by
  induction n generalizing ci dp with
  | zero => exact Back.skip
  | succ n ih => exact Back.seq (h _ _) (ih _ _)

theorem colsD_back {a a' : Nat → Nat → Dec σ} (h : ∀ f dp, Back k (a f dp) (a' f dp)) (n f dp : Nat) :
    Back k (colsD a n f dp) (colsD a' n f dp) := by
  induction n generalizing f dp with
  | zero => exact Back.skip
  | succ n ih => exact Back.seq (h _ _) (ih _ _)

theorem stripesD_back {a a' : Nat → Nat → Dec σ} (h : ∀ f dp, Back k (a f dp) (a' f dp)) (w n f dp : Nat) :
    Back k (stripesD a w n f dp) (stripesD a' w n f dp) := by
  induction n generalizing f dp with
  | zero => exact Back.skip
  | succ n ih => exact Back.seq (colsD_back h _ _ _) (ih _ _)

theorem passD_back (w h : Nat) {a a' b b' : Nat → Nat → Dec σ} (ha : ∀ f dp, Back k (a f dp) (a' f dp))
    (hb : ∀ f dp, Back k (b f dp) (b' f dp)) : Back k (passD w h a b) (passD w h a' b') :=
  Back.seq (stripesD_back ha _ _ _ _) (Back.ite Back.skip (colsD_back hb _ _ _))

theorem decPass_back (C : Coder σ) (o w h : Nat) (st : Style) (raw : Bool) (b r t : Nat) (hb : b + r < 30) :
    Back (2 ^ r) (decPass C o w h st raw (b + 1) t) (decPass C o w h st raw (b + r + 1) t) := by
  have hk : (0 : Int) < 2 ^ r := by positivity
  have e1 : ∀ b, 2 ^ (b + 1) >>> 1 = 2 ^ b := fun b => by
    rw [Nat.shiftRight_eq_div_pow, Nat.pow_succ]; simp
  have e2 : ((3 * 2 ^ (b + r) : Nat) : Int) = ((3 * 2 ^ b : Nat) : Int) * 2 ^ r := by push_cast; ring
  have e3 : ((2 ^ (b + r) : Nat) : Int) = ((2 ^ b : Nat) : Int) * 2 ^ r := by push_cast; ring
  unfold decPass
  simp only [e1, oph_eq b (by omega), oph_eq (b + r) hb, e2, e3]
  refine Back.ite ?_ (Back.ite ?_ (Back.seq ?_ (Back.ite ?_ Back.skip)))
  · exact passD_back _ _ (fun f dp => Back.get fun x => Back.ite (rowsD_back _ (fun _ _ => decSigStep_back) _ _ _) Back.skip)
      fun f dp => rowsD_back _ (fun _ _ => decSigStep_back) _ _ _
  · exact passD_back _ _ (fun f dp => Back.get fun x => Back.ite (rowsD_back _ (fun _ _ => decRefStep_back hk) _ _ _) Back.skip)
      fun f dp => rowsD_back _ (fun _ _ => decRefStep_back hk) _ _ _
  · refine passD_back _ _ (fun f dp => Back.get fun x => Back.ite (Back.bit fun _ => Back.ite Back.skip (Back.bit fun _ => Back.bit fun _ => ?_)) ?_)
      fun f dp => Back.seq (rowsD_back _ (fun _ _ => decClnStep_back) _ _ _) (Back.upd _)
    · exact Back.seq (Back.ite (decClnStep_back) Back.skip) (Back.seq (Back.ite (decClnStep_back) Back.skip)
        (Back.seq (Back.ite (decClnStep_back) Back.skip) (Back.seq (Back.ite (decClnStep_back) Back.skip) (Back.upd _))))
    · exact Back.seq (decClnStep_back) (Back.seq (decClnStep_back) (Back.seq (decClnStep_back) (Back.seq (decClnStep_back) (Back.upd _))))
  · exact Back.bit fun _ => Back.bit fun _ => Back.bit fun _ => Back.bit fun _ => Back.skip

theorem decPasses_back (o w h : Nat) (st : Style) (raw : Bool) (r n b t : Nat) (hb : b + r ≤ 30) (hn : n + t ≤ 3 * b) (s s' : DS Mqc)
    (hs : Sc (2 ^ r) s s') (b1 t1 : Nat) (u' : DS Mqc) (h' : decPasses o w h st raw n (b + r) t s' = some (b1, t1, u')) :
    ∃ b0 u, decPasses o w h st raw n b t s = some (b0, t1, u) ∧ b1 = b0 + r ∧ Sc (2 ^ r) u u' ∧ b0 ≤ b ∧ 3 * b + t1 = 3 * b0 + t + n := by
  induction n generalizing b t s s' with
  | zero =>
    unfold decPasses at h'
    injection h' with h'
    injection h' with e1 h'
    injection h' with e2 e3
    subst e1 e2 e3
    exact ⟨b, s, by unfold decPasses; rfl, rfl, hs, Nat.le_refl _, by omega⟩
  | succ n ih =>
    cases b with
    | zero => omega
    | succ b =>
      rw [show b + 1 + r = b + r + 1 by omega] at h'
      unfold decPasses at h' ⊢
      obtain ⟨v', h1, h2⟩ := Option.bind_eq_some_iff.mp h'
      obtain ⟨v, e1, e2⟩ := decPass_back mqcCoder o w h st raw b r t (by omega) s s' hs v' h1
      rw [e1, Option.bind_some]
      have e4 : Sc (2 ^ r) (if st.reset = true ∧ raw = false then { v with c := { v.c with ctxs := startCtxs } } else v)
          (if st.reset = true ∧ raw = false then { v' with c := { v'.c with ctxs := startCtxs } } else v') := by
        split
        · exact ⟨by simp only; rw [e2.1], e2.2.1, e2.2.2⟩
        · exact e2
      simp only at h2 ⊢
      by_cases ht : t + 1 = 3
      · rw [if_pos ht] at h2 ⊢
        obtain ⟨b0, u, k1, k2, k3, k4, k5⟩ := ih b 0 (by omega) (by omega) _ _ e4 h2
        exact ⟨b0, u, k1, k2, k3, by omega, by omega⟩
      · rw [if_neg ht] at h2 ⊢
        rw [show b + r + 1 = b + 1 + r by omega] at h2
        obtain ⟨b0, u, k1, k2, k3, k4, k5⟩ := ih (b + 1) (t + 1) (by omega) (by omega) _ _ e4 h2
        exact ⟨b0, u, k1, k2, k3, by omega, by omega⟩

theorem decSegments_back (o w h n : Nat) (st : Style) (hst : st.bypass = false) (r : Nat) (segs : List (Nat × Nat)) (q q' : SegSt)
    (hb : q.bp1 + r ≤ 30) (hn : (segs.map Prod.snd).sum + q.t ≤ 3 * q.bp1)
    (e1 : q'.buf = q.buf) (e2 : q'.ctxs = q.ctxs) (e3 : q'.g = q.g) (e4 : q'.d = q.d.map (· * 2 ^ r)) (e5 : q'.bp1 = q.bp1 + r) (e6 : q'.t = q.t)
    (e7 : q'.pos = q.pos) (v' : SegSt) (h' : decSegments o w h n st q' segs = some v') :
    ∃ v, decSegments o w h n st q segs = some v ∧ v'.d = v.d.map (· * 2 ^ r) := by
  induction segs generalizing q q' with
  | nil =>
    unfold decSegments at h' ⊢
    injection h' with h'
    exact ⟨q, rfl, by rw [← h', e4]⟩
  | cons sg l ih =>
    rw [List.map_cons, List.sum_cons] at hn
    have hraw : ∀ n b t, rawD st n b t = false := fun n b t => by unfold rawD; rw [hst, Bool.and_false]
    unfold decSegments at h' ⊢
    obtain ⟨u', h1, h2⟩ := Option.bind_eq_some_iff.mp h'
    unfold decSegment at h1 ⊢
    simp only [hraw, e1, e2, e5, e6, e7, e3] at h1 ⊢
    obtain ⟨b0, k0, h1⟩ := Option.bind_eq_some_iff.mp h1
    obtain ⟨b1, k1, h1⟩ := Option.bind_eq_some_iff.mp h1
    obtain ⟨c, kc, h1⟩ := Option.bind_eq_some_iff.mp h1
    obtain ⟨⟨p1, t1, d'⟩, kp, h1⟩ := Option.bind_eq_some_iff.mp h1
    obtain ⟨f, kf, h1⟩ := Option.map_eq_some_iff.mp h1
    obtain ⟨p0, d, g1, g2, g3, g4, g5⟩ := decPasses_back o w h st false r sg.2 q.bp1 q.t hb (by omega) ⟨c, q.g, q.d⟩ ⟨c, q.g, q'.d⟩
      ⟨rfl, rfl, e4⟩ p1 t1 d' kp
    simp only at kf
    rw [g3.1] at kf
    rw [k0, Option.bind_some, k1, Option.bind_some, kc, Option.bind_some, g1, Option.bind_some]
    simp only
    rw [kf, Option.map_some, Option.bind_some]
    exact ih ⟨f.mem, f.ctxs, d.g, d.d, p0, t1, q.pos + sg.1⟩ u' (by simp only; omega) (by simp only; omega) (by rw [← h1]) (by rw [← h1])
      (by rw [← h1]; exact g3.2.1) (by rw [← h1]; exact g3.2.2) (by rw [← h1]; exact g2) (by rw [← h1]) (by rw [← h1]) h2

theorem unshift1_mul (r : Nat) (v : Int) : unshift1 r (v * 2 ^ r) = v := by
  have hp : 0 < 2 ^ r := Nat.pow_pos (by omega)
  have e : (v * 2 ^ r).natAbs = v.natAbs * 2 ^ r := by rw [Int.natAbs_mul, Int.natAbs_pow]; rfl
  unfold unshift1
  rw [e, Nat.mul_div_cancel _ hp]
  have hs : v * 2 ^ r < 0 ↔ v < 0 := by
    have : (0 : Int) < 2 ^ r := by positivity
    constructor
    · intro h; by_contra hc; nlinarith
    · intro h; nlinarith
  rcases Nat.eq_zero_or_pos v.natAbs with h0 | h0
  · rw [show v = 0 by omega]; simp
  · rw [if_pos (by
      have : 2 ^ r ≤ v.natAbs * 2 ^ r := Nat.le_mul_of_pos_left _ h0
      exact_mod_cast this)]
    simp only [hs]
    split <;> omega

end Jp2.T1

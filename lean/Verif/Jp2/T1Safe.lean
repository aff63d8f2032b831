import Verif.Jp2.T1Rep
import Verif.Jp2.MqcSeg
/-!
# Helpers for C48: decoder passes on any bits stay inside their arrays
-/
namespace Jp2.T1
open Jp2.Mqc (Mqc startCtxs)

variable {σ : Type}

/-- `a` succeeds whatever the coder delivers: it keeps the invariant `I` of the coder, the length `N` of the flags and `L` of the
coefficients; it changes coefficients in `S` only, which are at most `M0` before; all are at most `M1` before and after. -/
def Op (I : σ → Prop) (N L : Nat) (M0 M1 : Int) (S : Nat → Prop) (a : Dec σ) : Prop :=
  ∀ s, I s.c → s.g.length = N → s.d.length = L → (∀ (i : Nat) v, s.d[i]? = some v → -M1 ≤ v ∧ v ≤ M1) →
    (∀ i v, S i → s.d[i]? = some v → -M0 ≤ v ∧ v ≤ M0) →
    ∃ s', a s = some s' ∧ I s'.c ∧ s'.g.length = N ∧ s'.d.length = L ∧ (∀ (i : Nat) v, s'.d[i]? = some v → -M1 ≤ v ∧ v ≤ M1) ∧
      ∀ i, ¬S i → s'.d[i]? = s.d[i]?

variable {I : σ → Prop} {N L : Nat} {M0 M1 : Int} {S T : Nat → Prop}

theorem Op.mono {a : Dec σ} (h : Op I N L M0 M1 S a) (hst : ∀ i, S i → T i) : Op I N L M0 M1 T a := by
  intro s h1 h2 h3 h4 h5
  obtain ⟨s', k1, k2, k3, k4, k5, k6⟩ := h s h1 h2 h3 h4 fun i v hi => h5 i v (hst i hi)
  exact ⟨s', k1, k2, k3, k4, k5, fun i hi => k6 i fun hs => hi (hst i hs)⟩

theorem Op.skip (S : Nat → Prop) : Op I N L M0 M1 S (Dec.skip) := fun s h1 h2 h3 h4 _ => ⟨s, rfl, h1, h2, h3, h4, fun _ _ => rfl⟩

theorem Op.seq {a b : Dec σ} (ha : Op I N L M0 M1 S a) (hb : Op I N L M0 M1 T b) (hd : ∀ i, S i → ¬T i) :
    Op I N L M0 M1 (fun i => S i ∨ T i) (Dec.seq a b) := by
  intro s h1 h2 h3 h4 h5
  obtain ⟨s1, k1, k2, k3, k4, k5, k6⟩ := ha s h1 h2 h3 h4 fun i v hi => h5 i v (Or.inl hi)
  obtain ⟨s2, j1, j2, j3, j4, j5, j6⟩ := hb s1 k2 k3 k4 k5 fun i v hi hv => by
    rw [k6 i fun hs => hd i hs hi] at hv
    exact h5 i v (Or.inr hi) hv
  refine ⟨s2, ?_, j2, j3, j4, j5, fun i hi => ?_⟩
  · unfold Dec.seq; rw [k1, Option.bind_some, j1]
  · rw [j6 i fun h => hi (Or.inr h), k6 i fun h => hi (Or.inl h)]

/-- A step that leaves the coefficients alone, then one that works on `S`. -/
theorem Op.seq' {a b : Dec σ} (ha : Op I N L M0 M1 (fun _ => False) a) (hb : Op I N L M0 M1 S b) : Op I N L M0 M1 S (Dec.seq a b) :=
  (ha.seq hb fun _ h => h.elim).mono fun _ h => h.resolve_left id

theorem Op.seqr {a b : Dec σ} (ha : Op I N L M0 M1 S a) (hb : Op I N L M0 M1 (fun _ => False) b) : Op I N L M0 M1 S (Dec.seq a b) :=
  (ha.seq hb fun _ _ h => h.elim).mono fun _ h => h.resolve_right id

theorem Op.ite {a b : Dec σ} {p : Prop} [Decidable p] (ha : p → Op I N L M0 M1 S a) (hb : ¬p → Op I N L M0 M1 S b) :
    Op I N L M0 M1 S (if p then a else b) := by
  split
  · exact ha (by assumption)
  · exact hb (by assumption)

theorem Op.get {f : Nat} {k : Word → Dec σ} (hf : f < N) (h : ∀ x, Op I N L M0 M1 S (k x)) : Op I N L M0 M1 S (Dec.get f k) := by
  intro s h1 h2 h3 h4 h5
  unfold Dec.get
  rw [List.getElem?_eq_getElem (by omega), Option.bind_some]
  exact h _ s h1 h2 h3 h4 h5

theorem Op.upd {u : List Word → Option (List Word)} (h : ∀ F, F.length = N → ∃ F', u F = some F' ∧ F'.length = N) :
    Op I N L M0 M1 S (Dec.upd u) := by
  intro s h1 h2 h3 h4 h5
  obtain ⟨F', k1, k2⟩ := h s.g h2
  exact ⟨{ s with g := F' }, by unfold Dec.upd; rw [k1]; rfl, h1, k2, h3, h4, fun _ _ => rfl⟩

theorem Op.put {i : Nat} {v : Int} (hi : i < L) (hv : -M1 ≤ v ∧ v ≤ M1) : Op I N L M0 M1 (fun j => j = i) (Dec.put (σ := σ) i v) := by
  intro s h1 h2 h3 h4 h5
  refine ⟨{ s with d := s.d.set i v }, ?_, h1, h2, ?_, fun j x hx => ?_, fun j hj => ?_⟩
  · unfold Dec.put; rw [if_pos (by omega)]
  · show (s.d.set i v).length = L
    rw [List.length_set]; exact h3
  · have hx' : (s.d.set i v)[j]? = some x := hx
    by_cases hj : j = i
    · subst hj
      rw [List.getElem?_set_self (by omega)] at hx'
      simp only [Option.some.injEq] at hx'
      rw [← hx']; exact hv
    · rw [List.getElem?_set_ne (Ne.symm hj)] at hx'
      exact h4 j x hx'
  · exact List.getElem?_set_ne (Ne.symm hj)

theorem Op.add {i : Nat} {t : Int → Int} (hi : i < L) (p : Int) (ht : ∀ y, t y = p ∨ t y = -p) (hp : 0 ≤ p) (hM : M0 + p ≤ M1) (hM1 : M1 < 2 ^ 31) :
    Op I N L M0 M1 (fun j => j = i) (Dec.add (σ := σ) i t) := by
  intro s h1 h2 h3 h4 h5
  have hg : s.d[i]? = some (s.d[i]'(by omega)) := List.getElem?_eq_getElem (by omega)
  generalize s.d[i]'(by omega) = v at hg
  have hb := h5 i v rfl hg
  have ht := ht v
  refine ⟨{ s with d := s.d.set i (v + t v) }, ?_, h1, h2, ?_, fun j x hx => ?_, fun j hj => ?_⟩
  · unfold Dec.add
    rw [hg, Option.bind_some, if_pos (by omega)]
  · show (s.d.set i _).length = L
    rw [List.length_set]; exact h3
  · have hx' : (s.d.set i (v + t v))[j]? = some x := hx
    by_cases hj : j = i
    · subst hj
      rw [List.getElem?_set_self (by omega)] at hx'
      simp only [Option.some.injEq] at hx'
      rw [← hx']; omega
    · rw [List.getElem?_set_ne (Ne.symm hj)] at hx'
      exact h4 j x hx'
  · exact List.getElem?_set_ne (Ne.symm hj)

/-- The coder never fails. -/
structure Runs (C : Coder σ) (I : σ → Prop) (raw : Bool) : Prop where
  mq : raw = false → ∀ s cx, I s → cx < 19 → ∃ d s', C.mq s cx = some (d, s') ∧ I s'
  raw : raw = true → ∀ s, I s → ∃ d s', C.raw s = some (d, s') ∧ I s'

theorem Op.bit {C : Coder σ} {raw : Bool} (hC : Runs C I raw) {cx : Option Nat} (hcx : raw = false → ∃ c, cx = some c ∧ c < 19) {k : Nat → Dec σ}
    (h : ∀ v, Op I N L M0 M1 S (k v)) : Op I N L M0 M1 S (Dec.bit C raw cx k) := by
  intro s h1 h2 h3 h4 h5
  have : ∃ d c', (if raw then C.raw s.c else cx.bind (C.mq s.c)) = some (d, c') ∧ I c' := by
    cases raw with
    | true =>
      obtain ⟨d, c', k1, k2⟩ := hC.raw rfl s.c h1
      exact ⟨d, c', by rw [if_pos rfl]; exact k1, k2⟩
    | false =>
      obtain ⟨c, e1, e2⟩ := hcx rfl
      obtain ⟨d, c', k1, k2⟩ := hC.mq rfl s.c c h1 e2
      exact ⟨d, c', by rw [if_neg (by decide), e1, Option.bind_some]; exact k1, k2⟩
  obtain ⟨d, c', k1, k2⟩ := this
  obtain ⟨s', j⟩ := h d { s with c := c' } k2 h2 h3 h4 h5
  refine ⟨s', ?_, j.2⟩
  unfold Dec.bit
  rw [k1, Option.bind_some]
  exact j.1

/-! ## Flags and tables -/

theorem orAt_ok {F : List Word} {i : Nat} (v : Word) (h : i < F.length) : ∃ F', orAt F i v = some F' ∧ F'.length = F.length := by
  unfold orAt
  rw [List.getElem?_eq_getElem h]
  exact ⟨_, rfl, by simp⟩

theorem clrAt_ok {F : List Word} {i : Nat} (v : Word) (h : i < F.length) : ∃ F', clrAt F i v = some F' ∧ F'.length = F.length := by
  unfold clrAt
  rw [List.getElem?_eq_getElem h]
  exact ⟨_, rfl, by simp⟩

theorem ctxZc_ok {o : Nat} (ho : o < 4) (f : Word) : ∃ c, ctxZc o f = some c ∧ c < 19 := by
  have hn : (f &&& NEIGHBOURS).toNat < 512 := by
    rw [BitVec.toNat_and]
    exact Nat.lt_of_le_of_lt Nat.and_le_right (by decide)
  have hl : ∀ l ∈ lutZc, l.length = 512 ∧ ∀ c ∈ l, c < 19 := by decide +kernel
  have h4 : lutZc.length = 4 := by decide +kernel
  unfold ctxZc
  rw [List.getElem?_eq_getElem (by omega), Option.bind_some]
  obtain ⟨k1, k2⟩ := hl _ (List.getElem_mem (by omega : o < lutZc.length))
  rw [List.getElem?_eq_getElem (by omega)]
  exact ⟨_, rfl, k2 _ (List.getElem_mem _)⟩

theorem ctxMag_lt (f : Word) : ctxMag f < 19 := by
  unfold ctxMag; repeat' split
  all_goals omega

theorem sgnIndex_lt (x p n : Word) (ci : Nat) : sgnIndex x p n ci < 256 := by
  unfold sgnIndex
  have hand : ∀ (a : Word) (m : Word), m.toNat < 256 → (a &&& m).toNat < 256 := fun a m hm => by
    rw [BitVec.toNat_and]; exact Nat.lt_of_le_of_lt Nat.and_le_right hm
  have hor : ∀ a b : Word, a.toNat < 256 → b.toNat < 256 → (a ||| b).toNat < 256 := fun a b ha hb => by
    rw [BitVec.toNat_or]; exact Nat.or_lt_two_pow (n := 8) ha hb
  refine hor _ _ (hor _ _ (hor _ _ (hor _ _ (hand _ _ (by decide)) (hand _ _ (by decide))) (hand _ _ (by decide))) ?_) (hand _ _ (by decide))
  split <;> exact hand _ _ (by decide)

theorem lutSc_ok {i : Nat} (h : i < 256) : ∃ c, lutSc[i]? = some c ∧ c < 19 := by
  have h1 : lutSc.length = 256 := by decide +kernel
  have h2 : ∀ x ∈ lutSc, x < 19 := by decide +kernel
  rw [List.getElem?_eq_getElem (by omega)]
  exact ⟨_, rfl, h2 _ (List.getElem_mem _)⟩

theorem lutSpb_ok {i : Nat} (h : i < 256) : ∃ c, lutSpb[i]? = some c := by
  have h1 : lutSpb.length = 256 := by decide +kernel
  rw [List.getElem?_eq_getElem (by omega)]
  exact ⟨_, rfl⟩

/-- The cell is inside the border. -/
def In (w N f : Nat) : Prop := w + 3 ≤ f ∧ f + w + 3 < N

theorem updateFlags_ok {w f ci s : Nat} {vsc : Bool} (hf : In w N f) (F : List Word) (hF : F.length = N) :
    ∃ F', updateFlags (w + 2) f ci s vsc F = some F' ∧ F'.length = N := by
  obtain ⟨h1, h2⟩ := hf
  unfold updateFlags
  rw [if_neg (by omega)]
  obtain ⟨F1, a1, a2⟩ := orAt_ok (F := F) (i := f - 1) (0x20#32 <<< (3 * ci)) (by omega)
  rw [a1, Option.bind_some]
  obtain ⟨F2, b1, b2⟩ := orAt_ok (F := F1) (i := f) (((BitVec.ofNat 32 s <<< 19) ||| 0x10#32) <<< (3 * ci)) (by omega)
  rw [b1, Option.bind_some]
  obtain ⟨F3, c1, c2⟩ := orAt_ok (F := F2) (i := f + 1) (0x8#32 <<< (3 * ci)) (by omega)
  rw [c1, Option.bind_some]
  have north : ∃ F', (if ci = 0 ∧ vsc = false then
      if f < w + 2 + 1 then none else
      (orAt F3 (f - (w + 2)) ((BitVec.ofNat 32 s <<< 31) ||| 0x10000#32)).bind fun F =>
      (orAt F (f - (w + 2) - 1) 0x20000#32).bind fun F => orAt F (f - (w + 2) + 1) 0x8000#32
    else some F3) = some F' ∧ F'.length = N := by
    split
    · rw [if_neg (by omega)]
      obtain ⟨G1, a1, a2⟩ := orAt_ok (F := F3) (i := f - (w + 2)) ((BitVec.ofNat 32 s <<< 31) ||| 0x10000#32) (by omega)
      rw [a1, Option.bind_some]
      obtain ⟨G2, b1, b2⟩ := orAt_ok (F := G1) (i := f - (w + 2) - 1) 0x20000#32 (by omega)
      rw [b1, Option.bind_some]
      obtain ⟨G3, c1, c2⟩ := orAt_ok (F := G2) (i := f - (w + 2) + 1) 0x8000#32 (by omega)
      exact ⟨G3, c1, by omega⟩
    · exact ⟨F3, rfl, by omega⟩
  obtain ⟨F4, d1, d2⟩ := north
  rw [d1, Option.bind_some]
  split
  · obtain ⟨G1, a1, a2⟩ := orAt_ok (F := F4) (i := f + (w + 2)) ((BitVec.ofNat 32 s <<< 18) ||| 0x2#32) (by omega)
    rw [a1, Option.bind_some]
    obtain ⟨G2, b1, b2⟩ := orAt_ok (F := G1) (i := f + (w + 2) - 1) 0x4#32 (by omega)
    rw [b1, Option.bind_some]
    obtain ⟨G3, c1, c2⟩ := orAt_ok (F := G2) (i := f + (w + 2) + 1) 0x1#32 (by omega)
    exact ⟨G3, c1, by omega⟩
  · exact ⟨F4, rfl, d2⟩

/-! ## Steps -/

variable {C : Coder σ} {raw : Bool} {w : Nat}

theorem decSign_op (hC : Runs C I raw) {oph : Int} (ho : 0 ≤ oph ∧ oph ≤ M1) {f dp ci : Nat} (hf : In w N f) (hd : dp < L) (vsc : Bool) (x : Word) :
    Op I N L M0 M1 (fun i => i = dp) (decSign C w raw oph f dp ci vsc x) := by
  have hput : ∀ (b : Bool) (v : Nat), Op I N L M0 M1 (fun i => i = dp)
      (Dec.seq (Dec.put dp (if b = true then -oph else oph)) (Dec.upd (σ := σ) (updateFlags (w + 2) f ci v vsc))) := fun b v =>
    Op.seqr (Op.put hd (by split <;> omega)) (Op.upd (updateFlags_ok hf))
  intro s h1 h2 h3 h4 h5
  unfold decSign
  split
  · rename_i hr
    subst hr
    exact Op.bit hC (fun h => by cases h) (fun v => by
      have := hput (decide (v ≠ 0)) v
      simpa using this) s h1 h2 h3 h4 h5
  · rename_i hr
    have hr' : raw = false := by simpa using hr
    subst hr'
    obtain ⟨g1, g2⟩ := hf
    rw [if_neg (by omega), List.getElem?_eq_getElem (by omega), Option.bind_some, List.getElem?_eq_getElem (by omega), Option.bind_some]
    have hi := sgnIndex_lt x (s.g[f - 1]'(by omega)) (s.g[f + 1]'(by omega)) ci
    generalize sgnIndex x (s.g[f - 1]'(by omega)) (s.g[f + 1]'(by omega)) ci = idx at hi
    obtain ⟨spb, e1⟩ := lutSpb_ok hi
    rw [e1, Option.bind_some]
    exact Op.bit hC (fun _ => lutSc_ok hi) (fun v => by
      have := hput (decide (v ^^^ spb ≠ 0)) (v ^^^ spb)
      simpa using this) s h1 h2 h3 h4 h5

theorem decSigStep_op (hC : Runs C I raw) {o : Nat} (ho : o < 4) {oph : Int} (hoph : 0 ≤ oph ∧ oph ≤ M1) {f dp ci : Nat} (hf : In w N f)
    (hd : dp < L) (vsc : Bool) : Op I N L M0 M1 (fun i => i = dp) (decSigStep C o w raw oph f dp ci vsc) := by
  have hfN : f < N := by have := hf.2; omega
  refine Op.get hfN fun x => Op.ite (fun _ => Op.bit hC (fun _ => ctxZc_ok ho _) fun v => Op.seqr (Op.ite (fun _ => decSign_op hC hoph hf hd vsc x) fun _ => Op.skip _)
    (Op.upd fun F hF => ?_)) fun _ => Op.skip _
  obtain ⟨F', k1, k2⟩ := orAt_ok (F := F) (i := f) (PI_THIS <<< (3 * ci)) (by omega)
  exact ⟨F', k1, by omega⟩

theorem decRefStep_op (hC : Runs C I raw) {p : Int} (hp : 0 ≤ p) (hM : M0 + p ≤ M1) (hM1 : M1 < 2 ^ 31) {f dp ci : Nat} (hf : In w N f)
    (hd : dp < L) : Op I N L M0 M1 (fun i => i = dp) (decRefStep C raw p f dp ci) := by
  have hfN : f < N := by have := hf.2; omega
  refine Op.get hfN fun x => Op.ite (fun _ => Op.bit hC (fun _ => ⟨_, rfl, ctxMag_lt _⟩) fun v =>
    Op.seqr (Op.add hd p (fun y => ?_) hp hM hM1) (Op.upd fun F hF => ?_)) fun _ => Op.skip _
  · exact ite_eq_or_eq _ _ _
  · obtain ⟨F', k1, k2⟩ := orAt_ok (F := F) (i := f) (MU_THIS <<< (3 * ci)) (by omega)
    exact ⟨F', k1, by omega⟩

theorem decClnStep_op (hC : Runs C I false) {o : Nat} (ho : o < 4) {oph : Int} (hoph : 0 ≤ oph ∧ oph ≤ M1) {f dp ci : Nat} (hf : In w N f)
    (hd : dp < L) (check part vsc : Bool) : Op I N L M0 M1 (fun i => i = dp) (decClnStep C o w check part oph f dp ci vsc) := by
  have hfN : f < N := by have := hf.2; omega
  exact Op.get hfN fun x => Op.ite (fun _ => Op.ite (fun _ => decSign_op hC hoph hf hd vsc x) fun _ => Op.bit hC (fun _ => ctxZc_ok ho _) fun v =>
    Op.ite (fun _ => Op.skip _) fun _ => decSign_op hC hoph hf hd vsc x) fun _ => Op.skip _

/-! ## Loops -/

/-- The coefficients of `n` rows of a column. -/
def Strip (w n dp i : Nat) : Prop := ∃ j < n, i = dp + j * w

theorem rowsD_op {step : Nat → Nat → Dec σ} (n ci dp : Nat) (hw : 0 < w)
    (h : ∀ j < n, Op I N L M0 M1 (fun i => i = dp + j * w) (step (dp + j * w) (ci + j))) : Op I N L M0 M1 (Strip w n dp) (rowsD w step n ci dp) := by
  induction n generalizing ci dp with
  | zero => exact Op.skip _
  | succ n ih =>
    unfold rowsD
    have h0 := h 0 (by omega)
    rw [Nat.zero_mul, Nat.add_zero, Nat.add_zero] at h0
    refine (h0.seq (ih (ci + 1) (dp + w) fun j hj => ?_) ?_).mono ?_
    · have := h (j + 1) (by omega)
      rw [Nat.add_mul, Nat.one_mul] at this
      rw [show dp + w + j * w = dp + (j * w + w) by omega, show ci + 1 + j = ci + (j + 1) by omega]
      exact this
    · rintro i rfl ⟨j, _, hj⟩
      omega
    · rintro i (rfl | ⟨j, hj, rfl⟩)
      · exact ⟨0, by omega, by omega⟩
      · exact ⟨j + 1, by omega, by rw [Nat.add_mul]; omega⟩

theorem colsD_op {col : Nat → Nat → Dec σ} (m n f dp : Nat) (hn : n ≤ w)
    (h : ∀ x < n, Op I N L M0 M1 (Strip w m (dp + x)) (col (f + x) (dp + x))) :
    Op I N L M0 M1 (fun i => ∃ x < n, Strip w m (dp + x) i) (colsD col n f dp) := by
  induction n generalizing f dp with
  | zero => exact Op.skip _
  | succ n ih =>
    unfold colsD
    refine ((h 0 (by omega)).seq (ih (f + 1) (dp + 1) (by omega) fun x hx => ?_) ?_).mono ?_
    · have := h (x + 1) (by omega)
      rw [show dp + 1 + x = dp + (x + 1) by omega, show f + 1 + x = f + (x + 1) by omega]
      exact this
    · rintro i ⟨j, _, h1⟩ ⟨x, hx, j', _, h2⟩
      have e : j * w = 1 + x + j' * w := by omega
      have := congrArg (· % w) e
      simp only [Nat.mul_mod_left, Nat.add_mul_mod_self_right] at this
      rw [Nat.mod_eq_of_lt (by omega)] at this
      omega
    · rintro i (h1 | ⟨x, hx, h1⟩)
      · exact ⟨0, by omega, h1⟩
      · exact ⟨x + 1, by omega, by rw [show dp + (x + 1) = dp + 1 + x by omega]; exact h1⟩

theorem stripesD_op {col : Nat → Nat → Dec σ} (n f dp : Nat)
    (h : ∀ k < n, ∀ x < w, Op I N L M0 M1 (Strip w 4 (dp + k * (4 * w) + x)) (col (f + k * (w + 2) + x) (dp + k * (4 * w) + x))) :
    Op I N L M0 M1 (fun i => dp ≤ i ∧ i < dp + n * (4 * w)) (stripesD col w n f dp) := by
  induction n generalizing f dp with
  | zero => exact Op.skip _
  | succ n ih =>
    unfold stripesD
    have h0 := h 0 (by omega)
    simp only [Nat.zero_mul, Nat.add_zero] at h0
    refine (((colsD_op 4 w f dp (Nat.le_refl _) h0).mono (T := fun i => dp ≤ i ∧ i < dp + 4 * w) ?_).seq (ih (f + w + 2) (dp + w + 3 * w) fun k hk x hx => ?_) ?_).mono ?_
    · rintro i ⟨x, hx, j, hj, rfl⟩
      have : j * w ≤ 3 * w := Nat.mul_le_mul_right _ (by omega)
      omega
    · have := h (k + 1) (by omega) x hx
      rw [Nat.add_mul, Nat.add_mul] at this
      rw [show dp + w + 3 * w + k * (4 * w) + x = dp + (k * (4 * w) + 1 * (4 * w)) + x by omega,
        show f + w + 2 + k * (w + 2) + x = f + (k * (w + 2) + 1 * (w + 2)) + x by omega]
      exact this
    · rintro i ⟨_, h1⟩ ⟨h2, _⟩
      omega
    · rintro i (⟨h1, h2⟩ | ⟨h1, h2⟩)
      · rw [Nat.add_mul]; omega
      · rw [Nat.add_mul]; omega

/-- The number of flag words. -/
def cells (w h : Nat) : Nat := (h / 4 + (if h % 4 = 0 then 0 else 1) + 2) * (w + 2)

theorem initFlags_len (w h : Nat) : (initFlags w h).length = cells w h := by
  unfold initFlags cells
  split <;> simp [Nat.add_mul] <;> omega

theorem passD_op {h : Nat} {full part : Nat → Nat → Dec σ} (hN : N = cells w h) (hL : L = w * h)
    (hfull : ∀ f dp, In w N f → dp + 3 * w < L → 0 < w → Op I N L M0 M1 (Strip w 4 dp) (full f dp))
    (hpart : ∀ f dp, In w N f → dp + (h % 4 - 1) * w < L → 0 < w → 0 < h % 4 → Op I N L M0 M1 (Strip w (h % 4) dp) (part f dp)) :
    Op I N L M0 M1 (fun _ => True) (passD w h full part) := by
  have hLe : L = h / 4 * (4 * w) + h % 4 * w := by
    rw [hL, Nat.mul_comm w h, ← Nat.mul_assoc, ← Nat.add_mul]
    congr 1
    omega
  have hNe : N = h / 4 * (w + 2) + (if h % 4 = 0 then 0 else 1) * (w + 2) + 2 * (w + 2) := by
    rw [hN]; unfold cells; rw [Nat.add_mul, Nat.add_mul]
  unfold passD
  refine ((stripesD_op (h / 4) (w + 3) 0 fun k hk x hx => ?_).seq (T := fun i => h / 4 * (4 * w) ≤ i) ?_ ?_).mono fun _ _ => trivial
  · have hk1 : (k + 1) * (w + 2) ≤ h / 4 * (w + 2) := Nat.mul_le_mul_right _ (by omega)
    have hk2 : (k + 1) * (4 * w) ≤ h / 4 * (4 * w) := Nat.mul_le_mul_right _ (by omega)
    rw [Nat.add_mul] at hk1 hk2
    refine hfull _ _ ⟨by omega, ?_⟩ (by omega) (by omega)
    generalize (if h % 4 = 0 then 0 else 1) * (w + 2) = z at hNe
    omega
  · refine Op.ite (fun _ => Op.skip _) fun h4 => ?_
    rw [if_neg h4] at hNe
    refine (colsD_op (h % 4) w _ _ (Nat.le_refl _) fun x hx => ?_).mono ?_
    · have he : h % 4 * w = (h % 4 - 1) * w + w := by
        rw [← Nat.succ_mul]; congr 1; omega
      refine hpart _ _ ⟨by omega, by omega⟩ ?_ (by omega) (by omega)
      rw [show w + 3 * w = 4 * w by omega]
      omega
    · rintro i ⟨x, _, j, _, rfl⟩
      rw [show w + 3 * w = 4 * w by omega]
      omega
  · rintro i ⟨_, h1⟩ h2
    omega

/-! ## Passes -/

theorem decSigPass_op {h : Nat} (hN : N = cells w h) (hL : L = w * h) (hC : Runs C I raw) {o : Nat} (ho : o < 4) {oph : Int} (hoph : 0 ≤ oph ∧ oph ≤ M1)
    (vsc : Bool) : Op I N L M0 M1 (fun _ => True) (decSigPass C o w h raw oph vsc) := by
  refine passD_op hN hL (fun f dp hf hd hw => Op.get (by have := hf.2; omega) fun x => Op.ite (fun _ => ?_) fun _ => Op.skip _) fun f dp hf hd hw h4 => ?_
  · refine rowsD_op 4 0 dp hw fun j hj => ?_
    have : j * w ≤ 3 * w := Nat.mul_le_mul_right _ (by omega)
    exact decSigStep_op hC ho hoph hf (by omega) _
  · refine rowsD_op (h % 4) 0 dp hw fun j hj => ?_
    have : j * w ≤ (h % 4 - 1) * w := Nat.mul_le_mul_right _ (by omega)
    exact decSigStep_op hC ho hoph hf (by omega) _

theorem decRefPass_op {h : Nat} (hN : N = cells w h) (hL : L = w * h) (hC : Runs C I raw) {p : Int} (hp : 0 ≤ p) (hM : M0 + p ≤ M1) (hM1 : M1 < 2 ^ 31) :
    Op I N L M0 M1 (fun _ => True) (decRefPass C w h raw p) := by
  refine passD_op hN hL (fun f dp hf hd hw => Op.get (by have := hf.2; omega) fun x => Op.ite (fun _ => ?_) fun _ => Op.skip _) fun f dp hf hd hw h4 => ?_
  · refine rowsD_op 4 0 dp hw fun j hj => ?_
    have : j * w ≤ 3 * w := Nat.mul_le_mul_right _ (by omega)
    exact decRefStep_op hC hp hM hM1 hf (by omega)
  · refine rowsD_op (h % 4) 0 dp hw fun j hj => ?_
    have : j * w ≤ (h % 4 - 1) * w := Nat.mul_le_mul_right _ (by omega)
    exact decRefStep_op hC hp hM hM1 hf (by omega)

theorem clr_op {f : Nat} (hf : f < N) : Op I N L M0 M1 (fun _ => False) (Dec.upd (σ := σ) fun F => clrAt F f PI_ALL) :=
  Op.upd fun F hF => by
    obtain ⟨F', k1, k2⟩ := clrAt_ok (F := F) (i := f) PI_ALL (by omega)
    exact ⟨F', k1, by omega⟩

theorem four_op {a b c d : Dec σ} {dp f : Nat} (hw : 0 < w) (hf : f < N) (ha : Op I N L M0 M1 (fun i => i = dp) a) (hb : Op I N L M0 M1 (fun i => i = dp + w) b)
    (hc : Op I N L M0 M1 (fun i => i = dp + 2 * w) c) (hd : Op I N L M0 M1 (fun i => i = dp + 3 * w) d) :
    Op I N L M0 M1 (Strip w 4 dp) (Dec.seq a <| Dec.seq b <| Dec.seq c <| Dec.seq d <| Dec.upd fun F => clrAt F f PI_ALL) := by
  refine (ha.seq (hb.seq (hc.seq (hd.seqr (clr_op hf)) ?_) ?_) ?_).mono ?_
  · rintro i rfl h; omega
  · rintro i rfl h; omega
  · rintro i rfl h; omega
  · rintro i (h | h | h | h)
    · exact ⟨0, by omega, by omega⟩
    · exact ⟨1, by omega, by omega⟩
    · exact ⟨2, by omega, by omega⟩
    · exact ⟨3, by omega, by omega⟩

theorem decClnCol_op (hC : Runs C I false) {o : Nat} (ho : o < 4) {oph : Int} (hoph : 0 ≤ oph ∧ oph ≤ M1) (vsc : Bool) {f dp : Nat} (hf : In w N f)
    (hd : dp + 3 * w < L) (hw : 0 < w) : Op I N L M0 M1 (Strip w 4 dp) (decClnCol C o w oph vsc f dp) := by
  have hfN : f < N := by have := hf.2; omega
  refine Op.get hfN fun x => Op.ite (fun _ => ?_) fun _ => ?_
  · refine Op.bit hC (fun _ => ⟨17, rfl, by omega⟩) fun v => Op.ite (fun _ => Op.skip _) fun _ => Op.bit hC (fun _ => ⟨18, rfl, by omega⟩) fun a =>
      Op.bit hC (fun _ => ⟨18, rfl, by omega⟩) fun b => ?_
    exact four_op hw hfN (Op.ite (fun _ => decClnStep_op hC ho hoph hf (by omega) _ _ _) fun _ => Op.skip _)
      (Op.ite (fun _ => decClnStep_op hC ho hoph hf (by omega) _ _ _) fun _ => Op.skip _)
      (Op.ite (fun _ => decClnStep_op hC ho hoph hf (by omega) _ _ _) fun _ => Op.skip _)
      (Op.ite (fun _ => decClnStep_op hC ho hoph hf (by omega) _ _ _) fun _ => Op.skip _)
  · exact four_op hw hfN (decClnStep_op hC ho hoph hf (by omega) _ _ _) (decClnStep_op hC ho hoph hf (by omega) _ _ _)
      (decClnStep_op hC ho hoph hf (by omega) _ _ _) (decClnStep_op hC ho hoph hf (by omega) _ _ _)

theorem decClnPass_op {h : Nat} (hN : N = cells w h) (hL : L = w * h) (hC : Runs C I false) {o : Nat} (ho : o < 4) {oph : Int} (hoph : 0 ≤ oph ∧ oph ≤ M1)
    (vsc : Bool) : Op I N L M0 M1 (fun _ => True) (decClnPass C o w h oph vsc) := by
  refine passD_op hN hL (fun f dp hf hd hw => decClnCol_op hC ho hoph vsc hf hd hw) fun f dp hf hd hw h4 => ?_
  refine Op.seqr (rowsD_op (h % 4) 0 dp hw fun j hj => ?_) (clr_op (by have := hf.2; omega))
  have : j * w ≤ (h % 4 - 1) * w := Nat.mul_le_mul_right _ (by omega)
  exact decClnStep_op hC ho hoph hf (by omega) _ _ _

theorem decSegsym_op (hC : Runs C I false) : Op I N L M0 M1 S (decSegsym C) := by
  have h18 : (false = false → ∃ c, some 18 = some c ∧ c < 19) := fun _ => ⟨18, rfl, by omega⟩
  exact Op.bit hC h18 fun _ => Op.bit hC h18 fun _ => Op.bit hC h18 fun _ => Op.bit hC h18 fun _ => Op.skip _

end Jp2.T1

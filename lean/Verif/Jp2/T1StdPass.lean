import Verif.Jp2.T1StdStep
/-!
# Each pass of the encoder makes the decisions of the standard
-/
namespace Jp2.T1
open Std (Block one near Part inOrder)

/-- Code of the encoder doing what part of a pass should. -/
def Ref (raw : Bool) (P Q : Std.St → List Word → Prop) (e : Enc) (p : Part) : Prop :=
  ∀ s F, P s F → ∃ tr F', e F = some (tr, F') ∧ tr.map (lab raw) = (p s).1 ∧ Q (p s).2 F'

def thenP (p q : Part) : Part := fun s => ((p s).1 ++ (q (p s).2).1, (q (p s).2).2)

variable {raw : Bool} {P Q R : Std.St → List Word → Prop}

theorem Ref.seq {e e' : Enc} {p p' : Part} (h1 : Ref raw P Q e p) (h2 : Ref raw Q R e' p') : Ref raw P R (Enc.seq e e') (thenP p p') := by
  intro s F hP
  obtain ⟨t1, F1, a1, a2, a3⟩ := h1 s F hP
  obtain ⟨t2, F2, b1, b2, b3⟩ := h2 _ F1 a3
  refine ⟨t1 ++ t2, F2, ?_, ?_, b3⟩
  · unfold Enc.seq
    rw [a1, Option.bind_some]
    simp only [b1, Option.map_some]
  · rw [List.map_append, a2, b2]
    rfl

theorem Ref.post {Q' : Std.St → List Word → Prop} {e : Enc} {p : Part} (h : Ref raw P Q e p) (hq : ∀ s F, Q s F → Q' s F) : Ref raw P Q' e p := by
  intro s F hP
  obtain ⟨t1, F1, a1, a2, a3⟩ := h s F hP
  exact ⟨t1, F1, a1, a2, hq _ _ a3⟩

theorem ref_skip (h : ∀ s F, P s F → Q s F) : Ref raw P Q Enc.skip (inOrder []) := fun s F hP => ⟨[], F, rfl, rfl, h s F hP⟩

theorem inOrder_cons (p : Part) (l : List Part) : inOrder (p :: l) = thenP p (inOrder l) := rfl

theorem inOrder_append : ∀ (a b : List Part), inOrder (a ++ b) = thenP (inOrder a) (inOrder b)
  | [], b => by funext s; simp [thenP, inOrder]
  | p :: a, b => by
    funext s
    have := congrFun (inOrder_append a b) (p s).2
    simp only [List.cons_append, inOrder, thenP] at this ⊢
    rw [this]
    simp

theorem inOrder_noop {s : Std.St} : ∀ {l : List Part}, (∀ p ∈ l, p s = ([], s)) → inOrder l s = ([], s)
  | [], _ => rfl
  | p :: l, h => by
    have h1 := h p (by simp)
    have h2 := inOrder_noop (l := l) (fun q hq => h q (by simp [hq]))
    simp [inOrder, h1, h2]

theorem ref_rows {P : Nat → Std.St → List Word → Prop} {step : Nat → Nat → Enc} {part : Nat → Part} : ∀ (n ci dp y0 : Nat),
    (∀ i < n, Ref raw (P (y0 + i)) (P (y0 + i + 1)) (step (dp + i) (ci + i)) (part (y0 + i))) →
    Ref raw (P y0) (P (y0 + n)) (rowsE step n ci dp) (inOrder ((List.range' y0 n).map part)) := by
  intro n
  induction n with
  | zero => intro ci dp y0 _; exact ref_skip (fun _ _ h => h)
  | succ n ih =>
    intro ci dp y0 h
    rw [List.range'_succ, List.map_cons, inOrder_cons]
    refine Ref.seq (Q := P (y0 + 1)) (h 0 (by omega)) ?_
    have := ih (ci + 1) (dp + 1) (y0 + 1) (fun i hi => by
      have := h (i + 1) (by omega)
      rw [show y0 + (i + 1) = y0 + 1 + i by omega, show dp + (i + 1) = dp + 1 + i by omega, show ci + (i + 1) = ci + 1 + i by omega] at this
      exact this)
    rw [show y0 + 1 + n = y0 + (n + 1) by omega] at this
    exact this

theorem ref_cols {P : Nat → Std.St → List Word → Prop} {col : Nat → Nat → Enc} {part : Nat → Part} {d : Nat} : ∀ (n f dp x0 : Nat),
    (∀ i < n, Ref raw (P (x0 + i)) (P (x0 + i + 1)) (col (f + i) (dp + d * i)) (part (x0 + i))) →
    Ref raw (P x0) (P (x0 + n)) (colsE col d n f dp) (inOrder ((List.range' x0 n).map part)) := by
  intro n
  induction n with
  | zero => intro f dp x0 _; exact ref_skip (fun _ _ h => h)
  | succ n ih =>
    intro f dp x0 h
    rw [List.range'_succ, List.map_cons, inOrder_cons]
    refine Ref.seq (Q := P (x0 + 1)) (h 0 (by omega)) ?_
    have := ih (f + 1) (dp + d) (x0 + 1) (fun i hi => by
      have := h (i + 1) (by omega)
      rw [show x0 + (i + 1) = x0 + 1 + i by omega, show dp + d * (i + 1) = dp + d + d * i by rw [Nat.mul_add, Nat.mul_one]; omega,
        show f + (i + 1) = f + 1 + i by omega] at this
      exact this)
    rw [show x0 + 1 + n = x0 + (n + 1) by omega] at this
    exact this

theorem ref_stripes {P : Nat → Nat → Std.St → List Word → Prop} {col : Nat → Nat → Enc} {part : Nat → Nat → Part} {w : Nat}
    (hP : ∀ k s F, P k w s F → P (k + 1) 0 s F) : ∀ (n f dp k : Nat),
    (∀ i < n, ∀ x < w, Ref raw (P (k + i) x) (P (k + i) (x + 1)) (col (f + i * (w + 2) + x) (dp + i * (4 * w) + 4 * x)) (part (k + i) x)) →
    Ref raw (P k 0) (P (k + n) 0) (stripesE col w n f dp) (inOrder ((List.range' k n).flatMap fun k => (List.range w).map fun x => part k x)) := by
  intro n
  induction n with
  | zero => intro f dp k _; exact ref_skip (fun _ _ h => h)
  | succ n ih =>
    intro f dp k h
    rw [List.range'_succ, List.flatMap_cons, inOrder_append]
    refine Ref.seq (Q := P (k + 1) 0) ?_ ?_
    · rw [List.range_eq_range']
      have := ref_cols (raw := raw) (P := P k) (col := col) (part := part k) (d := 4) w f dp 0 (fun i hi => by
        have := h 0 (by omega) i hi
        simp only [Nat.zero_mul, Nat.add_zero, Nat.zero_add] at this ⊢
        exact this)
      rw [Nat.zero_add] at this
      exact Ref.post this (hP k)
    · have := ih (f + w + 2) (dp + 4 * w) (k + 1) (fun i hi x hx => by
        have := h (i + 1) (by omega) x hx
        rw [show k + (i + 1) = k + 1 + i by omega, show f + (i + 1) * (w + 2) + x = f + w + 2 + i * (w + 2) + x by rw [Nat.add_mul]; omega,
          show dp + (i + 1) * (4 * w) + 4 * x = dp + 4 * w + i * (4 * w) + 4 * x by rw [Nat.add_mul]; omega] at this
        exact this)
      rw [show k + 1 + n = k + (n + 1) by omega] at this
      exact this

variable {B : Block} {data : List Nat} {b : Nat}

/-- The `n` rows of stripe `k`. -/
structure Rws (B : Block) (k n : Nat) : Prop where
  pos : 0 < n
  le : n ≤ 4
  top : 4 * k + n ≤ B.h
  all : n = 4 ∨ 4 * k + n = B.h
  rows : Std.rows B k = List.range' (4 * k) n
  idx : ∀ i < n, ∀ x, eidx B.w B.h (4 * k + i) x = eidx B.w B.h (4 * k) x + i

theorem rows_eq (B : Block) (k n : Nat) (hn : n ≤ 4) (h1 : 4 * k + n ≤ B.h) (h2 : n = 4 ∨ 4 * k + n = B.h) : Std.rows B k = List.range' (4 * k) n := by
  unfold Std.rows
  have e : List.range 4 = [0, 1, 2, 3] := rfl
  rw [e]
  simp only [List.map_cons, List.map_nil, List.filter_cons, List.filter_nil]
  interval_cases n
  · rw [if_neg (by simp; omega), if_neg (by simp; omega), if_neg (by simp; omega), if_neg (by simp; omega)]; rfl
  · rw [if_pos (by simp; omega), if_neg (by simp; omega), if_neg (by simp; omega), if_neg (by simp; omega)]; rfl
  · rw [if_pos (by simp; omega), if_pos (by simp; omega), if_neg (by simp; omega), if_neg (by simp; omega)]; rfl
  · rw [if_pos (by simp; omega), if_pos (by simp; omega), if_pos (by simp; omega), if_neg (by simp; omega)]; rfl
  · rw [if_pos (by simp; omega), if_pos (by simp; omega), if_pos (by simp; omega), if_pos (by simp; omega)]; rfl

theorem col_full {k : Nat} (hk : k < B.h / 4) : Rws B k 4 := by
  refine ⟨by omega, by omega, by omega, Or.inl rfl, rows_eq B k 4 (by omega) (by omega) (Or.inl rfl), ?_⟩
  intro i hi x
  unfold eidx
  rw [if_pos (by omega), if_pos (by omega), show (4 * k + i) / 4 = k by omega, show 4 * k / 4 = k by omega]
  omega

theorem col_part (h0 : B.h % 4 ≠ 0) : Rws B (B.h / 4) (B.h % 4) := by
  refine ⟨by omega, by omega, by omega, Or.inr (by omega), rows_eq B _ _ (by omega) (by omega) (Or.inr (by omega)), ?_⟩
  intro i hi x
  unfold eidx
  rw [if_neg (by omega), if_neg (by omega)]
  omega

theorem cell_top (w k x : Nat) : cell w (4 * k) x = w + 3 + k * (w + 2) + x := by
  unfold cell
  rw [show 4 * k / 4 = k by omega]

theorem cell_row {w k i x : Nat} (hi : i < 4) : cell w (4 * k + i) x = cell w (4 * k) x := by
  unfold cell
  rw [show (4 * k + i) / 4 = 4 * k / 4 by omega]

/-- A whole pass. -/
theorem ref_pass {P : Nat → Nat → Std.St → List Word → Prop} {full part : Nat → Nat → Enc} {col : Nat → Nat → Part}
    (hP : ∀ k s F, P k B.w s F → P (k + 1) 0 s F)
    (h1 : ∀ k, Rws B k 4 → ∀ x < B.w, Ref raw (P k x) (P k (x + 1)) (full (cell B.w (4 * k) x) (eidx B.w B.h (4 * k) x)) (col k x))
    (h2 : ∀ k, Rws B k (B.h % 4) → ∀ x < B.w, Ref raw (P k x) (P k (x + 1)) (part (cell B.w (4 * k) x) (eidx B.w B.h (4 * k) x)) (col k x)) :
    Ref raw (P 0 0) (P ((B.h + 3) / 4) 0) (passE B.w B.h full part) (Std.scan B col) := by
  unfold passE Std.scan
  have S := ref_stripes (raw := raw) (P := P) (col := full) (part := col) (w := B.w) hP (B.h / 4) (B.w + 3) 0 0 (fun i hi x hx => by
    have := h1 i (col_full hi) x hx
    rw [cell_top] at this
    unfold eidx at this
    rw [if_pos (by omega), show 4 * i / 4 = i by omega, show 4 * i % 4 = 0 by omega, Nat.add_zero] at this
    rw [Nat.zero_add, Nat.zero_add]
    exact this)
  rw [Nat.zero_add, ← List.range_eq_range'] at S
  by_cases h0 : B.h % 4 = 0
  · rw [if_pos h0, show (B.h + 3) / 4 = B.h / 4 by omega]
    have e : inOrder ((List.range (B.h / 4)).flatMap fun k => (List.range B.w).map fun x => col k x) =
        thenP (inOrder ((List.range (B.h / 4)).flatMap fun k => (List.range B.w).map fun x => col k x)) (inOrder []) := by
      rw [← inOrder_append, List.append_nil]
    rw [e]
    exact Ref.seq S (ref_skip (fun _ _ h => h))
  · rw [if_neg h0, show (B.h + 3) / 4 = B.h / 4 + 1 by omega, List.range_succ, List.flatMap_append, inOrder_append]
    refine Ref.seq S ?_
    have := ref_cols (raw := raw) (P := P (B.h / 4)) (col := part) (part := col (B.h / 4)) (d := B.h % 4) B.w
      (B.w + 3 + B.h / 4 * (B.w + 2)) (B.h / 4 * (4 * B.w)) 0 (fun i hi => by
      have := h2 _ (col_part h0) i hi
      rw [cell_top] at this
      unfold eidx at this
      rw [if_neg (by omega), show 4 * (B.h / 4) % 4 = 0 by omega, Nat.add_zero] at this
      rw [Nat.zero_add]
      exact this)
    rw [Nat.zero_add, ← List.range_eq_range'] at this
    simp only [List.flatMap_cons, List.flatMap_nil, List.append_nil]
    exact Ref.post this (hP _)

/-! ## Significance propagation -/

/-- Coefficients before row `y` of column `x` of stripe `k` in the scan. -/
def scanned (k x y y' x' : Nat) : Prop := y' / 4 < k ∨ (y' / 4 = k ∧ (x' < x ∨ (x' = x ∧ y' < y)))

instance (k x y y' x' : Nat) : Decidable (scanned k x y y' x') := by unfold scanned; infer_instance

def Ps (B : Block) (k x y : Nat) (s : Std.St) (F : List Word) : Prop :=
  Rep B s F ∧ ∀ y' < B.h, ∀ x' < B.w, ¬ scanned k x y y' x' → s.vis y' x' = false

theorem sigCoef_vis (B : Block) (raw : Bool) (b y x : Nat) (s : Std.St) {y' x' : Nat} (h : ¬ (y' = y ∧ x' = x)) :
    (Std.sigCoef B raw b y x s).2.vis y' x' = s.vis y' x' := by
  unfold Std.sigCoef
  split
  · unfold Std.put
    dsimp only
    rw [if_neg h]
  · rfl

theorem word_zero {s : Std.St} {F : List Word} {k x : Nat} (hR : Rep B s F) (hb : B.band < 4) {y : Nat} (hy : y < B.h) (hx : x < B.w) (hk : y / 4 = k) (h0 : wd F B.w k (x + 1) = 0) :
    s.sig y x = false ∧ s.vis y x = false ∧ Std.zc B s y x = 0 := by
  subst hk
  refine ⟨?_, ?_, ?_⟩
  · rw [← rep_sig hR hy hx, h0]; exact zero_bits.1
  · rw [← rep_vis hR hy hx, h0]; exact zero_bits.2
  · rw [rep_zc_zero hR hb hy hx, h0]; simp [zcIdx]

theorem mem_rows {k n y : Nat} (hC : Rws B k n) (h : y ∈ Std.rows B k) : y / 4 = k ∧ y < B.h ∧ y < 4 * k + n ∧ 4 * k ≤ y := by
  rw [hC.rows, List.mem_range'_1] at h
  have := hC.le
  have := hC.top
  omega

theorem sig_col (hD : Dat B data) (hb : B.band < 4) {k n x : Nat} (hC : Rws B k n) (hx : x < B.w) :
    Ref raw (Ps B k x (4 * k)) (Ps B k (x + 1) (4 * k))
      (Enc.get (cell B.w (4 * k) x) fun W => if W = 0 then Enc.skip else
        rowsE (fun dp ci => encSigStep B.band B.w raw (2 ^ (b + 6)) data (cell B.w (4 * k) x) dp ci (B.causal && ci == 0)) n 0 (eidx B.w B.h (4 * k) x))
      (inOrder ((Std.rows B k).map fun y => Std.sigCoef B raw b y x)) := by
  intro s F hP
  have hC1 := hC.pos
  have hC2 := hC.le
  have hC3 := hC.top
  have hC4 := hC.all
  unfold Enc.get
  dsimp only
  rw [rep_cell hP.1 (show 4 * k < B.h by omega) hx, Option.bind_some]
  rw [show 4 * k / 4 = k by omega]
  by_cases h0 : wd F B.w k (x + 1) = 0
  · rw [if_pos h0]
    have : inOrder ((Std.rows B k).map fun y => Std.sigCoef B raw b y x) s = ([], s) := by
      apply inOrder_noop
      intro p hp
      obtain ⟨y, hy, rfl⟩ := List.mem_map.mp hp
      obtain ⟨g1, g2, _⟩ := mem_rows hC hy
      have := word_zero hP.1 hb g2 hx g1 h0
      unfold Std.sigCoef
      rw [if_neg (fun h => h.2 this.2.2)]
    rw [this]
    refine ⟨[], F, rfl, rfl, hP.1, fun y' hy' x' hx' hn => hP.2 y' hy' x' hx' (fun h => hn ?_)⟩
    unfold scanned at h ⊢
    omega
  · rw [if_neg h0, hC.rows]
    have := ref_rows (raw := raw) (P := fun y => Ps B k x y) (step := fun dp ci => encSigStep B.band B.w raw (2 ^ (b + 6)) data (cell B.w (4 * k) x) dp ci (B.causal && ci == 0))
      (part := fun y => Std.sigCoef B raw b y x) n 0 (eidx B.w B.h (4 * k) x) (4 * k) (fun i hi s F hP => by
        have hv := hP.2 (4 * k + i) (by omega) x hx (by unfold scanned; omega)
        obtain ⟨tr, F', e1, e2, e3⟩ := sig_step (raw := raw) (b := b) (y := 4 * k + i) (x := x) (vsc := B.causal && (4 * k + i) % 4 == 0) hP.1 hD hb (by omega) hx hv
          (fun h => by simp [h])
        rw [hC.idx i hi, cell_row (by omega), show (4 * k + i) % 4 = i by omega] at e1
        refine ⟨tr, F', by rw [Nat.zero_add]; exact e1, e2, e3, ?_⟩
        intro y' hy' x' hx' hn
        have hne : ¬ (y' = 4 * k + i ∧ x' = x) := fun h => hn (by unfold scanned; omega)
        rw [sigCoef_vis _ _ _ _ _ _ hne]
        exact hP.2 y' hy' x' hx' (fun h => hn (by unfold scanned at h ⊢; omega)))
    obtain ⟨tr, F', e1, e2, e3, e4⟩ := this s F hP
    refine ⟨tr, F', e1, e2, e3, fun y' hy' x' hx' hn => e4 y' hy' x' hx' (fun h => hn ?_)⟩
    unfold scanned at h ⊢
    omega

theorem ref_sigPass (hD : Dat B data) (hb : B.band < 4) :
    Ref raw (Ps B 0 0 0) (Rep B) (encSigPass B.band B.w B.h raw (2 ^ (b + 6)) B.causal data)
      (Std.scan B (fun k x => inOrder ((Std.rows B k).map fun y => Std.sigCoef B raw b y x))) := by
  have := ref_pass (raw := raw) (B := B) (P := fun k x => Ps B k x (4 * k))
    (full := fun f dp => Enc.get f fun x => if x = 0 then Enc.skip else
      rowsE (fun dp ci => encSigStep B.band B.w raw (2 ^ (b + 6)) data f dp ci (B.causal && ci == 0)) 4 0 dp)
    (part := fun f dp => Enc.get f fun x => if x = 0 then Enc.skip else
      rowsE (fun dp ci => encSigStep B.band B.w raw (2 ^ (b + 6)) data f dp ci (B.causal && ci == 0)) (B.h % 4) 0 dp)
    (col := fun k x => inOrder ((Std.rows B k).map fun y => Std.sigCoef B raw b y x))
    (fun k s F h => ⟨h.1, fun y' hy' x' hx' hn => h.2 y' hy' x' hx' (fun h' => hn (by unfold scanned at h' ⊢; omega))⟩)
    (fun k hC x hx => sig_col hD hb hC hx) (fun k hC x hx => sig_col hD hb hC hx)
  exact Ref.post this (fun s F h => h.1)

/-! ## Magnitude refinement -/

theorem all_bits (W : Word) : (W &&& SIGMA_ALL = 0 → ∀ c < 4, sgW W c = false) ∧ (W &&& PI_ALL = PI_ALL → ∀ c < 4, piW W c = true) := by
  have k1 : ∀ c < 4, (SIGMA_ALL).getLsbD (4 + 3 * c) = true := by decide
  have k2 : ∀ c < 4, (PI_ALL).getLsbD (21 + 3 * c) = true := by decide
  constructor
  · intro h c hc
    have := congrArg (fun v => BitVec.getLsbD v (4 + 3 * c)) h
    simpa [k1 c hc, sgW] using this
  · intro h c hc
    have := congrArg (fun v => BitVec.getLsbD v (21 + 3 * c)) h
    simpa [k2 c hc, piW] using this

theorem ref_rows_plain (hD : Dat B data) {k n x : Nat} (hC : Rws B k n) (hx : x < B.w) :
    Ref raw (Rep B) (Rep B) (rowsE (fun dp ci => encRefStep (2 ^ (b + 6)) data (cell B.w (4 * k) x) dp ci) n 0 (eidx B.w B.h (4 * k) x))
      (inOrder ((Std.rows B k).map fun y => Std.refCoef B raw b y x)) := by
  rw [hC.rows]
  have hC2 := hC.le
  have hC3 := hC.top
  exact ref_rows (raw := raw) (P := fun _ => Rep B) (step := fun dp ci => encRefStep (2 ^ (b + 6)) data (cell B.w (4 * k) x) dp ci)
    (part := fun y => Std.refCoef B raw b y x) n 0 (eidx B.w B.h (4 * k) x) (4 * k) (fun i hi s F hP => by
      obtain ⟨tr, F', e1, e2, e3⟩ := ref_step (raw := raw) (b := b) (y := 4 * k + i) (x := x) hP hD (by omega) hx
      rw [hC.idx i hi, cell_row (by omega), show (4 * k + i) % 4 = i by omega] at e1
      exact ⟨tr, F', by rw [Nat.zero_add]; exact e1, e2, e3⟩)

theorem ref_noop {s : Std.St} {F : List Word} {k n x : Nat} (hC : Rws B k n)
    (h : ∀ y, y / 4 = k → y < B.h → s.sig y x = false ∨ s.vis y x = true) :
    inOrder ((Std.rows B k).map fun y => Std.refCoef B raw b y x) s = ([], s) := by
  apply inOrder_noop
  intro p hp
  obtain ⟨y, hy, rfl⟩ := List.mem_map.mp hp
  obtain ⟨g1, g2, _⟩ := mem_rows hC hy
  unfold Std.refCoef
  rw [if_neg]
  rcases h y g1 g2 with h | h <;> simp [h]

theorem ref_refPass (hD : Dat B data) :
    Ref raw (Rep B) (Rep B) (encRefPass B.w B.h (2 ^ (b + 6)) data)
      (Std.scan B (fun k x => inOrder ((Std.rows B k).map fun y => Std.refCoef B raw b y x))) := by
  refine ref_pass (raw := raw) (B := B) (P := fun _ _ => Rep B) (fun _ _ _ h => h) ?_ ?_
  · intro k hC x hx s F hR
    have hC3 := hC.top
    unfold Enc.get
    dsimp only
    rw [rep_cell hR (show 4 * k < B.h by omega) hx, Option.bind_some, show 4 * k / 4 = k by omega]
    split
    · rename_i h
      rw [ref_noop (s := s) (F := F) hC]
      · exact ⟨[], F, rfl, rfl, hR⟩
      · intro y hk hy
        left
        rw [← rep_sig hR hy hx, hk]
        exact (all_bits _).1 h _ (by omega)
    · split
      · rename_i h
        rw [ref_noop (s := s) (F := F) hC]
        · exact ⟨[], F, rfl, rfl, hR⟩
        · intro y hk hy
          right
          rw [← rep_vis hR hy hx, hk]
          exact (all_bits _).2 h _ (by omega)
      · exact ref_rows_plain hD hC hx s F hR
  · intro k hC x hx s F hR
    have hC1 := hC.pos
    have hC3 := hC.top
    unfold Enc.get
    dsimp only
    rw [rep_cell hR (show 4 * k < B.h by omega) hx, Option.bind_some, show 4 * k / 4 = k by omega]
    split
    · rename_i h
      rw [ref_noop (s := s) (F := F) hC]
      · exact ⟨[], F, rfl, rfl, hR⟩
      · intro y hk hy
        left
        rw [← rep_sig hR hy hx, hk]
        exact (all_bits _).1 h _ (by omega)
    · exact ref_rows_plain hD hC hx s F hR

/-! ## Cleanup -/

theorem rep_congr_vis {s : Std.St} {F : List Word} {v : Nat → Nat → Bool} (hR : Rep B s F) (h : ∀ y < B.h, ∀ x < B.w, s.vis y x = v y x) : Rep B { s with vis := v } F :=
  rep_vis_change hR rfl (fun _ _ _ => rfl) (fun k hk X h1 h2 j hj hjh => by rw [hR.pi k hk X h1 h2 j hj hjh]; exact h _ hjh _ (by omega))

/-- The coefficients whose visits the encoder has forgotten. -/
def done (k x y : Nat) : Nat → Nat → Bool := fun y' x' => decide (scanned k x y y' x')

def Pc (B : Block) (k x y : Nat) (s : Std.St) (F : List Word) : Prop := Rep B (hide (done k x y) s) F

theorem pc_congr {k x y k' x' y' : Nat} {s : Std.St} {F : List Word} (hP : Pc B k x y s F)
    (h : ∀ a < B.h, ∀ c < B.w, scanned k x y a c ↔ scanned k' x' y' a c) : Pc B k' x' y' s F := by
  have := rep_congr_vis (v := (hide (done k' x' y') s).vis) hP (fun a ha c hc => by
    unfold hide done
    dsimp only
    rw [decide_eq_decide.mpr (h a ha c hc)])
  exact this

theorem done_put {k x y : Nat} (hk : y / 4 = k) : Std.put (done k x y) y x true = done k x (y + 1) := by
  funext y' x'
  unfold Std.put done
  by_cases h : y' = y ∧ x' = x
  · rw [if_pos h, decide_eq_true (show scanned k x (y + 1) y' x' by unfold scanned; omega)]
  · rw [if_neg h]
    apply decide_eq_decide.mpr
    unfold scanned
    omega

theorem not_done {k x y : Nat} (hk : y / 4 = k) : done k x y y x = false := by
  unfold done
  rw [decide_eq_false]
  unfold scanned
  omega

theorem clnRows_eq {o w one f : Nat} {data : List Nat} {vsc : Bool} : ∀ (n ci dp : Nat),
    encClnRows o w one data f vsc n false ci dp = rowsE (fun dp ci => encClnStep o w one data f vsc false dp ci) n ci dp := by
  intro n
  induction n with
  | zero => intro ci dp; rfl
  | succ n ih => intro ci dp; rw [encClnRows, rowsE, ih]

/-- Rows of the cleanup pass outside a run. -/
theorem cln_rows (hD : Dat B data) (hb : B.band < 4) {k x : Nat} (hx : x < B.w) (i0 m : Nat) (hm : i0 + m ≤ 4) (hmh : 4 * k + i0 + m ≤ B.h)
    (hidx : ∀ i < i0 + m, ∀ x, eidx B.w B.h (4 * k + i) x = eidx B.w B.h (4 * k) x + i) :
    Ref false (Pc B k x (4 * k + i0)) (Pc B k x (4 * k + i0 + m))
      (encClnRows B.band B.w (2 ^ (b + 6)) data (cell B.w (4 * k) x) B.causal m false i0 (eidx B.w B.h (4 * k) x + i0))
      (inOrder ((List.range' (4 * k + i0) m).map fun y => Std.clnCoef B b y x)) := by
  rw [clnRows_eq]
  exact ref_rows (raw := false) (P := fun y => Pc B k x y) (step := fun dp ci => encClnStep B.band B.w (2 ^ (b + 6)) data (cell B.w (4 * k) x) B.causal false dp ci)
    (part := fun y => Std.clnCoef B b y x) m i0 (eidx B.w B.h (4 * k) x + i0) (4 * k + i0) (fun i hi s F hP => by
      obtain ⟨tr, F', e1, e2, e3⟩ := cln_step (b := b) (y := 4 * k + i0 + i) (x := x) hP hD hb (by omega) hx (not_done (by omega))
      rw [done_put (by omega)] at e3
      rw [show 4 * k + i0 + i = 4 * k + (i0 + i) by omega, hidx (i0 + i) (by omega), cell_row (by omega), show (4 * k + (i0 + i)) % 4 = i0 + i by omega] at e1
      refine ⟨tr, F', ?_, e2, e3⟩
      rw [show eidx B.w B.h (4 * k) x + i0 + i = eidx B.w B.h (4 * k) x + (i0 + i) by omega]
      exact e1)

theorem full_bits {W : Word} (h : W &&& (SIGMA_ALL ||| PI_ALL) = SIGMA_ALL ||| PI_ALL) : ∀ c < 4, sgW W c = true := by
  have k1 : ∀ c < 4, (SIGMA_ALL ||| PI_ALL).getLsbD (4 + 3 * c) = true := by decide
  intro c hc
  have := congrArg (fun v => BitVec.getLsbD v (4 + 3 * c)) h
  simp only [BitVec.getLsbD_and, k1 c hc, Bool.and_true] at this
  exact this

theorem cln_macro (hD : Dat B data) (hb : B.band < 4) {k n x : Nat} (hC : Rws B k n) (hx : x < B.w) :
    Ref false (Pc B k x (4 * k)) (Pc B k (x + 1) (4 * k))
      (encClnMacro B.band B.w (2 ^ (b + 6)) data (cell B.w (4 * k) x) B.causal false 0 n (eidx B.w B.h (4 * k) x))
      (inOrder ((Std.rows B k).map fun y => Std.clnCoef B b y x)) := by
  intro s F hP
  have hC1 := hC.pos
  have hC2 := hC.le
  have hC3 := hC.top
  have hC4 := hC.all
  unfold encClnMacro Enc.get
  dsimp only
  rw [rep_cell hP (show 4 * k < B.h by omega) hx, Option.bind_some, show 4 * k / 4 = k by omega]
  split
  · rename_i h
    have hno : inOrder ((Std.rows B k).map fun y => Std.clnCoef B b y x) s = ([], s) := by
      apply inOrder_noop
      intro p hp
      obtain ⟨y, hy, rfl⟩ := List.mem_map.mp hp
      obtain ⟨g1, g2, _⟩ := mem_rows hC hy
      have : s.sig y x = true := by
        have := rep_sig hP g2 hx
        rw [g1, full_bits h _ (by omega)] at this
        exact this.symm
      unfold Std.clnCoef
      rw [if_neg (by simp [this])]
    rw [hno]
    obtain ⟨F', c1, c2⟩ := rep_clr_all hP (show 4 * k < B.h by omega) hx
    refine ⟨[], F', by unfold Enc.upd clnMask; rw [if_pos rfl]; dsimp only; rw [c1]; rfl, rfl, ?_⟩
    have := rep_congr_vis (v := (hide (done k (x + 1) (4 * k)) s).vis) c2 (fun a ha c hc => by
      unfold hide done
      dsimp only
      by_cases hcol : a / 4 = k ∧ c = x
      · rw [if_pos hcol, decide_eq_true (show scanned k (x + 1) (4 * k) a c by unfold scanned; omega)]; simp
      · rw [if_neg hcol, decide_eq_decide.mpr (show scanned k x (4 * k) a c ↔ scanned k (x + 1) (4 * k) a c by unfold scanned; omega)])
    exact this
  · rw [hC.rows]
    have := cln_rows (b := b) hD hb (k := k) (x := x) hx 0 n (by omega) (by omega) (fun i hi x => hC.idx i (by omega) x)
    obtain ⟨tr, F', e1, e2, e3⟩ := this s F hP
    refine ⟨tr, F', e1, e2, pc_congr e3 ?_⟩
    intro a ha c hc
    unfold scanned
    omega

theorem runLen_eq (hD : Dat B data) {k x : Nat} (hx : x < B.w) (hC : Rws B k 4) : ∀ (m i : Nat), i + m = 4 →
    runLen (2 ^ (b + 6)) data m (eidx B.w B.h (4 * k) x + i) = some (Std.run B b x (List.range' (4 * k + i) m)) := by
  intro m
  induction m with
  | zero => intro i _; rfl
  | succ m ih =>
    intro i hi
    have hC3 := hC.top
    rw [List.range'_succ]
    unfold runLen Std.run
    rw [← hC.idx i (by omega), dat_get hD (by omega) hx, Option.bind_some, dat_bit hD (by omega) hx]
    rcases bit_cases B b (4 * k + i) x with h0 | h1
    · rw [h0, if_neg (by simp), if_neg (by simp)]
      have := ih (i + 1) (by omega)
      rw [hC.idx i (by omega), Nat.add_assoc, this, Option.map_some]
      rfl
    · rw [h1, if_pos (by simp), if_pos rfl]

theorem run_le (B : Block) (b x : Nat) : ∀ l : List Nat, Std.run B b x l ≤ l.length
  | [] => Nat.le_refl _
  | y :: l => by
    unfold Std.run
    split
    · exact Nat.zero_le _
    · have := run_le B b x l
      simp only [List.length_cons]
      omega

/-- A flag word is zero exactly if run-length mode applies. -/
theorem rl_iff {s : Std.St} {F : List Word} (hb : B.band < 4) {k x : Nat} (hC : Rws B k 4) (hx : x < B.w) (hP : Pc B k x (4 * k) s F) :
    wd F B.w k (x + 1) = 0 ↔ ((Std.rows B k).length = 4 ∧ ∀ y ∈ Std.rows B k, s.sig y x = false ∧ s.vis y x = false ∧ Std.zc B s y x = 0) := by
  have hC3 := hC.top
  have hvis : ∀ y, y / 4 = k → (hide (done k x (4 * k)) s).vis y x = s.vis y x := by
    intro y hy
    unfold hide done
    dsimp only
    rw [decide_eq_false (by unfold scanned; omega)]
    simp
  constructor
  · intro h0
    refine ⟨by rw [hC.rows]; simp, ?_⟩
    intro y hy
    obtain ⟨g1, g2, _⟩ := mem_rows hC hy
    have := word_zero hP hb g2 hx g1 h0
    rw [hvis y g1] at this
    exact this
  · rintro ⟨_, h⟩
    have h' : ∀ i < 4, s.sig (4 * k + i) x = false ∧ s.vis (4 * k + i) x = false ∧ Std.zc B s (4 * k + i) x = 0 := fun i hi =>
      h _ (by rw [hC.rows, List.mem_range'_1]; omega)
    have hkK : k < (B.h + 3) / 4 := by omega
    have nr : ∀ i < 4, ∀ a < 3, ∀ c < 3, near B s (4 * k + i) x a c = false := by
      intro i hi a ha c hc
      by_cases hac : 3 * a + c = 4
      · have : a = 1 ∧ c = 1 := by omega
        rw [this.1, this.2, near_self (by omega) hx]
        exact (h' i hi).1
      · have z := (rep_zc_zero hP hb (show 4 * k + i < B.h by omega) hx).mp (h' i hi).2.2
        have := rep_idx hP (show 4 * k + i < B.h by omega) hx a ha c hc hac
        rw [z] at this
        simp at this
        exact this
    have pd : ∀ j < 6, ∀ c < 3, (wd F B.w k (x + 1)).getLsbD (3 * j + c) = false := by
      intro j hj c hc
      obtain ⟨i, a, hi, ha, hja⟩ : ∃ i a, i < 4 ∧ a < 3 ∧ j = i + a := by
        by_cases j < 4
        · exact ⟨j, 0, by omega, by omega, by omega⟩
        · exact ⟨3, j - 3, by omega, by omega, by omega⟩
      have := rep_near hP (show 4 * k + i < B.h by omega) hx ha hc
      rw [show (4 * k + i) / 4 = k by omega, show (4 * k + i) % 4 = i by omega] at this
      rw [show 3 * j + c = 3 * i + (3 * a + c) by omega, this]
      exact nr i hi a ha c hc
    apply BitVec.eq_of_getLsbD_eq
    intro t ht
    rw [show (0 : Word).getLsbD t = false by simp]
    by_cases t18 : t < 18
    · rw [show t = 3 * (t / 3) + t % 3 by omega]
      exact pd _ (by omega) _ (by omega)
    · by_cases e18 : t = 18
      · subst e18
        rw [hP.no k hkK (x + 1) (by omega) (by omega)]
        have : padded B (hide (done k x (4 * k)) s) (4 * k) (x + 1) = false := by
          have := nr 0 (by omega) 0 (by omega) 1 (by omega)
          rw [near_padded] at this
          have this : padded B s (4 * k) (x + 1) = false := by simpa using this
          exact this
        rw [this, Bool.false_and]
      · by_cases e31 : t = 31
        · subst e31
          rw [hP.so k hkK (x + 1) (by omega) (by omega)]
          have := nr 3 (by omega) 2 (by omega) 1 (by omega)
          rw [near_padded, show 4 * k + 3 + 2 = 4 * k + 5 by omega, show (4 * k + 3) % 4 = 3 by omega] at this
          have e : padded B (hide (done k x (4 * k)) s) (4 * k + 5) (x + 1) = padded B s (4 * k + 5) (x + 1) := rfl
          rw [e]
          cases hp : padded B s (4 * k + 5) (x + 1) with
          | false => rfl
          | true =>
            rw [hp] at this
            simp at this
            simp [this]
        · obtain ⟨j, hj, hcases⟩ : ∃ j < 4, t = 19 + 3 * j ∨ t = 20 + 3 * j ∨ t = 21 + 3 * j := ⟨(t - 19) / 3, by omega, by omega⟩
          rcases hcases with e | e | e
          · rw [e, hP.own k hkK (x + 1) (by omega) j hj]
            have := nr j hj 1 (by omega) 1 (by omega)
            rw [near_padded] at this
            have this : padded B s (4 * k + j + 1) (x + 1) = false := by simpa using this
            have e : padded B (hide (done k x (4 * k)) s) (4 * k + j + 1) (x + 1) = padded B s (4 * k + j + 1) (x + 1) := rfl
            rw [e, this, Bool.false_and]
          · rw [e, hP.mu k hkK (x + 1) (by omega) (by omega) j hj, Nat.add_sub_cancel]
            cases hr : (hide (done k x (4 * k)) s).ref (4 * k + j) x with
            | false => rfl
            | true =>
              have := hP.rs _ _ hr
              rw [show (hide (done k x (4 * k)) s).sig = s.sig from rfl, (h' j hj).1] at this
              exact absurd this (by simp)
          · rw [e, hP.pi k hkK (x + 1) (by omega) (by omega) j hj (by omega), Nat.add_sub_cancel, hvis _ (by omega)]
            exact (h' j hj).2.1

theorem cln_col (hD : Dat B data) (hb : B.band < 4) {k x : Nat} (hC : Rws B k 4) (hx : x < B.w) :
    Ref false (Pc B k x (4 * k)) (Pc B k (x + 1) (4 * k))
      (encClnCol B.band B.w (2 ^ (b + 6)) data B.causal (cell B.w (4 * k) x) (eidx B.w B.h (4 * k) x)) (Std.clnCol B b k x) := by
  intro s F hP
  have hC3 := hC.top
  have hget := rep_cell hP (show 4 * k < B.h by omega) hx
  rw [show 4 * k / 4 = k by omega] at hget
  unfold encClnCol Enc.get Std.clnCol
  dsimp only
  rw [hget, Option.bind_some]
  by_cases h0 : wd F B.w k (x + 1) = 0
  · rw [if_pos h0, if_pos ((rl_iff hb hC hx hP).mp h0)]
    have hr := runLen_eq (b := b) hD hx hC 4 0 (by omega)
    simp only [Nat.add_zero] at hr
    rw [← hC.rows] at hr
    have hle := run_le B b x (Std.rows B k)
    rw [hC.rows, List.length_range', ← hC.rows] at hle
    rw [hr, Option.bind_some]
    generalize Std.run B b x (Std.rows B k) = r at *
    have hmac : encClnMacro B.band B.w (2 ^ (b + 6)) data (cell B.w (4 * k) x) B.causal true r 4 (eidx B.w B.h (4 * k) x + r) F =
        encClnRows B.band B.w (2 ^ (b + 6)) data (cell B.w (4 * k) x) B.causal (4 - r) true r (eidx B.w B.h (4 * k) x + r) F := by
      unfold encClnMacro Enc.get
      rw [hget, Option.bind_some]
      dsimp only
      rw [if_neg]
      rw [h0]
      decide
    unfold Enc.emit
    rw [hmac]
    by_cases h4 : r = 4
    · subst h4
      rw [if_pos rfl]
      refine ⟨[(17, 0)], F, by simp [encClnRows, Enc.skip], rfl, pc_congr (show Pc B k x (4 * k + 4) s F from ?_) ?_⟩
      · have := rep_congr_vis (v := (hide (done k x (4 * k + 4)) s).vis) hP (fun a ha c hc => by
          by_cases hcol : a / 4 = k ∧ c = x
          · have z := (word_zero hP hb ha hx hcol.1 h0).2.1
            rw [hcol.2, z]
            unfold hide done
            dsimp only
            rw [decide_eq_true (show scanned k x (4 * k + 4) a x by unfold scanned; omega)]; simp
          · unfold hide done
            dsimp only
            rw [decide_eq_decide.mpr (show scanned k x (4 * k) a c ↔ scanned k x (4 * k + 4) a c by unfold scanned; omega)])
        exact this
      · intro a ha c hc
        unfold scanned
        omega
    · rw [if_neg h4]
      have hP' : Pc B k x (4 * k + r) s F := by
        have := rep_congr_vis (v := (hide (done k x (4 * k + r)) s).vis) hP (fun a ha c hc => by
          by_cases hcol : a / 4 = k ∧ c = x
          · have z := (word_zero hP hb ha hx hcol.1 h0).2.1
            have z' : s.vis a x = false := by
              have : (hide (done k x (4 * k)) s).vis a x = s.vis a x := by
                unfold hide done
                dsimp only
                rw [decide_eq_false (by unfold scanned; omega)]
                simp
              rw [← this, z]
            rw [hcol.2, z]
            unfold hide
            dsimp only
            rw [z', Bool.false_and]
          · unfold hide done
            dsimp only
            rw [decide_eq_decide.mpr (show scanned k x (4 * k) a c ↔ scanned k x (4 * k + r) a c by unfold scanned; omega)])
        exact this
      rw [show 4 - r = (4 - (r + 1)) + 1 by omega, encClnRows]
      obtain ⟨t, F1, e1, e2, e3⟩ := part_step (b := b) (y := 4 * k + r) (x := x) hP' hD (by omega) hx
      rw [done_put (by omega)] at e3
      rw [hC.idx r (by omega), cell_row (by omega), show (4 * k + r) % 4 = r by omega] at e1
      have hrest := cln_rows (b := b) hD hb (k := k) (x := x) hx (r + 1) (4 - (r + 1)) (by omega) (by omega) (fun i hi x => hC.idx i (by omega) x)
      obtain ⟨tr, F', g1, g2, g3⟩ := hrest _ F1 e3
      have hdrop : (Std.rows B k).drop (r + 1) = List.range' (4 * k + (r + 1)) (4 - (r + 1)) := by
        rw [hC.rows, List.drop_range']
        simp
      rw [hdrop]
      refine ⟨(17, 1) :: (18, r >>> 1) :: (18, r &&& 1) :: t :: tr, F', ?_, ?_, ?_⟩
      · unfold Enc.seq
        rw [e1, Option.bind_some]
        dsimp only
        rw [Nat.add_assoc, g1]
        simp [h4]
      · rw [List.map_cons, List.map_cons, List.map_cons, List.map_cons, e2, g2]
        unfold lab
        rw [Nat.shiftRight_eq_div_pow, Nat.pow_one, Nat.and_one_is_mod]
        rfl
      · refine pc_congr g3 ?_
        intro a ha c hc
        unfold scanned
        omega
  · rw [if_neg h0, if_neg (fun h => h0 ((rl_iff hb hC hx hP).mpr h))]
    exact cln_macro hD hb hC hx s F hP

theorem ref_clnPass (hD : Dat B data) (hb : B.band < 4) :
    Ref false (Rep B) (Pc B ((B.h + 3) / 4) 0 0) (encClnPass B.band B.w B.h (2 ^ (b + 6)) B.causal data) (Std.scan B (Std.clnCol B b)) := by
  have := ref_pass (raw := false) (B := B) (P := fun k x => Pc B k x (4 * k)) (full := encClnCol B.band B.w (2 ^ (b + 6)) data B.causal)
    (part := fun f dp => encClnMacro B.band B.w (2 ^ (b + 6)) data f B.causal false 0 (B.h % 4) dp) (col := Std.clnCol B b)
    (fun k s F h => pc_congr h (fun a ha c hc => by unfold scanned; omega)) (fun k hC x hx => cln_col hD hb hC hx) (fun k hC x hx => by
      have h4 : Std.clnCol B b k x = inOrder ((Std.rows B k).map fun y => Std.clnCoef B b y x) := by
        funext s
        unfold Std.clnCol
        rw [if_neg]
        rintro ⟨h, _⟩
        rw [hC.rows, List.length_range'] at h
        omega
      rw [h4]
      exact cln_macro hD hb hC hx)
  intro s F hR
  have h0 : Pc B 0 0 (4 * 0) s F := by
    have := rep_congr_vis (v := (hide (done 0 0 (4 * 0)) s).vis) hR (fun a ha c hc => by
      unfold hide done
      dsimp only
      rw [decide_eq_false (by unfold scanned; omega)]
      simp)
    exact this
  obtain ⟨tr, F', e1, e2, e3⟩ := this s F h0
  exact ⟨tr, F', e1, e2, pc_congr e3 (fun a ha c hc => by unfold scanned; omega)⟩

end Jp2.T1

import Verif.Jp2.T1Rep
/-!
# Contexts read from the flag words are those of the standard
-/
namespace Jp2.T1
open Std (Block one near chi tableD1 tableD2 tableD3)

variable {B : Block} {s : Std.St} {F : List Word} {y x : Nat}

theorem rep_lt (hR : Rep B s F) {X : Nat} (hy : y < B.h) (hX : X ≤ B.w + 1) : (y / 4 + 1) * (B.w + 2) + X < F.length := by
  rw [hR.len]
  have : (y / 4 + 2) * (B.w + 2) ≤ ((B.h + 3) / 4 + 2) * (B.w + 2) := Nat.mul_le_mul_right _ (by omega)
  have e : (y / 4 + 2) * (B.w + 2) = (y / 4 + 1) * (B.w + 2) + (B.w + 2) := by rw [Nat.add_mul, Nat.add_mul]; omega
  omega

theorem rep_cell (hR : Rep B s F) (hy : y < B.h) (hx : x < B.w) : F[cell B.w y x]? = some (wd F B.w (y / 4) (x + 1)) := by
  rw [cell_wd]
  exact get_of_lt (rep_lt hR hy (by omega))

/-- The nine bits around a coefficient. -/
theorem rep_near (hR : Rep B s F) (hy : y < B.h) (hx : x < B.w) {i j : Nat} (hi : i < 3) (hj : j < 3) :
    (wd F B.w (y / 4) (x + 1)).getLsbD (3 * (y % 4) + (3 * i + j)) = near B s y x i j := by
  have := hR.sg (y / 4) (by omega) (x + 1) (by omega) (by omega) (y % 4 + i) (by omega) j hj
  rw [show 3 * (y % 4) + (3 * i + j) = 3 * (y % 4 + i) + j by omega, this, near_padded, show 4 * (y / 4) + (y % 4 + i) = y + i by omega,
    show x + 1 + j - 1 = x + j by omega]
  congr 2
  by_cases h : i = 2 ∧ y % 4 = 3
  · obtain ⟨rfl, h2⟩ := h
    simp [h2]
  · have : (y % 4 + i == 5) = false := by rw [beq_eq_false_iff_ne]; omega
    rw [this]
    have : (i == 2 && y % 4 == 3) = false := by
      rw [Bool.and_eq_false_iff, beq_eq_false_iff_ne, beq_eq_false_iff_ne]; omega
    rw [Bool.and_assoc, this]

theorem near_self (hy : y < B.h) (hx : x < B.w) : near B s y x 1 1 = s.sig y x := by
  unfold near
  rw [decide_eq_true (by omega)]
  simp

theorem rep_sig (hR : Rep B s F) (hy : y < B.h) (hx : x < B.w) : sgW (wd F B.w (y / 4) (x + 1)) (y % 4) = s.sig y x := by
  rw [← near_self hy hx, ← rep_near hR hy hx (by omega) (by omega)]
  unfold sgW
  congr 1
  omega

theorem rep_vis (hR : Rep B s F) (hy : y < B.h) (hx : x < B.w) : piW (wd F B.w (y / 4) (x + 1)) (y % 4) = s.vis y x := by
  unfold piW
  rw [hR.pi (y / 4) (by omega) (x + 1) (by omega) (by omega) (y % 4) (by omega) (by omega)]
  congr 1
  omega

/-! ## Zero coding -/

/-- The index into the zero coding tables. -/
def zcIdx (W : Word) (ci : Nat) : Nat := ((W >>> (3 * ci)) &&& NEIGHBOURS).toNat

theorem zcIdx_lt (W : Word) (ci : Nat) : zcIdx W ci < 512 := by
  unfold zcIdx
  rw [BitVec.toNat_and]
  exact Nat.lt_of_le_of_lt Nat.and_le_right (by decide)

theorem zcIdx_bit (W : Word) (ci : Nat) {b : Nat} (hb : b < 9) : (zcIdx W ci).testBit b = (decide (b ≠ 4) && W.getLsbD (3 * ci + b)) := by
  unfold zcIdx
  rw [BitVec.testBit_toNat, BitVec.getLsbD_and, BitVec.getLsbD_ushiftRight, Bool.and_comm]
  congr 1
  interval_cases b <;> decide

theorem zc_table : ∀ o < 4, ∀ n < 512, n.testBit 4 = false →
    ((lutZc[o]?).bind fun l => l[n]?) = some (tableD1 o (one (n.testBit 3) + one (n.testBit 5)) (one (n.testBit 1) + one (n.testBit 7))
      (one (n.testBit 0) + one (n.testBit 2) + one (n.testBit 6) + one (n.testBit 8))) := by decide +kernel

theorem zc_zero : ∀ o < 4, ∀ n < 512, n.testBit 4 = false →
    (tableD1 o (one (n.testBit 3) + one (n.testBit 5)) (one (n.testBit 1) + one (n.testBit 7))
      (one (n.testBit 0) + one (n.testBit 2) + one (n.testBit 6) + one (n.testBit 8)) = 0 ↔ n = 0) := by decide +kernel

theorem any_table : ∀ n < 512, n.testBit 4 = false → ((n.testBit 0 || n.testBit 1 || n.testBit 2 || n.testBit 3 || n.testBit 5 ||
    n.testBit 6 || n.testBit 7 || n.testBit 8) = true ↔ n ≠ 0) := by decide +kernel

theorem rep_idx (hR : Rep B s F) (hy : y < B.h) (hx : x < B.w) : ∀ i < 3, ∀ j < 3, 3 * i + j ≠ 4 →
    (zcIdx (wd F B.w (y / 4) (x + 1)) (y % 4)).testBit (3 * i + j) = near B s y x i j := by
  intro i hi j hj h4
  rw [zcIdx_bit _ _ (by omega), rep_near hR hy hx hi hj, decide_eq_true h4, Bool.true_and]

theorem idx_four (W : Word) (ci : Nat) : (zcIdx W ci).testBit 4 = false := by
  rw [zcIdx_bit _ _ (by omega)]
  rfl

theorem rep_zc (hR : Rep B s F) (hb : B.band < 4) (hy : y < B.h) (hx : x < B.w) :
    ctxZc B.band (wd F B.w (y / 4) (x + 1) >>> (3 * (y % 4))) = some (Std.zc B s y x) := by
  have h := zc_table B.band hb _ (zcIdx_lt (wd F B.w (y / 4) (x + 1)) (y % 4)) (idx_four _ _)
  have r := rep_idx hR hy hx
  rw [r 0 (by omega) 0 (by omega) (by omega), r 0 (by omega) 1 (by omega) (by omega), r 0 (by omega) 2 (by omega) (by omega),
    r 1 (by omega) 0 (by omega) (by omega), r 1 (by omega) 2 (by omega) (by omega), r 2 (by omega) 0 (by omega) (by omega),
    r 2 (by omega) 1 (by omega) (by omega), r 2 (by omega) 2 (by omega) (by omega)] at h
  exact h

theorem rep_zc_zero (hR : Rep B s F) (hb : B.band < 4) (hy : y < B.h) (hx : x < B.w) :
    Std.zc B s y x = 0 ↔ zcIdx (wd F B.w (y / 4) (x + 1)) (y % 4) = 0 := by
  have h := zc_zero B.band hb _ (zcIdx_lt (wd F B.w (y / 4) (x + 1)) (y % 4)) (idx_four _ _)
  have r := rep_idx hR hy hx
  rw [r 0 (by omega) 0 (by omega) (by omega), r 0 (by omega) 1 (by omega) (by omega), r 0 (by omega) 2 (by omega) (by omega),
    r 1 (by omega) 0 (by omega) (by omega), r 1 (by omega) 2 (by omega) (by omega), r 2 (by omega) 0 (by omega) (by omega),
    r 2 (by omega) 1 (by omega) (by omega), r 2 (by omega) 2 (by omega) (by omega)] at h
  exact h

theorem idx_zero (W : Word) {ci : Nat} (hi : ci < 4) : W &&& (NEIGHBOURS <<< (3 * ci)) = 0 ↔ zcIdx W ci = 0 := by
  have e1 : (W >>> (3 * ci)) &&& NEIGHBOURS = (W &&& (NEIGHBOURS <<< (3 * ci))) >>> (3 * ci) := by
    rw [BitVec.ushiftRight_and_distrib]
    congr 1
    interval_cases ci <;> decide
  have e2 : W &&& (NEIGHBOURS <<< (3 * ci)) = ((W >>> (3 * ci)) &&& NEIGHBOURS) <<< (3 * ci) := by
    apply BitVec.eq_of_getLsbD_eq
    intro i hi'
    rw [BitVec.getLsbD_and, BitVec.getLsbD_shiftLeft, BitVec.getLsbD_shiftLeft, BitVec.getLsbD_and, BitVec.getLsbD_ushiftRight]
    by_cases h : i < 3 * ci
    · simp [h]
    · rw [show 3 * ci + (i - 3 * ci) = i by omega]
      simp [h, hi']
  unfold zcIdx
  constructor
  · intro h
    rw [e1, h]
    simp
  · intro h
    have : (W >>> (3 * ci)) &&& NEIGHBOURS = 0 := by
      apply BitVec.eq_of_toNat_eq
      rw [h]; rfl
    rw [e2, this]
    simp

/-! ## Magnitude refinement -/

theorem mu_bit (W : Word) {ci : Nat} (hi : ci < 4) : (W >>> (3 * ci)) &&& MU_THIS ≠ 0 ↔ W.getLsbD (20 + 3 * ci) = true := by
  have : MU_THIS = BitVec.twoPow 32 20 := by decide
  rw [this, BitVec.and_twoPow, BitVec.getLsbD_ushiftRight, Nat.add_comm 20]
  cases h : W.getLsbD (3 * ci + 20)
  · simp
  · simp; decide

theorem rep_mr (hR : Rep B s F) (hy : y < B.h) (hx : x < B.w) :
    ctxMag (wd F B.w (y / 4) (x + 1) >>> (3 * (y % 4))) = Std.mr B s y x := by
  unfold ctxMag Std.mr
  have h1 : (wd F B.w (y / 4) (x + 1) >>> (3 * (y % 4))) &&& MU_THIS ≠ 0 ↔ s.ref y x = true := by
    rw [mu_bit _ (Nat.mod_lt _ (by omega)), hR.mu (y / 4) (by omega) (x + 1) (by omega) (by omega) (y % 4) (by omega)]
    rw [show 4 * (y / 4) + y % 4 = y by omega, Nat.add_sub_cancel]
  have h2 : (wd F B.w (y / 4) (x + 1) >>> (3 * (y % 4))) &&& NEIGHBOURS ≠ 0 ↔ zcIdx (wd F B.w (y / 4) (x + 1)) (y % 4) ≠ 0 := by
    unfold zcIdx
    constructor
    · intro h h0
      exact h (BitVec.eq_of_toNat_eq (by rw [h0]; rfl))
    · intro h h0
      rw [h0] at h
      exact h rfl
  have h3 := any_table _ (zcIdx_lt (wd F B.w (y / 4) (x + 1)) (y % 4)) (idx_four _ _)
  have r := rep_idx hR hy hx
  rw [r 0 (by omega) 0 (by omega) (by omega), r 0 (by omega) 1 (by omega) (by omega), r 0 (by omega) 2 (by omega) (by omega),
    r 1 (by omega) 0 (by omega) (by omega), r 1 (by omega) 2 (by omega) (by omega), r 2 (by omega) 0 (by omega) (by omega),
    r 2 (by omega) 1 (by omega) (by omega), r 2 (by omega) 2 (by omega) (by omega)] at h3
  by_cases hr : s.ref y x = true
  · rw [if_pos (h1.mpr hr), if_pos hr]
  · rw [if_neg (fun h => hr (h1.mp h)), if_neg hr]
    by_cases hn : zcIdx (wd F B.w (y / 4) (x + 1)) (y % 4) ≠ 0
    · rw [if_pos (h2.mpr hn), if_pos (h3.mpr hn)]
    · rw [if_neg (fun h => hn (h2.mp h)), if_neg (fun h => hn (h3.mp h))]

/-! ## Sign coding -/

/-- A neighbour's contribution from its two bits. -/
def contrib (sig sgn : Bool) : Int := if sig then if sgn then -1 else 1 else 0

set_option synthInstance.maxSize 2000 in
set_option synthInstance.maxHeartbeats 400000 in
theorem sc_table : ∀ n < 256, (n.testBit 0 = true → n.testBit 3 = true) → (n.testBit 2 = true → n.testBit 5 = true) →
    (n.testBit 4 = true → n.testBit 1 = true) → (n.testBit 6 = true → n.testBit 7 = true) →
    (lutSc[n]?, lutSpb[n]?) =
      (some (tableD3 (tableD2 (contrib (n.testBit 3) (n.testBit 0)) (contrib (n.testBit 5) (n.testBit 2)))
        (tableD2 (contrib (n.testBit 1) (n.testBit 4)) (contrib (n.testBit 7) (n.testBit 6)))).1,
      some (tableD3 (tableD2 (contrib (n.testBit 3) (n.testBit 0)) (contrib (n.testBit 5) (n.testBit 2)))
        (tableD2 (contrib (n.testBit 1) (n.testBit 4)) (contrib (n.testBit 7) (n.testBit 6)))).2) := by decide +kernel

theorem sgnIndex_lt (W p n : Word) (ci : Nat) : sgnIndex W p n ci < 256 := by
  unfold sgnIndex
  simp only [BitVec.toNat_or]
  have h : ∀ (v m : Word), m.toNat < 256 → (v &&& m).toNat < 2 ^ 8 := fun v m hm => by
    rw [BitVec.toNat_and]
    exact Nat.lt_of_le_of_lt Nat.and_le_right hm
  show _ < 2 ^ 8
  refine Nat.or_lt_two_pow (Nat.or_lt_two_pow (Nat.or_lt_two_pow (Nat.or_lt_two_pow ?_ ?_) ?_) ?_) ?_
  · exact h _ _ (by decide)
  · exact h _ _ (by decide)
  · exact h _ _ (by decide)
  · split <;> exact h _ _ (by decide)
  · exact h _ _ (by decide)

theorem sgnIndex_bits (W p n : Word) {ci : Nat} (hi : ci < 4) :
    (sgnIndex W p n ci).testBit 0 = p.getLsbD (19 + 3 * ci) ∧ (sgnIndex W p n ci).testBit 1 = W.getLsbD (3 * ci + 1) ∧
    (sgnIndex W p n ci).testBit 2 = n.getLsbD (19 + 3 * ci) ∧ (sgnIndex W p n ci).testBit 3 = W.getLsbD (3 * ci + 3) ∧
    (sgnIndex W p n ci).testBit 4 = W.getLsbD (if ci = 0 then 18 else 19 + 3 * (ci - 1)) ∧ (sgnIndex W p n ci).testBit 5 = W.getLsbD (3 * ci + 5) ∧
    (sgnIndex W p n ci).testBit 6 = W.getLsbD (22 + 3 * ci) ∧ (sgnIndex W p n ci).testBit 7 = W.getLsbD (3 * ci + 7) := by
  unfold sgnIndex
  simp only [BitVec.testBit_toNat, BitVec.getLsbD_or]
  interval_cases ci <;> simp

/-- The sign a coefficient may know of a neighbour. -/
def nsgn (B : Block) (s : Std.St) (y x i j : Nat) : Bool := near B s y x i j && B.neg (y + i - 1) (x + j - 1)

theorem chi_contrib (B : Block) (s : Std.St) (y x i j : Nat) : chi B s y x i j = contrib (near B s y x i j) (nsgn B s y x i j) := by
  unfold chi contrib nsgn
  cases near B s y x i j <;> simp

theorem rep_sc (hR : Rep B s F) (hy : y < B.h) (hx : x < B.w) :
    lutSc[sgnIndex (wd F B.w (y / 4) (x + 1)) (wd F B.w (y / 4) x) (wd F B.w (y / 4) (x + 2)) (y % 4)]? = some (Std.sc B s y x).1 ∧
    lutSpb[sgnIndex (wd F B.w (y / 4) (x + 1)) (wd F B.w (y / 4) x) (wd F B.w (y / 4) (x + 2)) (y % 4)]? = some (Std.sc B s y x).2 := by
  have hlt := sgnIndex_lt (wd F B.w (y / 4) (x + 1)) (wd F B.w (y / 4) x) (wd F B.w (y / 4) (x + 2)) (y % 4)
  obtain ⟨b0, b1, b2, b3, b4, b5, b6, b7⟩ := sgnIndex_bits (wd F B.w (y / 4) (x + 1)) (wd F B.w (y / 4) x) (wd F B.w (y / 4) (x + 2)) (ci := y % 4) (by omega)
  have r := fun (i j : Nat) (hi : i < 3) (hj : j < 3) => rep_near hR hy hx hi hj
  have hk : y / 4 < (B.h + 3) / 4 := by omega
  have c0 : (wd F B.w (y / 4) x).getLsbD (19 + 3 * (y % 4)) = nsgn B s y x 1 0 := by
    rw [hR.own _ hk x (by omega) _ (by omega), nsgn, near_padded, show 4 * (y / 4) + y % 4 = y by omega]
    simp
  have c2 : (wd F B.w (y / 4) (x + 2)).getLsbD (19 + 3 * (y % 4)) = nsgn B s y x 1 2 := by
    rw [hR.own _ hk (x + 2) (by omega) _ (by omega), nsgn, near_padded, show 4 * (y / 4) + y % 4 = y by omega]
    simp
  have c4 : (wd F B.w (y / 4) (x + 1)).getLsbD (if y % 4 = 0 then 18 else 19 + 3 * (y % 4 - 1)) = nsgn B s y x 0 1 := by
    by_cases h0 : y % 4 = 0
    · rw [if_pos h0, hR.no _ hk (x + 1) (by omega) (by omega), nsgn, near_padded, show 4 * (y / 4) = y by omega]
      simp
    · rw [if_neg h0, hR.own _ hk (x + 1) (by omega) _ (by omega), nsgn, near_padded, show 4 * (y / 4) + (y % 4 - 1) + 1 = y by omega,
        show 4 * (y / 4) + (y % 4 - 1) = y - 1 by omega]
      simp
  have c6 : (wd F B.w (y / 4) (x + 1)).getLsbD (22 + 3 * (y % 4)) = nsgn B s y x 2 1 := by
    by_cases h3 : y % 4 = 3
    · rw [h3, show 22 + 3 * 3 = 31 by rfl, hR.so _ hk (x + 1) (by omega) (by omega), nsgn, near_padded, h3, show 4 * (y / 4) + 5 = y + 2 by omega,
        show 4 * (y / 4) + 4 = y + 1 by omega]
      simp [Bool.and_assoc, Bool.and_comm]
    · rw [show 22 + 3 * (y % 4) = 19 + 3 * (y % 4 + 1) by omega, hR.own _ hk (x + 1) (by omega) _ (by omega), nsgn, near_padded,
        show 4 * (y / 4) + (y % 4 + 1) + 1 = y + 2 by omega, show 4 * (y / 4) + (y % 4 + 1) = y + 1 by omega]
      have : (y % 4 == 3) = false := by rw [beq_eq_false_iff_ne]; exact h3
      rw [this]
      simp
  rw [c0] at b0
  rw [show 3 * (y % 4) + 1 = 3 * (y % 4) + (3 * 0 + 1) by omega, r 0 1 (by omega) (by omega)] at b1
  rw [c2] at b2
  rw [show 3 * (y % 4) + 3 = 3 * (y % 4) + (3 * 1 + 0) by omega, r 1 0 (by omega) (by omega)] at b3
  rw [c4] at b4
  rw [show 3 * (y % 4) + 5 = 3 * (y % 4) + (3 * 1 + 2) by omega, r 1 2 (by omega) (by omega)] at b5
  rw [c6] at b6
  rw [show 3 * (y % 4) + 7 = 3 * (y % 4) + (3 * 2 + 1) by omega, r 2 1 (by omega) (by omega)] at b7
  have imp : ∀ i j, nsgn B s y x i j = true → near B s y x i j = true := fun i j h => (Bool.and_eq_true_iff.mp h).1
  have T := sc_table _ hlt (by rw [b0, b3]; exact imp _ _) (by rw [b2, b5]; exact imp _ _) (by rw [b4, b1]; exact imp _ _) (by rw [b6, b7]; exact imp _ _)
  rw [b0, b1, b2, b3, b4, b5, b6, b7] at T
  simp only [← chi_contrib] at T
  injection T with t1 t2
  exact ⟨t1, t2⟩

end Jp2.T1

import Verif.Jp2.T1Order
/-!
# Properties of block coding
-/
namespace Jp2.T1
open Jp2.Mqc (Mqc)

/-! ## C43: a code block survives coding -/

/-- Encode the block `px` of `i32` coefficients (six fractional bits), cut the encoder's bytes off after the first `m` segments,
hand them to the decoder in any chunks with anything behind them. The decoder then reconstructs every coefficient from all
magnitude bits down to bit plane `e`, where `e` depends only on the number `R` of passes left out: `R / 3` rounded down
or up. -/
theorem C43_block_truncated (o w h : Nat) (st : Style) (px : Nat → Nat → Int) (mem : List UInt8) (start : Nat) (c : Coded)
    (hmem : mem.length + 4 ≤ 2 ^ 32) (hpx : ∀ y < h, ∀ x < w, -2 ^ 31 ≤ px y x ∧ px y x < 2 ^ 31)
    (he : encodeCblk o w h st (stripeOrder w h px) mem start = some c) (m : Nat) (hm : m ≤ (segsOf 0 0 c.passes).length)
    (chunks : List (List UInt8)) (x0 x1 : UInt8)
    (hch : chunks.flatten = (c.mem.drop start).take (((segsOf 0 0 c.passes).take m).map Prod.fst).sum)
    (R : Nat) (hR : R + (((segsOf 0 0 c.passes).take m).map Prod.snd).sum = c.passes.length) :
    ∃ D, decodeCblk o w h 0 c.numbps st chunks x0 x1 ((segsOf 0 0 c.passes).take m) = some (some D) ∧ D.length = w * h ∧
      ∀ y < h, ∀ x < w, ∃ e, R / 3 ≤ e ∧ e ≤ (R + 2) / 3 ∧ D[y * w + x]? = some (recon e (px y x)) := by
  have hr : ∀ v ∈ stripeOrder w h px, -2 ^ 31 ≤ v ∧ v < 2 ^ 31 := by
    intro v hv
    obtain ⟨y, x, hy, hx, rfl⟩ := mem_order hv
    exact hpx y hy x hx
  obtain ⟨D, h1, h2, h3⟩ := block_round hmem hr he rfl hm x0 x1 hch hR
  refine ⟨D, h1, h2, fun y hy x hx => ?_⟩
  obtain ⟨e, v, k1, k2, k3, k4⟩ := h3 y hy x hx
  rw [order_get px hy hx] at k3
  injection k3 with k3
  subst k3
  exact ⟨e, k1, k2, k4⟩

/-- With all the bytes, every coefficient comes back with all its bits but the six fractional ones. -/
theorem C43_block_round_trip (o w h : Nat) (st : Style) (px : Nat → Nat → Int) (mem : List UInt8) (start : Nat) (c : Coded)
    (hmem : mem.length + 4 ≤ 2 ^ 32) (hpx : ∀ y < h, ∀ x < w, -2 ^ 31 ≤ px y x ∧ px y x < 2 ^ 31)
    (he : encodeCblk o w h st (stripeOrder w h px) mem start = some c) (chunks : List (List UInt8)) (x0 x1 : UInt8)
    (hch : chunks.flatten = (c.mem.drop start).take ((segsOf 0 0 c.passes).map Prod.fst).sum) :
    ∃ D, decodeCblk o w h 0 c.numbps st chunks x0 x1 (segsOf 0 0 c.passes) = some (some D) ∧ D.length = w * h ∧
      ∀ y < h, ∀ x < w, D[y * w + x]? = some (recon 0 (px y x)) := by
  have ht : (segsOf 0 0 c.passes).take (segsOf 0 0 c.passes).length = segsOf 0 0 c.passes := List.take_length
  obtain ⟨D, h1, h2, h3⟩ := C43_block_truncated o w h st px mem start c hmem hpx he _ (Nat.le_refl _) chunks x0 x1 (by rw [ht]; exact hch)
    0 (by rw [ht, segs_cnt]; omega)
  rw [ht] at h1
  refine ⟨D, h1, h2, fun y hy x hx => ?_⟩
  obtain ⟨e, k1, k2, k3⟩ := h3 y hy x hx
  rw [show e = 0 by omega] at k3
  exact k3

/-- Integer coefficients below `2^25` in magnitude, as the reversible path codes them (`shl6`, `t1.rs:2498`; halving,
`t1.rs:1983` and `:2031`), come back exactly. -/
theorem C43_block_lossless (o w h : Nat) (st : Style) (px : Nat → Nat → Int) (mem : List UInt8) (start : Nat) (c : Coded)
    (hmem : mem.length + 4 ≤ 2 ^ 32) (hpx : ∀ y < h, ∀ x < w, (px y x).natAbs < 2 ^ 25)
    (he : encodeCblk o w h st (stripeOrder w h fun y x => shl6 (px y x)) mem start = some c) (chunks : List (List UInt8)) (x0 x1 : UInt8)
    (hch : chunks.flatten = (c.mem.drop start).take ((segsOf 0 0 c.passes).map Prod.fst).sum) :
    ∃ D, decodeCblk o w h 0 c.numbps st chunks x0 x1 (segsOf 0 0 c.passes) = some (some D) ∧ D.length = w * h ∧
      ∀ y < h, ∀ x < w, (D[y * w + x]?).map (Int.tdiv · 2) = some (px y x) := by
  have hs : ∀ y < h, ∀ x < w, shl6 (px y x) = px y x * 64 := by
    intro y hy x hx
    have := hpx y hy x hx
    unfold shl6
    omega
  obtain ⟨D, h1, h2, h3⟩ := C43_block_round_trip o w h st _ mem start c hmem (by
    intro y hy x hx
    have := hpx y hy x hx
    rw [hs y hy x hx]
    omega) he chunks x0 x1 hch
  refine ⟨D, h1, h2, fun y hy x hx => ?_⟩
  rw [h3 y hy x hx, Option.map_some, hs y hy x hx]
  have hp := hpx y hy x hx
  generalize px y x = v at hp
  unfold recon
  dsimp only
  congr 1
  have hm : min (v * 64).natAbs (2 ^ 31 - 1) / 64 / 2 ^ 0 = v.natAbs := by omega
  rw [hm]
  split
  · rename_i h0
    have : v = 0 := by omega
    subst this
    rfl
  · rename_i h0
    rcases Int.lt_or_gt_of_ne (show v ≠ 0 by omega) with hn | hpos
    · rw [Int.sign_eq_neg_one_of_neg (by omega)]
      rw [show (-1 * ((2 * (v.natAbs : Int) + 1) * 2 ^ 0)) = -(2 * (v.natAbs : Int) + 1) by ring, Int.neg_tdiv,
        Int.tdiv_eq_ediv_of_nonneg (by omega)]
      omega
    · rw [Int.sign_eq_one_of_pos (by omega)]
      rw [show (1 * ((2 * (v.natAbs : Int) + 1) * 2 ^ 0)) = (2 * (v.natAbs : Int) + 1) by ring, Int.tdiv_eq_ediv_of_nonneg (by omega)]
      omega

/-- The bound is sharp: the coefficient `2^25` does not come back, its sign changes. -/
theorem C43_large_coefficient_lost (o w h : Nat) (st : Style) (px : Nat → Nat → Int) (mem : List UInt8) (start : Nat) (c : Coded)
    (hmem : mem.length + 4 ≤ 2 ^ 32) (he : encodeCblk o w h st (stripeOrder w h fun y x => shl6 (px y x)) mem start = some c)
    (chunks : List (List UInt8)) (x0 x1 : UInt8) (hch : chunks.flatten = (c.mem.drop start).take ((segsOf 0 0 c.passes).map Prod.fst).sum)
    (y x : Nat) (hy : y < h) (hx : x < w) (hbig : px y x = 2 ^ 25) :
    ∃ D, decodeCblk o w h 0 c.numbps st chunks x0 x1 (segsOf 0 0 c.passes) = some (some D) ∧
      (D[y * w + x]?).map (Int.tdiv · 2) = some (-(2 ^ 25 - 1)) := by
  obtain ⟨D, h1, h2, h3⟩ := C43_block_round_trip o w h st _ mem start c hmem (by
    intro y hy x hx
    unfold shl6
    omega) he chunks x0 x1 hch
  refine ⟨D, h1, ?_⟩
  rw [h3 y hy x hx, hbig]
  decide

/-- The block used in the examples: 3 by 5, mixed signs, coefficients from -220 to 1110 with fractional bits. -/
def sample : Nat → Nat → Int := fun y x => 95 * (y * 3 + x) - 220

-- the encoder returns, with several passes, in the plain style, with all style bits and with bypass alone
example : ((encodeCblk 0 3 5 {} (stripeOrder 3 5 sample) (List.replicate 120 0) 1).map fun c =>
    (c.numbps, c.passes.length, (segsOf 0 0 c.passes).map Prod.snd)) = some (5, 13, [13]) := by decide +kernel
example : ((encodeCblk 3 3 5 ⟨true, true, true, true, true, true⟩ (stripeOrder 3 5 sample) (List.replicate 120 0) 1).map fun c =>
    (c.numbps, c.passes.length, (segsOf 0 0 c.passes).length)) = some (5, 13, 13) := by decide +kernel
example : ((encodeCblk 1 3 5 { bypass := true } (stripeOrder 3 5 sample) (List.replicate 120 0) 1).map fun c =>
    (c.numbps, c.passes.length, (segsOf 0 0 c.passes).map Prod.snd)) = some (5, 13, [10, 2, 1]) := by decide +kernel
-- and the decoder gives the block back
example : ((encodeCblk 1 3 5 { bypass := true } (stripeOrder 3 5 sample) (List.replicate 120 0) 1).bind fun c =>
    (decodeCblk 1 3 5 0 c.numbps { bypass := true } [(c.mem.drop 1).take ((segsOf 0 0 c.passes).map Prod.fst).sum] 7 9 (segsOf 0 0 c.passes)).map
      fun r => r.map fun D => D.map (Int.tdiv · 2)) =
    some (some [-3, -1, 0, 1, 2, 3, 5, 6, 8, 9, 11, 12, 14, 15, 17]) := by decide +kernel

end Jp2.T1

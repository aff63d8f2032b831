import Verif.Jp2.RoiBlock
/-!
# C79: regions of interest

ITU-T T.800 Annex H: coefficients of the region of interest are multiplied by `2^r`, those of the background are below `2^r` in magnitude, and
the decoder tells them apart by their size.
-/
namespace Jp2.T1
open Jp2.Mqc (startCtxs)

/-- A shift that is only announced cancels out, whatever the bytes: the decoder reads all bit planes `r` places higher and shifts every
coefficient back by as much. Without bypass; at most the passes the bit planes can have (`3 · numbps - 2`). -/
theorem C79_announced_shift (o w h r numbps : Nat) (ho : o < 4) (hs : sizesOk w h = true) (st : Style) (hst : st.bypass = false)
    (hr : r + numbps < 31) (chunks : List (List UInt8)) (x0 x1 : UInt8) (segs : List (Nat × Nat))
    (hlen : (segs.map Prod.fst).sum ≤ chunks.flatten.length) (hp : segs = [] ∨ (segs.map Prod.snd).sum + 2 ≤ 3 * numbps) :
    ∃ D, decodeCblk o w h 0 numbps st chunks x0 x1 segs = some (some D) ∧
      decodeRoi o w h r numbps st chunks x0 x1 segs = some (some D) := by
  have hm : ∀ r, r + numbps < 31 → (r + numbps) % 2 ^ 32 = r + numbps := fun r h => Nat.mod_eq_of_lt (by omega)
  rcases C48_block_any_bytes o w h r numbps ho hs st (if st.termall then 4 else 0) (by rw [hst]; cases st.termall <;> decide)
    (by cases st.termall <;> decide) chunks x0 x1 segs hlen (fun h => by rw [hst] at h; cases h) with ⟨h1, _⟩ | ⟨D', h1, h2, h3⟩
  · rw [hm r hr] at h1; omega
  have key : ∃ D, decodeCblk o w h 0 numbps st chunks x0 x1 segs = some (some D) ∧ D' = D.map (· * 2 ^ r) := by
    unfold decodeCblk at h1 ⊢
    rw [if_neg (by rw [hs]; decide)] at h1 ⊢
    simp only at h1 ⊢
    rw [hm r hr, if_neg (by omega)] at h1
    rw [hm 0 (by omega), if_neg (by omega)]
    by_cases hc : chunks = []
    · rw [if_pos hc] at h1 ⊢
      injection h1 with h1
      injection h1 with h1
      exact ⟨_, rfl, by rw [← h1]; simp⟩
    · rw [if_neg hc, if_pos (by omega)] at h1
      rw [if_neg hc, if_pos (by omega)]
      obtain ⟨v', k1, k2⟩ := Option.map_eq_some_iff.mp h1
      injection k2 with k2
      rcases hp with rfl | hp
      · unfold decSegments at k1 ⊢
        injection k1 with k1
        exact ⟨_, rfl, by rw [← k2, ← k1]; simp⟩
      · obtain ⟨v, e1, e2⟩ := decSegments_back o w h numbps st hst r segs
          ⟨chunks.flatten ++ [x0, x1], startCtxs, initFlags w h, List.replicate (w * h) 0, 0 + numbps, 2, 0⟩ _ (by simp only; omega) (by simp only; omega)
          (by rfl) (by rfl) (by rfl) (by simp) (by simp only; omega) (by rfl) (by rfl) v' k1
        exact ⟨v.d, by rw [e1]; rfl, by rw [← k2, e2]⟩
  obtain ⟨D, e1, e2⟩ := key
  refine ⟨D, e1, ?_⟩
  unfold decodeRoi
  rw [h1, Option.bind_some]
  simp only
  unfold unshift
  by_cases h0 : r = 0
  · subst h0
    rw [if_pos rfl, e2]
    simp
  · rw [if_neg h0, if_neg (by omega), if_neg (fun hc => absurd (h3 _ hc).1 (by omega)), e2, List.map_map, Option.map_some]
    congr 2
    rw [show (unshift1 r ∘ fun x => x * 2 ^ r) = id from funext fun v => unshift1_mul r v, List.map_id]

/-- So a component this encoder codes with a region of interest comes back exactly. -/
theorem C79_own_region_lossless (o w h r : Nat) (ho : o < 4) (st : Style) (hst : st.bypass = false) (px : Nat → Nat → Int) (mem : List UInt8) (start : Nat)
    (c : Coded) (hmem : mem.length + 4 ≤ 2 ^ 32) (hpx : ∀ y < h, ∀ x < w, (px y x).natAbs < 2 ^ 25)
    (he : encodeCblk o w h st (stripeOrder w h fun y x => shl6 (px y x)) mem start = some c) (hr : r + c.numbps < 31)
    (chunks : List (List UInt8)) (x0 x1 : UInt8)
    (hch : chunks.flatten = (c.mem.drop start).take ((segsOf 0 0 c.passes).map Prod.fst).sum) :
    ∃ D, decodeRoi o w h r c.numbps st chunks x0 x1 (segsOf 0 0 c.passes) = some (some D) ∧ D.length = w * h ∧
      ∀ y < h, ∀ x < w, (D[y * w + x]?).map (Int.tdiv · 2) = some (px y x) := by
  obtain ⟨f1, f2, f3⟩ := block_facts hmem (by
    intro v hv
    obtain ⟨y, x, hy, hx, rfl⟩ := mem_order hv
    unfold shl6
    omega) he
  obtain ⟨D, h1, h2, h3⟩ := C43_block_lossless o w h st px mem start c hmem hpx he chunks x0 x1 hch
  obtain ⟨D', k1, k2⟩ := C79_announced_shift o w h r c.numbps ho f1 st hst hr chunks x0 x1 (segsOf 0 0 c.passes)
    (by rw [hch, List.length_take]; omega) (by
      rcases f2 with ⟨f2, _⟩ | ⟨f2, _⟩
      · left; rw [f2]; rfl
      · right; rw [segs_cnt]; omega)
  rw [h1] at k1
  injection k1 with k1
  injection k1 with k1
  subst k1
  exact ⟨D, k2, h2, h3⟩

/-- What the decoder makes of blocks that really have been shifted, whichever encoder did it: `px` are the coefficients after the shift, `c.numbps` their
number of bit planes; `numbps` is what the packet header says, `r` less. Coefficients below `2^(r-1)` are kept, all others shifted back. -/
theorem C79_shifted_back (o w h r numbps : Nat) (st : Style) (hst : st.bypass = false) (px : Nat → Nat → Int) (mem : List UInt8) (start : Nat)
    (c : Coded) (hmem : mem.length + 4 ≤ 2 ^ 32) (hpx : ∀ y < h, ∀ x < w, (px y x).natAbs < 2 ^ 25)
    (he : encodeCblk o w h st (stripeOrder w h fun y x => shl6 (px y x)) mem start = some c)
    (hr : 0 < r ∧ r < 31) (hn : (r + numbps) % 2 ^ 32 = c.numbps % 2 ^ 32) (chunks : List (List UInt8)) (x0 x1 : UInt8)
    (hch : chunks.flatten = (c.mem.drop start).take ((segsOf 0 0 c.passes).map Prod.fst).sum) :
    ∃ D, decodeRoi o w h r numbps st chunks x0 x1 (segsOf 0 0 c.passes) = some (some D) ∧ D.length = w * h ∧
      ∀ y < h, ∀ x < w, (D[y * w + x]?).map (Int.tdiv · 2) =
        some (if (px y x).natAbs < 2 ^ (r - 1) then px y x else (px y x).tdiv (2 ^ r)) := by
  have hs : ∀ y < h, ∀ x < w, shl6 (px y x) = px y x * 64 := by
    intro y hy x hx
    have := hpx y hy x hx
    unfold shl6
    omega
  obtain ⟨D, h1, h2, h3⟩ := C43_block_round_trip o w h st _ mem start c hmem (by
    intro y hy x hx
    have := hpx y hy x hx
    rw [hs y hy x hx]
    omega) he chunks x0 x1 hch
  have h31 : ¬ -2 ^ 31 ∈ D := by
    intro hc
    obtain ⟨i, hi⟩ := List.mem_iff_getElem?.mp hc
    have hil : i < w * h := by rw [← h2]; exact (List.getElem?_eq_some_iff.mp hi).1
    have hw : 0 < w := Nat.pos_of_ne_zero fun h0 => by rw [h0] at hil; omega
    have hy : i / w < h := Nat.div_lt_of_lt_mul hil
    have hx : i % w < w := Nat.mod_lt _ hw
    have e := h3 _ hy _ hx
    rw [show i / w * w + i % w = i by rw [Nat.mul_comm]; exact Nat.div_add_mod i w, hi, hs _ hy _ hx] at e
    injection e with e
    have hb := hpx _ hy _ hx
    generalize px (i / w) (i % w) = v at e hb
    have hm : min (v * 64).natAbs (2 ^ 31 - 1) / 64 / 2 ^ 0 = v.natAbs := by omega
    unfold recon at e
    simp only [hm] at e
    split at e
    · omega
    · rcases Int.lt_or_gt_of_ne (show v ≠ 0 by omega) with hn | hpos
      · rw [Int.sign_eq_neg_one_of_neg (by omega)] at e; omega
      · rw [Int.sign_eq_one_of_pos (by omega)] at e; omega
  refine ⟨D.map (unshift1 r), ?_, by rw [List.length_map, h2], fun y hy x hx => ?_⟩
  · unfold decodeRoi
    rw [decodeCblk_n o w h r 0 numbps c.numbps st hst (by rw [hn, Nat.zero_add]), h1, Option.bind_some]
    simp only
    unfold unshift
    rw [if_neg (by omega), if_neg (by omega), if_neg h31]
    rfl
  · rw [List.getElem?_map, h3 y hy x hx, Option.map_some, Option.map_some, hs y hy x hx, unshift_recon r hr.1 _ (hpx y hy x hx)]

/-- Annex H, for background coefficients below `2^(r-1)`: the background comes back as it is, the region divided by `2^r`. (Annex H allows a background
below `2^r`: see `C79_background_lost`.) -/
theorem C79_max_shift_partial (o w h r numbps : Nat) (st : Style) (hst : st.bypass = false) (px : Nat → Nat → Int) (roi : Nat → Nat → Bool)
    (mem : List UInt8) (start : Nat) (c : Coded) (hmem : mem.length + 4 ≤ 2 ^ 32)
    (hbg : ∀ y < h, ∀ x < w, roi y x = false → (px y x).natAbs < 2 ^ (r - 1))
    (hpx : ∀ y < h, ∀ x < w, (if roi y x then px y x * 2 ^ r else px y x).natAbs < 2 ^ 25)
    (he : encodeCblk o w h st (stripeOrder w h fun y x => shl6 (if roi y x then px y x * 2 ^ r else px y x)) mem start = some c)
    (hr : 0 < r ∧ r < 31) (hn : (r + numbps) % 2 ^ 32 = c.numbps % 2 ^ 32) (chunks : List (List UInt8)) (x0 x1 : UInt8)
    (hch : chunks.flatten = (c.mem.drop start).take ((segsOf 0 0 c.passes).map Prod.fst).sum) :
    ∃ D, decodeRoi o w h r numbps st chunks x0 x1 (segsOf 0 0 c.passes) = some (some D) ∧ D.length = w * h ∧
      ∀ y < h, ∀ x < w, (D[y * w + x]?).map (Int.tdiv · 2) = some (px y x) := by
  obtain ⟨D, h1, h2, h3⟩ := C79_shifted_back o w h r numbps st hst _ mem start c hmem hpx he hr hn chunks x0 x1 hch
  refine ⟨D, h1, h2, fun y hy x hx => ?_⟩
  rw [h3 y hy x hx]
  congr 1
  cases hroi : roi y x with
  | false =>
    simp only [Bool.false_eq_true, if_false]
    rw [if_pos (hbg y hy x hx hroi)]
  | true =>
    simp only [if_true]
    have hp : (0 : Int) < 2 ^ r := by positivity
    split
    · rename_i hlt
      rw [Int.natAbs_mul, Int.natAbs_pow] at hlt
      have h2 : 2 ^ (r - 1) ≤ 2 ^ r := Nat.pow_le_pow_right (by omega) (by omega)
      have h0 : (px y x).natAbs = 0 := by
        by_contra hc
        have : 2 ^ r ≤ (px y x).natAbs * 2 ^ r := Nat.le_mul_of_pos_left _ (by omega)
        have e : (2 : Int).natAbs = 2 := rfl
        rw [e] at hlt
        omega
      rw [show px y x = 0 by omega, Int.zero_mul]
    · exact Int.mul_tdiv_cancel _ (by omega)

/-- False of the code: a background coefficient from `2^(r-1)` on, which Annex H allows below `2^r`, is taken for one of the region and
becomes zero. -/
theorem C79_background_lost (o w h r numbps : Nat) (st : Style) (hst : st.bypass = false) (px : Nat → Nat → Int) (mem : List UInt8) (start : Nat)
    (c : Coded) (hmem : mem.length + 4 ≤ 2 ^ 32) (hpx : ∀ y < h, ∀ x < w, (px y x).natAbs < 2 ^ 25)
    (he : encodeCblk o w h st (stripeOrder w h fun y x => shl6 (px y x)) mem start = some c)
    (hr : 0 < r ∧ r < 31) (hn : (r + numbps) % 2 ^ 32 = c.numbps % 2 ^ 32) (chunks : List (List UInt8)) (x0 x1 : UInt8)
    (hch : chunks.flatten = (c.mem.drop start).take ((segsOf 0 0 c.passes).map Prod.fst).sum)
    (y x : Nat) (hy : y < h) (hx : x < w) (hlo : 2 ^ (r - 1) ≤ (px y x).natAbs) (hhi : (px y x).natAbs < 2 ^ r) :
    ∃ D, decodeRoi o w h r numbps st chunks x0 x1 (segsOf 0 0 c.passes) = some (some D) ∧ (D[y * w + x]?).map (Int.tdiv · 2) = some 0 := by
  obtain ⟨D, h1, _, h3⟩ := C79_shifted_back o w h r numbps st hst px mem start c hmem hpx he hr hn chunks x0 x1 hch
  refine ⟨D, h1, ?_⟩
  rw [h3 y hy x hx, if_neg (by omega)]
  congr 1
  refine Int.natAbs_eq_zero.mp ?_
  rw [Int.natAbs_tdiv, Int.natAbs_pow]
  exact Nat.div_eq_of_lt hhi

/-- Coefficients for the examples: -7 to 7. -/
def small : Nat → Nat → Int := fun y x => (y * 3 + x : Nat) - 7

/-- False of the code: with bypass a component of this encoder with an announced shift does not come back. The decoder compares the shifted bit plane with
the number of planes that are not shifted, and decodes raw passes arithmetically. -/
theorem C79_bypass_lost : ∃ c, encodeCblk 1 3 5 { bypass := true } (stripeOrder 3 5 sample) (List.replicate 120 0) 1 = some c ∧
    ∃ D D', decodeCblk 1 3 5 0 c.numbps { bypass := true } [(c.mem.drop 1).take ((segsOf 0 0 c.passes).map Prod.fst).sum] 7 9 (segsOf 0 0 c.passes) =
      some (some D) ∧
    decodeRoi 1 3 5 1 c.numbps { bypass := true } [(c.mem.drop 1).take ((segsOf 0 0 c.passes).map Prod.fst).sum] 7 9 (segsOf 0 0 c.passes) =
      some (some D') ∧ D.map (Int.tdiv · 2) ≠ D'.map (Int.tdiv · 2) := by
  have h : ((encodeCblk 1 3 5 { bypass := true } (stripeOrder 3 5 sample) (List.replicate 120 0) 1).bind fun c =>
      ((decodeCblk 1 3 5 0 c.numbps { bypass := true } [(c.mem.drop 1).take ((segsOf 0 0 c.passes).map Prod.fst).sum] 7 9 (segsOf 0 0 c.passes)).bind id).bind fun D =>
      ((decodeRoi 1 3 5 1 c.numbps { bypass := true } [(c.mem.drop 1).take ((segsOf 0 0 c.passes).map Prod.fst).sum] 7 9 (segsOf 0 0 c.passes)).bind id).map fun D' =>
        decide (D.map (Int.tdiv · 2) ≠ D'.map (Int.tdiv · 2))) = some true := by decide +kernel
  obtain ⟨c, h1, h⟩ := Option.bind_eq_some_iff.mp h
  obtain ⟨D, h2, h⟩ := Option.bind_eq_some_iff.mp h
  obtain ⟨D', h3, h⟩ := Option.map_eq_some_iff.mp h
  obtain ⟨_, h2, rfl⟩ := Option.bind_eq_some_iff.mp h2
  obtain ⟨_, h3, rfl⟩ := Option.bind_eq_some_iff.mp h3
  exact ⟨c, h1, D, D', h2, h3, of_decide_eq_true h⟩

-- the conditions of the theorems hold of a block of 3 by 5 coefficients, announced shift 9
example : ((encodeCblk 0 3 5 {} (stripeOrder 3 5 fun y x => shl6 (small y x)) (List.replicate 120 0) 1).bind fun c =>
    (decodeRoi 0 3 5 9 c.numbps {} [(c.mem.drop 1).take ((segsOf 0 0 c.passes).map Prod.fst).sum] 7 9 (segsOf 0 0 c.passes)).map fun r =>
      (decide (9 + c.numbps < 31), r.map fun D => D.map (Int.tdiv · 2))) =
    some (true, some [-7, -6, -5, -4, -3, -2, -1, 0, 1, 2, 3, 4, 5, 6, 7]) := by decide +kernel
-- the left column is a region of interest, shift 4
example : ((encodeCblk 0 3 5 {} (stripeOrder 3 5 fun y x => shl6 (if x = 0 then small y x * 2 ^ 4 else small y x)) (List.replicate 120 0) 1).bind fun c =>
    (decodeRoi 0 3 5 4 (c.numbps - 4) {} [(c.mem.drop 1).take ((segsOf 0 0 c.passes).map Prod.fst).sum] 7 9 (segsOf 0 0 c.passes)).map fun r =>
      (c.numbps, r.map fun D => D.map (Int.tdiv · 2))) =
    some (7, some [-7, -6, -5, -4, -3, -2, -1, 0, 1, 2, 3, 4, 5, 6, 7]) := by decide +kernel
-- the same with shift 3, which Annex H allows: the background from 4 on is lost
example : ((encodeCblk 0 3 5 {} (stripeOrder 3 5 fun y x => shl6 (if x = 0 then small y x * 2 ^ 3 else small y x)) (List.replicate 120 0) 1).bind fun c =>
    (decodeRoi 0 3 5 3 (c.numbps - 3) {} [(c.mem.drop 1).take ((segsOf 0 0 c.passes).map Prod.fst).sum] 7 9 (segsOf 0 0 c.passes)).map fun r =>
      (c.numbps, r.map fun D => D.map (Int.tdiv · 2))) =
    some (6, some [-7, 0, 0, -4, -3, -2, -1, 0, 1, 2, 3, 0, 5, 0, 0]) := by decide +kernel

end Jp2.T1

import Verif.Jp2.FixedLemmas
import Verif.Jp2.T2Props
/-!
# C81: fixed quality layers

The user's matrix gives for each layer, resolution and band how many sixteenths of the bit planes of a component are in the layers up to this one. -/
namespace Jp2.T2
open Jp2.T1 (Style Coded Pass encodeCblk stripeOrder)

/-- The passes of a coded block that an entry `m` asks for: of the `prec` planes of the component, counted from the top, `m * prec / 16` are wanted; the block has only the lower
`numbps` of them. `k` planes are `3 k - 2` passes, as the top plane has only one. -/
def wanted (prec : Nat) (c : Coded) (m : Nat) : Nat := if c.passes = [] then 0 else 3 * (m * prec / 16 + c.numbps - prec) - 2

/-- What the user's matrix says about a layer, resolution and band: it is stored by layers, in each by resolutions, in each three bands. -/
def asked (mat : List Nat) (numres lay res band : Nat) : Option Nat := mat[(lay * numres + res) * 3 + band]?

theorem entry_eq (mat : List Nat) (numres i j k : Nat) : entry mat numres i j k = asked mat numres i j k := by
  unfold entry asked
  rw [Nat.add_mul]

/-- The matrix has, for this resolution and band, an entry of at most 16 for each layer, and later layers do not ask for less. -/
structure GoodColumn (mat : List Nat) (numres res band L : Nat) : Prop where
  entries : ∀ i < L, ∃ m, asked mat numres i res band = some m ∧ m ≤ 16
  rising : ∀ i, i + 1 < L → ∀ a b, asked mat numres i res band = some a → asked mat numres (i + 1) res band = some b → a ≤ b

/-- With such a matrix every block gets its layers, without reading a pass it does not have: the layers up to each one hold the passes its entry asks for, in order, with their bytes. -/
theorem C81_fixed_layers (o w h : Nat) (st : Style) (data : List Int) (mem : List UInt8) (start : Nat) (c : Coded) (hroom : mem.length + 4 ≤ 2 ^ 32)
    (hr : ∀ x ∈ data, -2 ^ 31 ≤ x ∧ x < 2 ^ 31) (he : encodeCblk o w h st data mem start = some c)
    (mat : List Nat) (numres res band prec : Nat) (hp : prec ≤ 38) (olds : List Layer) (hg : GoodColumn mat numres res band olds.length) :
    ∃ ls, makeFixedLayers mat numres res band prec c.numbps c.passes olds = some ls ∧ ls.length = olds.length ∧
      (∀ l < olds.length, ∀ m, asked mat numres l res band = some m → passesIn (ls.take (l + 1)) = wanted prec c m) ∧
      ∀ l ly, ls[l]? = some ly → ly.numpasses ≠ 0 → ly.off = size (c.passes.take (passesIn (ls.take l))) ∧
        ly.off + ly.len = size (c.passes.take (passesIn (ls.take (l + 1)))) := by
  obtain ⟨f1, f2, f3, f4⟩ := block_fixed hroom hr he hp
  obtain ⟨k5, _⟩ := coded_cum hroom hr he
  have hs := coded_size hroom hr he
  obtain ⟨ls, h1, h2, h3⟩ := loop_ok (by simpa only [entry_eq] using hg.entries) (by simpa only [entry_eq] using hg.rising) f1 f2 olds 0 0 (Nat.zero_add _) (fun h => absurd rfl h)
  rw [if_pos rfl] at h2 h3
  obtain ⟨ls', g1, g2, _, _, g5⟩ := layers_ok k5 hs _ 0 (Nat.zero_le _)
  rw [h2] at g1
  injection g1 with g1
  subst g1
  simp only [Nat.zero_add] at h3 g5
  refine ⟨ls, h1, by rw [g2, choicesFrom_length], fun l hl m hm => ?_, g5⟩
  rw [h3 l hl m (by rw [entry_eq]; exact hm)]
  have hle : scaled prec m ≤ prec := by
    obtain ⟨m', e, h16⟩ := hg.entries l hl
    rw [hm] at e
    injection e with e
    exact scaled_le prec (by omega)
  unfold wanted
  by_cases hc : c.passes = []
  · rw [if_pos hc]
    exact upto_zero (Int.le_trans hle (f4 hc))
  · rw [if_neg hc]
    obtain ⟨n1, n2⟩ := f3 hc
    rw [n2]
    unfold upto scaled
    omega

/-- If the last layer asks for everything, all passes are in the layers: nothing is lost. -/
theorem C81_sixteen_is_all (o w h : Nat) (st : Style) (data : List Int) (mem : List UInt8) (start : Nat) (c : Coded) (hroom : mem.length + 4 ≤ 2 ^ 32)
    (hr : ∀ x ∈ data, -2 ^ 31 ≤ x ∧ x < 2 ^ 31) (he : encodeCblk o w h st data mem start = some c)
    (mat : List Nat) (numres res band prec : Nat) (hp : prec ≤ 38) (olds : List Layer) (hg : GoodColumn mat numres res band olds.length)
    (hlast : olds ≠ [] ∧ asked mat numres (olds.length - 1) res band = some 16) :
    ∃ ls, makeFixedLayers mat numres res band prec c.numbps c.passes olds = some ls ∧ passesIn ls = c.passes.length := by
  obtain ⟨ls, h1, h2, h3, _⟩ := C81_fixed_layers o w h st data mem start c hroom hr he mat numres res band prec hp olds hg
  have hne : 0 < olds.length := List.length_pos_iff.mpr hlast.1
  have h4 := h3 (olds.length - 1) (by omega) 16 hlast.2
  rw [show olds.length - 1 + 1 = ls.length by omega, List.take_length] at h4
  refine ⟨ls, h1, ?_⟩
  rw [h4]
  unfold wanted
  obtain ⟨_, hlen, _⟩ := T1.block_facts hroom hr he
  by_cases hc : c.passes = []
  · rw [if_pos hc, hc]; rfl
  · rw [if_neg hc]
    rcases hlen with ⟨hn, _⟩ | ⟨hlen, _, _⟩
    · exact absurd hn hc
    · omega

/-- Fixed layers are layers made by thresholds (`Made`): what C46, C50 and C70 say for any choice of thresholds holds for them. -/
theorem C81_as_thresholds (o w h : Nat) (st : Style) (px : Nat → Nat → Int) (mem mem' : List UInt8) (start : Nat) (c : EncCblk)
    (hr : ∀ y < h, ∀ x < w, -2 ^ 31 ≤ px y x ∧ px y x < 2 ^ 31) (hroom : mem.length + 4 ≤ 2 ^ 32)
    (he : encodeCblk o w h st (stripeOrder w h px) mem start = some ⟨c.numbps, c.passes, mem'⟩) (hd : c.data = mem'.drop start)
    (mat : List Nat) (numres res band prec : Nat) (hp : prec ≤ 38) (olds : List Layer) (hg : GoodColumn mat numres res band olds.length)
    (hl : makeFixedLayers mat numres res band prec c.numbps c.passes olds = some c.layers) :
    ∃ choices, choices.length = olds.length ∧ Made o w h st px mem start choices c := by
  obtain ⟨f1, f2, _, _⟩ := block_fixed hroom (T1.order_range hr) he hp
  obtain ⟨ls, h1, h2, _⟩ := loop_ok (by simpa only [entry_eq] using hg.entries) (by simpa only [entry_eq] using hg.rising) f1 f2 olds 0 0 (Nat.zero_add _) (fun h => absurd rfl h)
  rw [if_pos rfl] at h2
  unfold makeFixedLayers at hl
  rw [show fixedLoop mat numres res band prec c.numbps c.passes 0 olds 0 = some ls from h1] at hl
  injection hl with hl
  subst hl
  exact ⟨_, choicesFrom_length .., hr, hroom, ⟨mem', he, hd⟩, h2⟩

/-- Setup accepts any matrix. An entry that asks for more planes than the component has makes the encoder read a pass the block does not have. -/
theorem C81_large_entry_reads_past (o w h : Nat) (st : Style) (data : List Int) (mem : List UInt8) (start : Nat) (c : Coded) (hroom : mem.length + 4 ≤ 2 ^ 32)
    (hr : ∀ x ∈ data, -2 ^ 31 ≤ x ∧ x < 2 ^ 31) (he : encodeCblk o w h st data mem start = some c) (hc : c.passes ≠ [])
    (mat : List Nat) (numres res band prec m : Nat) (hp : prec ≤ 38) (old : Layer) (olds : List Layer) (hm : asked mat numres 0 res band = some m)
    (hbig : prec < m * prec / 16) (hm2 : m ≤ 2 ^ 18) : makeFixedLayers mat numres res band prec c.numbps c.passes (old :: olds) = none := by
  obtain ⟨f1, f2, f3, _⟩ := block_fixed hroom hr he hp
  obtain ⟨n1, n2⟩ := f3 hc
  have hs : (prec : Int) < scaled prec m := by unfold scaled; omega
  have hs2 : scaled prec m ≤ 2 ^ 24 := by
    unfold scaled
    have : m * prec ≤ 2 ^ 18 * 38 := Nat.mul_le_mul hm2 hp
    omega
  have hN := fixedN_first (cur := scaled prec m) (imsb := imsbOf prec c.numbps) (by omega)
  obtain ⟨N, hN'⟩ : ∃ N, N = upto (scaled prec m) (imsbOf prec c.numbps) := ⟨_, rfl⟩
  rw [← hN'] at hN
  have hlt : c.passes.length < N ∧ N < 2 ^ 32 := by
    rw [f1, hN']
    exact upto_past (by omega) hs (by omega)
  unfold makeFixedLayers fixedLoop
  rw [entry_eq, hm, Option.bind_some, if_pos rfl, Option.bind_some]
  unfold makeFixed
  simp only [Option.map_none, if_true]
  rw [hN, show (2 ^ 32 + N - 0) % 2 ^ 32 = N by omega, if_neg (by omega), show (2 ^ 32 + N - 1) % 2 ^ 32 = N - 1 by omega,
    List.getElem?_eq_none (by omega)]
  rfl

/-- A layer that asks for less than the one before takes a negative number of passes, which wraps. -/
theorem C81_falling_entry_wraps : ((encodeCblk 0 3 5 {} (stripeOrder 3 5 T1.sample) (List.replicate 120 0) 1).map fun c =>
    (makeFixedLayers [8, 0, 0, 4, 0, 0] 1 0 0 8 c.numbps c.passes [⟨0, 0, 0⟩, ⟨0, 0, 0⟩],
      (makeFixedLayers [8, 0, 0, 4, 0, 0] 1 0 0 8 c.numbps c.passes [⟨0, 0, 0⟩]).isSome,
      fixedN (planesFixed (some (scaled 8 8)) (scaled 8 4) (imsbOf 8 c.numbps)) 1)) = some (none, true, 2 ^ 32 - 5) := by decide +kernel

/-! ### The conditions are met -/

/-- A matrix for two layers and two resolutions; its column for resolution 1 and band 2. -/
def exMat : List Nat := [4, 0, 0, 4, 6, 9, 10, 0, 0, 12, 15, 16]

example : GoodColumn exMat 2 1 2 2 where
  entries := fun i hi => by
    match i, hi with
    | 0, _ => exact ⟨9, rfl, by decide⟩
    | 1, _ => exact ⟨16, rfl, by decide⟩
  rising := fun i hi a b ha hb => by
    match i, hi with
    | 0, _ =>
      injection ha with ha
      injection hb with hb
      omega

-- 8 planes, of which the block has the lower 5: 9 / 16 are 4 planes, one of the block's, 16 / 16 all
example : ((encodeCblk 0 3 5 {} (stripeOrder 3 5 T1.sample) (List.replicate 120 0) 1).bind fun c =>
    (makeFixedLayers exMat 2 1 2 8 c.numbps c.passes [⟨7, 7, 7⟩, ⟨7, 7, 7⟩]).map fun ls =>
      (ls.map fun l => l.numpasses, wanted 8 c 9, wanted 8 c 16)) = some ([1, 12], 1, 13) := by decide +kernel

end Jp2.T2

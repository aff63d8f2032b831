import Verif.Jp2.T1StdWhole
import Verif.Jp2.T1Props
/-!
# Block coding is that of the standard
-/
namespace Jp2.T1
open Jp2.Mqc (Mqc startCtxs)
open Std (CPass blockOf)

/-! ## C44: block coding conforms to Annex D of ISO/IEC 15444-1 -/

/-- The number of bit planes the encoder announces: the least that holds every magnitude. A block without any magnitude bit is
not coded. -/
theorem C44_bit_planes (o w h : Nat) (st : Style) (px : Nat → Nat → Int) (mem : List UInt8) (start : Nat) (c : Coded)
    (hpx : ∀ y < h, ∀ x < w, -2 ^ 31 ≤ px y x ∧ px y x < 2 ^ 31) (he : encodeCblk o w h st (stripeOrder w h px) mem start = some c) :
    (c.passes = [] ∧ c.mem = mem ∧ ∀ y < h, ∀ x < w, (blockOf o w h st.vsc px).mag y x = 0) ∨
    (1 ≤ c.numbps ∧ c.numbps ≤ 25 ∧ (∀ y < h, ∀ x < w, (blockOf o w h st.vsc px).mag y x < 2 ^ c.numbps) ∧
      ∃ y < h, ∃ x < w, 2 ^ (c.numbps - 1) ≤ (blockOf o w h st.vsc px).mag y x) := by
  have hr := order_range hpx
  have hm := mag_blockOf (o := o) (causal := st.vsc) hpx
  rcases encode_cases hr he with ⟨h1, h2, h3⟩ | ⟨s0, e, h1, h2, h3, h4, h5, h6⟩
  · left
    refine ⟨h1, h2, fun y hy x hx => ?_⟩
    rw [hm y hy x hx]
    exact h3 _ (List.mem_of_getElem? (order_get px hy hx))
  · right
    refine ⟨h1.1, h1.2, fun y hy x hx => ?_, ?_⟩
    · rw [hm y hy x hx]
      have := h2 _ (List.mem_of_getElem? (order_get px hy hx))
      exact (Nat.div_eq_zero_iff.mp this).resolve_left (Nat.pos_iff_ne_zero.mp (Nat.two_pow_pos _))
    · obtain ⟨v, hv, hle⟩ := h3
      obtain ⟨y, x, hy, hx, rfl⟩ := mem_order hv
      exact ⟨y, hy, x, hx, by rw [hm y hy x hx]; exact hle⟩

/-- The bytes the encoder writes for a block are those of the passes of the standard: for every size, sub-band, style and
block of coefficients. -/
theorem C44_encoder (o w h : Nat) (ho : o < 4) (st : Style) (px : Nat → Nat → Int) (mem : List UInt8) (start : Nat) (c : Coded)
    (hpx : ∀ y < h, ∀ x < w, -2 ^ 31 ≤ px y x ∧ px y x < 2 ^ 31) (hc : ∃ y < h, ∃ x < w, (blockOf o w h st.vsc px).mag y x ≠ 0)
    (he : encodeCblk o w h st (stripeOrder w h px) mem start = some c) :
    ((Mqc.initEnc mem start startCtxs).bind fun s =>
      Std.code st c.numbps false s (Std.passes (blockOf o w h st.vsc px) st.bypass st.segsym c.numbps)).map Mqc.mem = some c.mem := by
  have hr := order_range hpx
  have hm := mag_blockOf (o := o) (causal := st.vsc) hpx
  rcases encode_cases hr he with ⟨_, _, h3⟩ | ⟨s0, e, h1, h2, h3, h4, h5, h6⟩
  · obtain ⟨y, hy, x, hx, hne⟩ := hc
    rw [hm y hy x hx] at hne
    exact absurd (h3 _ (List.mem_of_getElem? (order_get px hy hx))) hne
  · generalize c.numbps = n at *
    have hD := dat_of (o := o) (causal := st.vsc) hpx
    obtain ⟨items, F', k1, k2, k3, k4⟩ := trace_std hD ho rfl n (3 * n) n 2 Std.St.init (initFlags w h) (by omega) (by omega) ⟨init_rep _, by omega⟩
    have k1' : traceLoop o w h n st ((stripeOrder w h px).map toSmr) (3 * n) n 2 (initFlags w h) = some (items, F') := k1
    obtain ⟨items', ps, g1, g2, g3⟩ := encLoop_split (3 * n) n 2 h5
    dsimp only at g1 g2
    rw [k1'] at g1
    injection g1 with g1
    injection g1 with g1 _
    subst g1
    have g2' : codeLoop st false s0 items = some (e.s, ps) := g2
    have hcode := code_loop (n := n) items (orderFrom n 2) k3 (by
      rw [k4]
      apply List.map_congr_left
      intro q hq
      exact term_std st n q.1 q.2 (orderFrom_lt hq)) g2'
    rw [k2, order_from] at hcode
    rw [h4, Option.bind_some]
    unfold Std.passes
    rw [hcode, Option.map_some, h6]

/-- The decoder given segments from any encoder: if the coders find in them the first passes of the standard for a block of
coefficients, the decoder reconstructs the block from all magnitude bits down to bit plane `e`, where `e` depends only on the
number of passes left out. -/
theorem C44_decoder (o w h : Nat) (ho : o < 4) (hw : w ≤ 1024) (hh : h ≤ 1024) (hwh : w * h ≤ 4096) (st : Style) (px : Nat → Nat → Int)
    (hpx : ∀ y < h, ∀ x < w, -2 ^ 31 ≤ px y x ∧ px y x < 2 ^ 31) (n : Nat) (h1 : 1 ≤ n) (h25 : n ≤ 25)
    (hn : ∀ y < h, ∀ x < w, (blockOf o w h st.vsc px).mag y x < 2 ^ n)
    (chunks : List (List UInt8)) (hch : chunks ≠ []) (x0 x1 : UInt8) (groups : List (Nat × List CPass)) (rest : List CPass)
    (hlen : (groups.map Prod.fst).sum ≤ chunks.flatten.length)
    (hp : Std.passes (blockOf o w h st.vsc px) st.bypass st.segsym n = groups.flatMap Prod.snd ++ rest)
    (hr : Std.receiveSegs st (chunks.flatten ++ [x0, x1]) 0 startCtxs groups = true) :
    ∃ D, decodeCblk o w h 0 n st chunks x0 x1 (groups.map fun g => (g.1, g.2.length)) = some (some D) ∧ D.length = w * h ∧
      ∀ y < h, ∀ x < w, ∃ e, rest.length / 3 ≤ e ∧ e ≤ (rest.length + 2) / 3 ∧ D[y * w + x]? = some (recon e (px y x)) := by
  have hD := dat_of (o := o) (causal := st.vsc) hpx
  obtain ⟨items, F', k1, k2, k3, k4⟩ := trace_std hD ho rfl n (3 * n) n 2 Std.St.init (initFlags w h) (by omega) (by omega) ⟨init_rep _, by omega⟩
  have hr' := order_range hpx
  have hd : ∀ i, ((stripeOrder w h px).map toSmr).getD i 0 < 2 ^ 32 := by
    intro i
    rw [List.getD_eq_getElem?_getD, List.getElem?_map]
    cases hg : (stripeOrder w h px)[i]? with
    | none => simp
    | some v =>
      obtain ⟨v1, v2⟩ := hr' v (List.mem_of_getElem? hg)
      exact smr_lt v1 v2
  have hinv : Inv w h ((stripeOrder w h px).map toSmr) n 2 (initFlags w h) (initFlags w h) (List.replicate (w * h) 0) := by
    apply inv_start h1
    intro y hy x hx
    have hm : (blockOf o w h st.vsc px).mag y x = mag (((stripeOrder w h px).map toSmr).getD (eidx w h y x) 0) := hD.mag y hy x hx
    rw [← hm]
    exact Nat.div_eq_of_lt (hn y hy x hx)
  have k1' : traceLoop o w h n st ((stripeOrder w h px).map toSmr) (3 * n) n 2 (initFlags w h) = some (items, F') := k1
  have hp' : List.zipWith cpass (orderFrom n 2) items = groups.flatMap Prod.snd ++ rest := by
    rw [k2, order_from]; exact hp
  obtain ⟨q, fuel', F'', items', g1, g2, g3, g4, g5, g6⟩ := segs_std hd groups (orderFrom n 2) items (3 * n) n 2 0 startCtxs _ _ _ (by omega) h25 k1' hinv k3 hp' hr
    (by rw [List.length_append, Nat.zero_add]; exact Nat.add_le_add_right hlen 2)
  obtain ⟨e1, e2⟩ := inv_recon hr' (order_len w h px) g2 g6 (R := rest.length) (by
    rcases trace_len fuel' q.bp1 q.t g2 g4 with ⟨t1, t2⟩ | t2
    · left; rw [t2] at g5; exact ⟨t1, by simpa using g5.symm⟩
    · right; omega)
  refine ⟨q.d, ?_, e1, fun y hy x hx => ?_⟩
  · unfold decodeCblk
    rw [if_neg (by unfold sizesOk; simp; omega)]
    dsimp only
    have hbp1 : (0 + n) % 2 ^ 32 = n := by omega
    rw [hbp1, if_neg (by omega), if_pos (show n < 2 ^ 31 by omega), if_neg hch, g1]
    rfl
  · obtain ⟨e, v, a1, a2, a3, a4⟩ := e2 y hy x hx
    rw [order_get px hy hx] at a3
    injection a3 with a3
    subst a3
    exact ⟨e, a1, a2, a4⟩



/-- Passes split into segments, for the examples. -/
def groupsOf : List (Nat × Nat) → List CPass → List (Nat × List CPass)
  | [], _ => []
  | (len, k) :: l, ps => (len, ps.take k) :: groupsOf l (ps.drop k)

-- a block with 13 passes and the numbers of their decisions
example : (Std.passes (blockOf 0 3 5 false sample) false false 5).map (fun p => (p.b, p.t, p.dcs.length)) =
    [(4, 2, 7), (3, 0, 10), (3, 1, 1), (3, 2, 10), (2, 0, 6), (2, 1, 7), (2, 2, 4), (1, 0, 6), (1, 1, 9), (1, 2, 3), (0, 0, 5), (0, 1, 12),
      (0, 2, 0)] := by
  decide +kernel
-- the conditions of the theorems hold of it
example : ∃ y < 5, ∃ x < 3, (blockOf 0 3 5 false sample).mag y x ≠ 0 := by decide +kernel
example : ∀ y < 5, ∀ x < 3, (blockOf 0 3 5 false sample).mag y x < 2 ^ 5 := by decide +kernel
example : ((encodeCblk 1 3 5 { bypass := true } (stripeOrder 3 5 sample) (List.replicate 120 0) 1).map fun c =>
    Std.receiveSegs { bypass := true } ((c.mem.drop 1).take ((segsOf 0 0 c.passes).map Prod.fst).sum ++ [7, 9]) 0 startCtxs
      (groupsOf (segsOf 0 0 c.passes) (Std.passes (blockOf 1 3 5 false sample) true false 5))) = some true := by decide +kernel
example : ((encodeCblk 3 3 5 ⟨true, true, true, true, true, true⟩ (stripeOrder 3 5 sample) (List.replicate 120 0) 1).map fun c =>
    Std.receiveSegs ⟨true, true, true, true, true, true⟩ ((c.mem.drop 1).take ((segsOf 0 0 c.passes).map Prod.fst).sum ++ [7, 9]) 0 startCtxs
      (groupsOf (segsOf 0 0 c.passes) (Std.passes (blockOf 3 3 5 true sample) true true 5))) = some true := by decide +kernel

end Jp2.T1

import Verif.Jp2.RoiLemmas
/-! # Helpers for C79: what the encoder leaves behind, and blocks without bypass -/
namespace Jp2.T1
open Jp2.Mqc (Mqc startCtxs)

theorem block_facts {o w h : Nat} {st : Style} {data : List Int} {mem : List UInt8} {start : Nat} {c : Coded} (hroom : mem.length + 4 ≤ 2 ^ 32)
    (hr : ∀ x ∈ data, -2 ^ 31 ≤ x ∧ x < 2 ^ 31) (he : encodeCblk o w h st data mem start = some c) :
    sizesOk w h = true ∧ (c.passes = [] ∧ (c.numbps = 0 ∨ 2 ^ 31 < c.numbps) ∨ c.passes.length + 2 = 3 * c.numbps ∧ 1 ≤ c.numbps ∧ c.numbps ≤ 25) ∧
      ((segsOf 0 0 c.passes).map Prod.fst).sum ≤ (c.mem.drop start).length := by
  unfold encodeCblk at he
  split at he
  · simp at he
  rename_i hsz
  have hsz1 : sizesOk w h = true := by
    cases hh : sizesOk w h with
    | true => rfl
    | false => exact absurd (Or.inl hh) hsz
  refine ⟨hsz1, ?_⟩
  clear hsz
  dsimp only at he
  have hcase := numbps_cases hr
  generalize numbpsOf ((data.map magOf).foldl max 0) = n at he hcase
  rcases hcase with ⟨hn, hz⟩ | ⟨hn1, hn25, hz⟩
  · have hc : c = ⟨n, [], mem⟩ := by
      rcases hn with hn | hn
      · rw [if_pos hn] at he
        injection he with he
        rw [← he, hn]
      · rw [if_neg (by omega), if_pos (by omega)] at he
        injection he with he
        exact he.symm
    subst hc
    exact ⟨Or.inl ⟨rfl, by show n = 0 ∨ 2 ^ 31 < n; omega⟩, Nat.zero_le _⟩
  · rw [if_neg (by omega), if_neg (by omega), Option.bind_eq_some_iff] at he
    obtain ⟨s0, hi, he⟩ := he
    rw [Option.bind_eq_some_iff] at he
    obtain ⟨e, hl, he⟩ := he
    rw [Option.map_eq_some_iff] at he
    obtain ⟨out, hfin, he⟩ := he
    subst he
    dsimp only
    obtain ⟨i1, i2, i3, i4, i5⟩ := Mqc.initEnc_fresh hi
    have hd : ∀ i, (data.map toSmr).getD i 0 < 2 ^ 32 := by
      intro i
      rw [List.getD_eq_getElem?_getD, List.getElem?_map]
      cases hg : data[i]? with
      | none => simp
      | some v =>
        obtain ⟨v1, v2⟩ := hr v (List.mem_of_getElem? hg)
        exact smr_lt v1 v2
    obtain ⟨items, ps, h1, h2, h3⟩ := encLoop_split (3 * n) n 2 hl
    dsimp only at h1 h2 h3
    rw [List.nil_append] at h3
    obtain ⟨hchain, hbits⟩ := trace_chain hd (3 * n) n 2 (by omega) h1
    have hil : items.length + 2 = 3 * n := by
      rcases trace_len (3 * n) n 2 (by omega) h1 with h | h <;> omega
    have hrawh : ∀ x, items.head? = some x → x.raw = false := by
      intro x hx
      rcases trace_head h1 with ⟨g1, g2⟩ | ⟨b, p, l, g1, g2, g3, g4⟩
      · rw [g2] at hx; simp at hx
      · rw [g2] at hx
        injection hx with hx
        rw [← hx, g3]
        unfold rawE
        simp
    obtain ⟨segs', hok⟩ := block_all (o := o) (w := w) (h := h) (n := n) hd i1 (by omega) i4 (by rw [i3]; exact hroom)
      (by intro h0; rw [h0] at hil; simp at hil; omega) hchain hrawh hbits h2
    rw [i3, i5] at hok
    have hbp := hok.le
    have hfit := hok.fits
    have hmlen := hok.len
    have hrates := hok.rates
    rw [Nat.sub_self] at hrates
    obtain ⟨ps', mm, k1, k2, k3⟩ := clamp_rates hrates
    have hnb : numbytes32 e.s = 0 + (segs'.map Prod.fst).sum := by
      unfold numbytes32
      rw [hok.startEq, hok.sum]
      omega
    rw [hnb, h3, k1] at hfin
    dsimp only at hfin
    have hseg' : segsOf 0 0 out = segs' := finish_rates (by omega) k3 (fun h0 => absurd h0 (by omega)) hfin
    have hpl : out.length = items.length := by
      rw [← hok.cnt, ← hseg', segs_cnt]
      omega
    refine ⟨Or.inr ⟨by omega, hn1, hn25⟩, ?_⟩
    rw [hseg', hok.sum, List.length_drop]
    omega

theorem decSegments_n (o w h n n' : Nat) (st : Style) (hst : st.bypass = false) (q : SegSt) (segs : List (Nat × Nat)) :
    decSegments o w h n st q segs = decSegments o w h n' st q segs := by
  have hraw : ∀ n b t, rawD st n b t = false := fun n b t => by unfold rawD; rw [hst, Bool.and_false]
  have e : decSegment o w h n st = decSegment o w h n' st := by
    funext q sg
    unfold decSegment
    simp only [hraw]
  induction segs generalizing q with
  | nil => rfl
  | cons sg l ih =>
    unfold decSegments
    rw [e]
    congr 1
    funext q
    exact ih q

theorem decodeCblk_n (o w h r r' n n' : Nat) (st : Style) (hst : st.bypass = false) (hn : (r + n) % 2 ^ 32 = (r' + n') % 2 ^ 32)
    (chunks : List (List UInt8)) (x0 x1 : UInt8) (segs : List (Nat × Nat)) :
    decodeCblk o w h r n st chunks x0 x1 segs = decodeCblk o w h r' n' st chunks x0 x1 segs := by
  unfold decodeCblk
  simp only [hn]
  rw [decSegments_n o w h n n' st hst]

theorem unshift1_nat (r a : Nat) : unshift1 r (a : Int) = ((if 2 ^ r ≤ a then a / 2 ^ r else a : Nat) : Int) := by
  unfold unshift1
  rw [if_neg (show ¬((a : Int) < 0) by omega), Int.natAbs_natCast]
  by_cases h : 2 ^ r ≤ a
  · rw [if_pos h, if_pos (by exact_mod_cast h)]
  · rw [if_neg h, if_neg (by exact_mod_cast h)]

theorem unshift1_neg (r a : Nat) (ha : 0 < a) : unshift1 r (-(a : Int)) = -((if 2 ^ r ≤ a then a / 2 ^ r else a : Nat) : Int) := by
  unfold unshift1
  rw [if_pos (show -(a : Int) < 0 by omega), Int.natAbs_neg, Int.natAbs_natCast]
  by_cases h : 2 ^ r ≤ a
  · rw [if_pos h, if_pos (by exact_mod_cast h)]
  · rw [if_neg h, if_neg (by exact_mod_cast h)]

theorem half_shift (s m : Nat) : (if 2 ^ (s + 1) ≤ 2 * m + 1 then (2 * m + 1) / 2 ^ (s + 1) else 2 * m + 1) / 2 =
    if m < 2 ^ s then m else m / 2 ^ (s + 1) := by
  have e1 : 2 ^ (s + 1) = 2 * 2 ^ s := by rw [Nat.pow_succ]; omega
  by_cases h : m < 2 ^ s
  · rw [if_pos h, if_neg (by omega)]
    omega
  · rw [if_neg h, if_pos (by omega), Nat.div_div_eq_div_mul, Nat.mul_comm (2 ^ (s + 1)) 2, ← Nat.div_div_eq_div_mul]
    congr 1
    omega

/-- One coefficient: coding, shifting back, halving. -/
theorem unshift_recon (r : Nat) (hr : 0 < r) (v : Int) (hv : v.natAbs < 2 ^ 25) :
    (unshift1 r (recon 0 (v * 64))).tdiv 2 = if v.natAbs < 2 ^ (r - 1) then v else v.tdiv (2 ^ r) := by
  have hm : min (v * 64).natAbs (2 ^ 31 - 1) / 64 / 2 ^ 0 = v.natAbs := by omega
  obtain ⟨s, rfl⟩ : ∃ s, r = s + 1 := ⟨r - 1, by omega⟩
  have hp : 0 < 2 ^ s := Nat.pow_pos (by omega)
  have e2 : ((2 : Int) ^ (s + 1)) = ((2 ^ (s + 1) : Nat) : Int) := by push_cast; rfl
  rw [Nat.add_sub_cancel, e2]
  unfold recon
  simp only [hm]
  by_cases h0 : v.natAbs = 0
  · rw [if_pos h0, if_pos (by omega), show v = 0 by omega]
    have := unshift1_nat (s + 1) 0
    simp only [Nat.zero_div, ite_self] at this
    rw [show (0 : Int) = ((0 : Nat) : Int) from rfl, this]
    rfl
  rw [if_neg h0]
  have hh := half_shift s v.natAbs
  rcases Int.lt_or_gt_of_ne (show v ≠ 0 by omega) with hn | hpos
  · rw [Int.sign_eq_neg_one_of_neg (by omega),
      show (-1 * ((2 * (v.natAbs : Int) + 1) * 2 ^ 0)) = -((2 * v.natAbs + 1 : Nat) : Int) by push_cast; ring, unshift1_neg _ _ (by omega), Int.neg_tdiv,
      show (2 : Int) = ((2 : Nat) : Int) from rfl, ← Int.ofNat_tdiv, hh]
    split
    · omega
    · obtain ⟨m, hm⟩ : ∃ m : Nat, v = -(m : Int) := ⟨v.natAbs, by omega⟩
      rw [hm, Int.neg_tdiv, Int.natAbs_neg, Int.natAbs_natCast, ← Int.ofNat_tdiv]
  · rw [Int.sign_eq_one_of_pos (by omega),
      show (1 * ((2 * (v.natAbs : Int) + 1) * 2 ^ 0)) = ((2 * v.natAbs + 1 : Nat) : Int) by push_cast; ring, unshift1_nat,
      show (2 : Int) = ((2 : Nat) : Int) from rfl, ← Int.ofNat_tdiv, hh]
    split
    · omega
    · obtain ⟨m, hm⟩ : ∃ m : Nat, v = (m : Int) := ⟨v.natAbs, by omega⟩
      rw [hm, Int.natAbs_natCast, ← Int.ofNat_tdiv]

end Jp2.T1

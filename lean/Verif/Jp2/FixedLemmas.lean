import Verif.Jp2.Fixed
import Verif.Jp2.LayerLemmas
import Verif.Jp2.RoiBlock
/-! # Helpers for C81 -/
namespace Jp2.T2
open Jp2.T1 (Pass)

theorem pick_exact (ps : List Pass) (N : Nat) : ∀ (k passno : Nat), passno + k = ps.length → N ≤ ps.length →
    pickLoop (fun _ p => decide (p < N)) ps k passno (min N passno) = some N := by
  intro k
  induction k with
  | zero => intro passno h1 h2; unfold pickLoop; congr 1; omega
  | succ k ih =>
    intro passno h1 h2
    unfold pickLoop
    have e1 : ps[passno]? = some ps[passno] := List.getElem?_eq_getElem (by omega)
    have e2 : (if min N passno = 0 then some () else (ps[min N passno - 1]?).map fun _ => ()) = some () := by
      by_cases h0 : min N passno = 0
      · rw [if_pos h0]
      · rw [if_neg h0, List.getElem?_eq_getElem (by omega)]; rfl
    rw [e1, Option.bind_some, e2, Option.bind_some]
    have e3 : (if decide (passno < N) = true then passno + 1 else min N passno) = min N (passno + 1) := by
      by_cases h : passno < N
      · rw [if_pos (by simpa using h)]; omega
      · rw [if_neg (by simpa using h)]; omega
    rw [e3]
    exact ih (passno + 1) (by omega) h2

/-- The choice that takes the passes up to the `N`-th. -/
theorem make_exact (ps : List Pass) (N inl : Nat) (h1 : inl ≤ N) (h2 : N ≤ ps.length) (old : Layer) :
    makeLayer (fun _ p => decide (p < N)) false ps inl old =
      if N - inl = 0 then some ({ old with numpasses := 0 }, inl) else
      (ps[N - 1]?).bind fun p => if inl = 0 then some (⟨N - inl, p.rate, 0⟩, N) else
      (ps[inl - 1]?).map fun q => (⟨N - inl, (2 ^ 32 + p.rate - q.rate) % 2 ^ 32, q.rate⟩, N) := by
  have h := pick_exact ps N (ps.length - inl) inl (by omega) h2
  rw [show min N inl = inl by omega] at h
  unfold makeLayer
  rw [if_neg (by decide), h, Option.bind_some, if_neg (by omega)]

/-- The passes of the planes of a block down to plane `prec - cur` of the component. -/
def upto (cur imsb : Int) : Nat := (3 * (cur - imsb) - 2).toNat

theorem upto_mono {a b imsb : Int} (h : a ≤ b) : upto a imsb ≤ upto b imsb := by unfold upto; omega

theorem fixedN_first {cur imsb : Int} (h : cur - imsb ≤ 2 ^ 28) : fixedN (planesFixed none cur imsb) 0 = upto cur imsb := by
  unfold fixedN planesFixed upto
  simp only
  rw [if_pos trivial]
  by_cases h1 : cur ≤ imsb
  · rw [if_pos h1, if_neg (by omega)]; omega
  · rw [if_neg h1, if_pos (by omega)]
    obtain ⟨b, hb⟩ : ∃ b : Nat, 3 * (cur - imsb) - 2 = b := ⟨_, (Int.toNat_of_nonneg (by omega)).symm⟩
    rw [hb, Int.natCast_zero, Int.add_zero, Int.emod_eq_of_lt (by omega) (by omega)]

theorem fixedN_next {prev cur imsb : Int} (h0 : prev ≤ cur) (h : cur - imsb ≤ 25) :
    fixedN (planesFixed (some prev) cur imsb) (upto prev imsb) = upto cur imsb := by
  unfold fixedN planesFixed upto
  simp only
  by_cases h1 : prev ≤ imsb
  · rw [if_pos h1, if_pos (by omega)]
    by_cases h2 : cur - prev - (imsb - prev) < 0
    · rw [if_pos h2, if_neg (by omega)]; omega
    · rw [if_neg h2]
      split <;> omega
  · rw [if_neg h1, if_neg (by omega)]
    obtain ⟨a, ha⟩ : ∃ a : Nat, 3 * (prev - imsb) - 2 = a := ⟨_, (Int.toNat_of_nonneg (by omega)).symm⟩
    obtain ⟨b, hb⟩ : ∃ b : Nat, 3 * (cur - imsb) - 2 = b := ⟨_, (Int.toNat_of_nonneg (by omega)).symm⟩
    have hab : 3 * (cur - prev) + (a : Int) = b := by omega
    rw [ha, hb, Int.toNat_natCast, Int.toNat_natCast, hab, Int.emod_eq_of_lt (by omega) (by omega), Int.toNat_natCast]

theorem upto_zero {cur imsb : Int} (h : cur ≤ imsb) : upto cur imsb = 0 := by unfold upto; omega

theorem upto_past {a b imsb : Int} (h0 : imsb < a) (h : a < b) (hb : b - imsb ≤ 2 ^ 28) : upto a imsb < upto b imsb ∧ upto b imsb < 2 ^ 32 := by
  unfold upto; omega

theorem upto_lt {cur imsb : Int} (h : cur - imsb ≤ 25) : upto cur imsb < 2 ^ 32 := by unfold upto; omega

theorem fixed_eq {prec numbps : Nat} {prev : Option Int} {cur : Int} {ps : List Pass} {inl N : Nat} (old : Layer)
    (hn : fixedN (planesFixed prev cur (imsbOf prec numbps)) inl = N) (h1 : inl ≤ N) (h2 : N ≤ ps.length) (h3 : N < 2 ^ 32) :
    makeFixed prec numbps prev cur ps inl old = makeLayer (fun _ p => decide (p < N)) false ps inl old := by
  rw [make_exact ps N inl h1 h2 old]
  unfold makeFixed
  simp only
  rw [hn, show (2 ^ 32 + N - inl) % 2 ^ 32 = N - inl by omega]
  by_cases h0 : N - inl = 0
  · rw [if_pos h0, if_pos h0]
  · rw [if_neg h0, if_neg h0, show (2 ^ 32 + N - 1) % 2 ^ 32 = N - 1 by omega]

theorem make_count {ps : List Pass} {N inl : Nat} (h1 : inl ≤ N) (h2 : N ≤ ps.length) (old : Layer) :
    ∃ ly, makeLayer (fun _ p => decide (p < N)) false ps inl old = some (ly, N) ∧ inl + ly.numpasses = N := by
  rw [make_exact ps N inl h1 h2 old]
  by_cases h0 : N - inl = 0
  · rw [if_pos h0]
    have : inl = N := by omega
    subst this
    exact ⟨_, rfl, rfl⟩
  · rw [if_neg h0, List.getElem?_eq_getElem (show N - 1 < ps.length by omega), Option.bind_some]
    by_cases hz : inl = 0
    · rw [if_pos hz]
      exact ⟨_, rfl, by show inl + (N - inl) = N; omega⟩
    · rw [if_neg hz, List.getElem?_eq_getElem (show inl - 1 < ps.length by omega), Option.map_some]
      exact ⟨_, rfl, by show inl + (N - inl) = N; omega⟩

/-- The choices that fixed layers amount to. -/
def choicesFrom (mat : List Nat) (numres res band prec numbps : Nat) : Nat → List Layer → List ((Nat → Nat → Bool) × Bool × Layer)
  | _, [] => []
  | i, old :: olds => ((fun _ p => decide (p < upto (scaled prec ((entry mat numres i res band).getD 0)) (imsbOf prec numbps))), false, old) ::
    choicesFrom mat numres res band prec numbps (i + 1) olds

theorem choicesFrom_length (mat : List Nat) (numres res band prec numbps : Nat) : ∀ (olds : List Layer) (i : Nat),
    (choicesFrom mat numres res band prec numbps i olds).length = olds.length := by
  intro olds
  induction olds with
  | nil => intro i; rfl
  | cons o l ih => intro i; unfold choicesFrom; rw [List.length_cons, ih, List.length_cons]

theorem scaled_mono (prec : Nat) {a b : Nat} (h : a ≤ b) : scaled prec a ≤ scaled prec b := by
  unfold scaled
  exact_mod_cast Nat.div_le_div_right (Nat.mul_le_mul_right _ h)

theorem scaled_le (prec : Nat) {a : Nat} (h : a ≤ 16) : scaled prec a ≤ prec := by
  unfold scaled
  have : a * prec ≤ 16 * prec := Nat.mul_le_mul_right _ h
  exact_mod_cast (by omega : a * prec / 16 ≤ prec)

theorem loop_ok {mat : List Nat} {numres res band prec numbps : Nat} {ps : List Pass} {L : Nat}
    (he : ∀ i < L, ∃ m, entry mat numres i res band = some m ∧ m ≤ 16)
    (hm : ∀ i, i + 1 < L → ∀ a b, entry mat numres i res band = some a → entry mat numres (i + 1) res band = some b → a ≤ b)
    (hl : ps.length = upto prec (imsbOf prec numbps)) (hb : (prec : Int) - imsbOf prec numbps ≤ 25) :
    ∀ (olds : List Layer) (i inl : Nat), i + olds.length = L →
      (i ≠ 0 → ∀ a, entry mat numres (i - 1) res band = some a → inl = upto (scaled prec a) (imsbOf prec numbps)) →
      ∃ ls, fixedLoop mat numres res band prec numbps ps i olds inl = some ls ∧
        makeLayers ps (choicesFrom mat numres res band prec numbps i olds) (if i = 0 then 0 else inl) = some ls ∧
        ∀ l < olds.length, ∀ m, entry mat numres (i + l) res band = some m →
          (if i = 0 then 0 else inl) + passesIn (ls.take (l + 1)) = upto (scaled prec m) (imsbOf prec numbps) := by
  intro olds
  induction olds with
  | nil => intro i inl _ _; exact ⟨[], rfl, rfl, fun l hl => absurd hl (Nat.not_lt_zero _)⟩
  | cons old olds ih =>
    intro i inl hi hinl
    rw [List.length_cons] at hi
    obtain ⟨m, e1, hm16⟩ := he i (by omega)
    have hle : scaled prec m ≤ prec := scaled_le prec hm16
    obtain ⟨N, hN⟩ : ∃ N, N = upto (scaled prec m) (imsbOf prec numbps) := ⟨_, rfl⟩
    have hNl : N ≤ ps.length := by rw [hN, hl]; exact upto_mono hle
    have hN32 : N < 2 ^ 32 := by rw [hN]; exact upto_lt (by omega)
    obtain ⟨inl', hinl'⟩ : ∃ x, x = if i = 0 then 0 else inl := ⟨_, rfl⟩
    have key : ∃ prev : Option Nat, (if i = 0 then some none else (entry mat numres (i - 1) res band).map some) = some prev ∧
        fixedN (planesFixed (prev.map (scaled prec)) (scaled prec m) (imsbOf prec numbps)) inl' = N ∧ inl' ≤ N := by
      by_cases h0 : i = 0
      · rw [if_pos h0] at hinl'
        rw [if_pos h0, hinl']
        exact ⟨none, rfl, by rw [hN]; exact fixedN_first (by omega), Nat.zero_le _⟩
      · rw [if_neg h0] at hinl'
        rw [if_neg h0, hinl']
        obtain ⟨a, ea, _⟩ := he (i - 1) (by omega)
        have hmono : a ≤ m := hm (i - 1) (by omega) a m ea (by rw [show i - 1 + 1 = i by omega]; exact e1)
        have hs := scaled_mono prec hmono
        rw [hinl h0 a ea, hN]
        exact ⟨some a, by rw [ea]; rfl, fixedN_next hs (by omega), upto_mono hs⟩
    obtain ⟨prev, k1, k2, k3⟩ := key
    have hfix := fixed_eq (prec := prec) (numbps := numbps) (ps := ps) old k2 k3 hNl hN32
    obtain ⟨ly, g1, g2⟩ := make_count k3 hNl old
    obtain ⟨ls, r1, r2, r3⟩ := ih (i + 1) N (by omega) (fun _ a ha => by
      rw [show i + 1 - 1 = i by omega, e1] at ha
      injection ha with ha
      rw [hN, ha])
    rw [if_neg (Nat.succ_ne_zero i)] at r2 r3
    refine ⟨ly :: ls, ?_, ?_, ?_⟩
    · unfold fixedLoop
      rw [e1, Option.bind_some, k1, Option.bind_some, ← hinl', hfix, g1, Option.bind_some]
      simp only
      rw [r1]; rfl
    · unfold choicesFrom makeLayers
      rw [e1, Option.getD_some, ← hN, ← hinl', g1, Option.bind_some]
      simp only
      rw [r2]; rfl
    · rw [← hinl']
      intro l hl m' hm'
      rw [List.take_succ_cons]
      have hp : ∀ x, passesIn (ly :: x) = ly.numpasses + passesIn x := fun x => by simp [passesIn]
      rw [hp, ← Nat.add_assoc, g2]
      cases l with
      | zero =>
        rw [Nat.add_zero, e1] at hm'
        injection hm' with hm'
        subst hm'
        rw [List.take_zero, show passesIn [] = 0 from rfl, Nat.add_zero, hN]
      | succ l =>
        rw [List.length_cons] at hl
        exact r3 l (by omega) m' (by rw [show i + 1 + l = i + (l + 1) by omega]; exact hm')

theorem numbps_wrapped {mx : Nat} (h : 2 ^ 31 ≤ T1.numbpsOf mx) (hb : mx < 2 ^ 31) : 2 ^ 32 - 5 ≤ T1.numbpsOf mx ∧ T1.numbpsOf mx < 2 ^ 32 := by
  unfold T1.numbpsOf at h ⊢
  by_cases h0 : mx = 0
  · rw [if_pos h0] at h; omega
  · rw [if_neg h0] at h ⊢
    have l1 : Nat.log2 mx < 31 := (Nat.log2_lt h0).mpr hb
    omega

theorem numbps_of {o w h : Nat} {st : T1.Style} {data : List Int} {mem : List UInt8} {start : Nat} {c : T1.Coded}
    (he : T1.encodeCblk o w h st data mem start = some c) (hr : ∀ x ∈ data, -2 ^ 31 ≤ x ∧ x < 2 ^ 31) (hb : 2 ^ 31 ≤ c.numbps) :
    2 ^ 32 - 5 ≤ c.numbps ∧ c.numbps < 2 ^ 32 := by
  have hbd : (data.map T1.magOf).foldl max 0 < 2 ^ 31 := by
    obtain ⟨_, _, h3⟩ := T1.foldl_max (l := data.map T1.magOf) (a := 0)
    rcases h3 with h3 | h3
    · rw [h3]; decide
    · obtain ⟨x, hx, h4⟩ := List.mem_map.mp h3
      have := hr x hx
      rw [← h4]
      unfold T1.magOf
      split <;> omega
  have hc : c.numbps = T1.numbpsOf ((data.map T1.magOf).foldl max 0) := by
    unfold T1.encodeCblk at he
    split at he
    · simp at he
    dsimp only at he
    generalize T1.numbpsOf ((data.map T1.magOf).foldl max 0) = n at he
    split at he
    · rename_i h0
      injection he with he
      rw [← he, h0]
    split at he
    · injection he with he
      rw [← he]
    · rw [Option.bind_eq_some_iff] at he
      obtain ⟨s0, hi, he⟩ := he
      rw [Option.bind_eq_some_iff] at he
      obtain ⟨e, hl, he⟩ := he
      rw [Option.map_eq_some_iff] at he
      obtain ⟨out, hfin, he⟩ := he
      rw [← he]
  rw [hc] at hb ⊢
  exact numbps_wrapped hb hbd

/-- What the block coder leaves fits fixed layers. -/
theorem block_fixed {o w h : Nat} {st : T1.Style} {data : List Int} {mem : List UInt8} {start : Nat} {c : T1.Coded} (hroom : mem.length + 4 ≤ 2 ^ 32)
    (hr : ∀ x ∈ data, -2 ^ 31 ≤ x ∧ x < 2 ^ 31) (he : T1.encodeCblk o w h st data mem start = some c) {prec : Nat} (hp : prec ≤ 38) :
    c.passes.length = upto prec (imsbOf prec c.numbps) ∧ (prec : Int) - imsbOf prec c.numbps ≤ 25 ∧
      (c.passes ≠ [] → 1 ≤ c.numbps ∧ imsbOf prec c.numbps = (prec : Int) - c.numbps) ∧ (c.passes = [] → (prec : Int) ≤ imsbOf prec c.numbps) := by
  obtain ⟨_, hlen, _⟩ := T1.block_facts hroom hr he
  rcases hlen with ⟨hnil, hn⟩ | ⟨hlen, hn1, hn25⟩
  · have hi : (prec : Int) ≤ imsbOf prec c.numbps := by
      rcases hn with hn | hn
      · rw [hn]
        unfold imsbOf asI32
        split <;> omega
      · have hw := numbps_of he hr (by omega)
        unfold imsbOf asI32
        split <;> omega
    refine ⟨?_, by omega, fun h => absurd hnil h, fun _ => hi⟩
    rw [hnil]
    unfold upto
    simp only [List.length_nil]
    omega
  · have himsb : imsbOf prec c.numbps = (prec : Int) - c.numbps := by
      unfold imsbOf asI32
      split <;> omega
    refine ⟨?_, by omega, fun _ => ⟨hn1, himsb⟩, fun h => by rw [h] at hlen; simp at hlen; omega⟩
    rw [himsb]
    unfold upto
    omega

theorem coded_size {o w h : Nat} {st : T1.Style} {data : List Int} {mem : List UInt8} {start : Nat} {c : T1.Coded} (hroom : mem.length + 4 ≤ 2 ^ 32)
    (hr : ∀ x ∈ data, -2 ^ 31 ≤ x ∧ x < 2 ^ 31) (he : T1.encodeCblk o w h st data mem start = some c) : size c.passes < 2 ^ 32 := by
  obtain ⟨sty, hb, ht⟩ : ∃ sty : Nat, decide (sty &&& 1 ≠ 0) = st.bypass ∧ decide (sty &&& 4 ≠ 0) = st.termall := by
    cases st.bypass <;> cases st.termall
    · exact ⟨0, rfl, rfl⟩
    · exact ⟨4, rfl, rfl⟩
    · exact ⟨1, rfl, rfl⟩
    · exact ⟨5, rfl, rfl⟩
  obtain ⟨k1, k2, k3, k4⟩ := coded_ok hr he hb ht
  obtain ⟨_, k6⟩ := coded_cum hroom hr he
  rw [List.length_drop] at k3
  omega

end Jp2.T2

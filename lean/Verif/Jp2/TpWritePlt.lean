import Verif.Jp2.TpWriteSpec
import Verif.Jp2.HdrMore
import Verif.Jp2.BoxOrder
/-!
# `PLT` segments the encoder writes
-/
namespace Jp2.Tp
open Jp2.Hdr (R be bind_ok be_len refuseIf)
open Jp2.Box (refuse_ok)

theorem lengths_cons (acc : Option Nat) (b : UInt8) (bs : List UInt8) : lengths acc (b :: bs) =
    if b < 128 then (lengths none bs).map fun l => (acc.getD 0 * 128 + b.toNat) :: l
    else lengths (some (acc.getD 0 * 128 + (b.toNat - 128))) bs := rfl

theorem lengths_append {acc : Option Nat} {a : List UInt8} {l : List Nat} (rest : List UInt8) (h : lengths acc a = some l) :
    lengths acc (a ++ rest) = (lengths none rest).map (l ++ ·) := by
  induction a generalizing acc l with
  | nil =>
    unfold lengths at h
    split at h
    · cases h
      subst_vars
      simp
    · cases h
  | cons b bs ih =>
    rw [lengths_cons] at h
    rw [List.cons_append, lengths_cons]
    split at h
    · rw [if_pos (by assumption)]
      cases h1 : lengths none bs with
      | none => rw [h1] at h; cases h
      | some x =>
        rw [h1] at h
        cases h
        rw [ih h1, Option.map_map]
        rfl
    · rw [if_neg (by assumption)]
      exact ih h

theorem u8_toNat {n : Nat} (h : n < 256) : (UInt8.ofNat n).toNat = n := by
  rw [UInt8.toNat_ofNat']; omega

theorem u8_lt {n m : Nat} (h : n < 256) (hm : m < 256) : UInt8.ofNat n < UInt8.ofNat m ↔ n < m := by
  rw [UInt8.lt_iff_toNat_lt, u8_toNat h, u8_toNat hm]

theorem moreGroups_is {k n : Nat} {l : List UInt8} (h : moreGroups k n = .ok l) (rest : List UInt8) :
    lengths none (l.reverse ++ rest) = lengths (if n = 0 then none else some n) rest := by
  induction k generalizing n l rest with
  | zero =>
    cases n with
    | zero => unfold moreGroups at h; cases h; rfl
    | succ n => unfold moreGroups at h; cases h
  | succ k ih =>
    cases n with
    | zero => unfold moreGroups at h; cases h; rfl
    | succ n =>
      unfold moreGroups at h
      obtain ⟨l', h1, h2⟩ := bind_ok h
      cases h2
      rw [List.reverse_cons, List.append_assoc, ih h1, List.singleton_append]
      rw [lengths_cons]
      have hm : (n + 1) % 128 < 128 := Nat.mod_lt _ (by omega)
      rw [if_neg (by rw [show (128 : UInt8) = UInt8.ofNat 128 from rfl, u8_lt (by omega) (by omega)]; omega),
        u8_toNat (by omega), if_neg (show n + 1 ≠ 0 by omega)]
      have he : (if (n + 1) / 128 = 0 then none else some ((n + 1) / 128)).getD 0 * 128 + ((n + 1) % 128 + 128 - 128) = n + 1 := by
        by_cases h0 : (n + 1) / 128 = 0
        · rw [if_pos h0, Option.getD_none]; omega
        · rw [if_neg h0, Option.getD_some]; omega
      rw [he]

theorem groups_is {n : Nat} {v : List UInt8} (h : groups n = .ok v) : lengths none v.reverse = some [n] := by
  unfold groups at h
  obtain ⟨l, h1, h2⟩ := bind_ok h
  cases h2
  rw [List.reverse_cons, moreGroups_is h1]
  unfold lengths
  have hm : n % 128 < 128 := Nat.mod_lt _ (by omega)
  rw [if_pos (by rw [show (128 : UInt8) = UInt8.ofNat 128 from rfl, u8_lt (by omega) (by omega)]; omega), u8_toNat (by omega)]
  unfold lengths
  rw [if_pos rfl, Option.map_some]
  congr 2
  by_cases h0 : n / 128 = 0
  · rw [if_pos h0, Option.getD_none]; omega
  · rw [if_neg h0, Option.getD_some]; omega

theorem moreGroups_len {k n : Nat} {l : List UInt8} (h : moreGroups k n = .ok l) : l.length ≤ k := by
  induction k generalizing n l with
  | zero =>
    cases n with
    | zero => unfold moreGroups at h; cases h; simp
    | succ n => unfold moreGroups at h; cases h
  | succ k ih =>
    cases n with
    | zero => unfold moreGroups at h; cases h; simp
    | succ n =>
      unfold moreGroups at h
      obtain ⟨l', h1, h2⟩ := bind_ok h
      cases h2
      have := ih h1
      simp only [List.length_cons]; omega

theorem groups_len {n : Nat} {v : List UInt8} (h : groups n = .ok v) : v.length ≤ 5 := by
  unfold groups at h
  obtain ⟨l, h1, h2⟩ := bind_ok h
  cases h2
  have := moreGroups_len h1
  simp only [List.length_cons]; omega

theorem pltSegment_is {z l : Nat} {body : List UInt8} (h : l = 3 + body.length) :
    pltSegment z l body = Hdr.segment 0xFF58 (be 1 z ++ body) := by
  unfold pltSegment Hdr.segment
  rw [h, List.length_append, be_len, show 1 + body.length + 2 = 3 + body.length by omega]
  simp only [List.append_assoc]

theorem packLoop_is {ss : List Nat} {z l : Nat} {done body m : List UInt8} {a : List Nat} (h : packLoop ss z l done body = .ok m)
    (hz : z ≤ 255) (hl : l = 3 + body.length) (hm : l ≤ 65535) (ha : lengths none body = some a) :
    ∃ segs, m = done ++ (segs.flatMap fun s => Hdr.segment s.1 s.2) ∧ segs ≠ [] ∧ PltSegs z segs (a ++ ss) := by
  induction ss generalizing z l done body a with
  | nil =>
    unfold packLoop at h
    cases h
    refine ⟨[(0xFF58, be 1 z ++ body)], ?_, by simp, ?_⟩
    · rw [pltSegment_is hl]; simp
    · exact PltSegs.cons hz (by omega) ha .nil
  | cons s ss ih =>
    unfold packLoop at h
    obtain ⟨v, hv, h⟩ := bind_ok h
    have hvl := groups_len hv
    have hd := groups_is hv
    split at h
    · obtain ⟨_, hr, h⟩ := bind_ok h
      have hz' := refuse_ok hr
      obtain ⟨segs, h1, h2, h3⟩ := ih h (by omega) (by rw [List.length_reverse]) (by omega) hd
      refine ⟨(0xFF58, be 1 z ++ body) :: segs, ?_, by simp, PltSegs.cons hz (by omega) ha (by simpa using h3)⟩
      rw [h1, pltSegment_is hl]
      simp
    · obtain ⟨segs, h1, h2, h3⟩ := ih (a := a ++ [s]) h hz (by rw [List.length_append, List.length_reverse]; omega) (by omega)
        (by rw [lengths_append _ ha, hd]; rfl)
      exact ⟨segs, h1, h2, by simpa using h3⟩

theorem writePlt_is {sizes : List Nat} {m : List UInt8} (h : writePlt sizes = .ok m) :
    ∃ segs, m = (segs.flatMap fun s => Hdr.segment s.1 s.2) ∧ segs ≠ [] ∧ PltSegs 0 segs sizes := by
  obtain ⟨segs, h1, h2, h3⟩ := packLoop_is h (a := []) (by omega) rfl (by omega) rfl
  exact ⟨segs, by simpa using h1, h2, by simpa using h3⟩

theorem lengths_last {acc : Option Nat} {b : List UInt8} {l : List Nat} (h : lengths acc b = some l) (x : UInt8)
    (hx : b.getLast? = some x) : x < 128 := by
  induction b generalizing acc l with
  | nil => cases hx
  | cons y b ih =>
    unfold lengths at h
    cases b with
    | nil =>
      cases hx
      split at h
      · assumption
      · unfold lengths at h; simp at h
    | cons z b =>
      rw [List.getLast?_cons_cons] at hx
      split at h
      · cases h1 : lengths none (z :: b) with
        | none => rw [h1] at h; cases h
        | some l' => exact ih h1 hx
      · exact ih h hx

theorem PltSegs.len {z : Nat} {ss : List (Nat × List UInt8)} {l : List Nat} (h : PltSegs z ss l) : ∀ s ∈ ss, s.2.length + 2 < 65536 := by
  induction h with
  | nil => simp
  | cons h1 h2 h3 _ ih =>
    intro s hs
    rcases List.mem_cons.1 hs with rfl | hs
    · simp only [List.length_append, be_len]; omega
    · exact ih s hs

/-- The decoder reads them. -/
theorem PltSegs.steps {u : Hdr.User} {h : Hdr.Dec} {a : Par} {z : Nat} {ss : List (Nat × List UInt8)} {l : List Nat}
    (hp : PltSegs z ss l) : SegsTo u h a ss a := by
  induction hp with
  | nil => exact .nil
  | @cons z body x ss b h1 h2 h3 _ ih =>
    refine SegsTo.cons (.plt (by simp [be, Cio.toBe]) ?_) (by simp only [List.length_append, be_len]; omega) ih
    intro y hy
    exact lengths_last h3 y (by simpa [be, Cio.toBe] using hy)

end Jp2.Tp

import Verif.Jp2.TpLoop
import Verif.Jp2.TpProps
/-!
# From the bytes of the file to the tiles
-/
namespace Jp2.Tp
open Jp2.Hdr (R User refuseIf be ok_bind refuse_bind be_len bind_ok)

/-! ## What is left behind the main header is the end of the file -/

theorem load_suffix {n : Nat} {buf s : List UInt8} {x : List UInt8 × List UInt8} (h : Hdr.load n buf s = .ok x) : x.2 <:+ s := by
  unfold Hdr.load at h
  split at h
  · cases h
  · injection h with h; subst h; exact List.drop_suffix _ _

theorem next_suffix {n : Nat} {s : List UInt8} {x : Nat × List UInt8} (h : Hdr.next n s = .ok x) : x.2 <:+ s := by
  unfold Hdr.next at h
  split at h
  · injection h with h; subst h; exact List.drop_suffix _ _
  · cases h

theorem readUnk_suffix : ∀ (k : Nat) (d : Hdr.Dec) (s : List UInt8) x, Hdr.readUnk k d s = .ok x → x.2.2 <:+ s := by
  intro k
  induction k with
  | zero => intro d s x h; cases h
  | succ k ih =>
    intro d s x h
    rw [Hdr.readUnk] at h
    obtain ⟨⟨b, s1⟩, h1, h⟩ := bind_ok h
    have hs1 := load_suffix h1
    dsimp only at h hs1
    obtain ⟨⟨m, _⟩, _, h⟩ := bind_ok h
    dsimp only at h
    split at h
    · exact (ih _ _ _ h).trans hs1
    · obtain ⟨_, _, h⟩ := bind_ok h
      split at h
      · injection h with h; subst h; exact hs1
      · exact (ih _ _ _ h).trans hs1

theorem readSegment_suffix {u : User} {m : Nat} {d : Hdr.Dec} {s : List UInt8} {x : Nat × Hdr.Dec × List UInt8}
    (h : Hdr.readSegment u m d s = .ok x) : x.2.2 <:+ s := by
  unfold Hdr.readSegment at h
  dsimp only at h
  obtain ⟨_, _, h⟩ := bind_ok h
  obtain ⟨⟨b, s1⟩, h1, h⟩ := bind_ok h
  have hs1 := load_suffix h1
  dsimp only at h hs1
  obtain ⟨⟨len, _⟩, _, h⟩ := bind_ok h
  dsimp only at h
  obtain ⟨_, _, h⟩ := bind_ok h
  obtain ⟨⟨b2, s2⟩, h2, h⟩ := bind_ok h
  have hs2 := load_suffix h2
  dsimp only at h hs2
  obtain ⟨d', _, h⟩ := bind_ok h
  obtain ⟨⟨b3, s3⟩, h3, h⟩ := bind_ok h
  have hs3 := load_suffix h3
  dsimp only at h hs3
  obtain ⟨⟨m', _⟩, _, h⟩ := bind_ok h
  injection h with h
  subst h
  exact hs3.trans (hs2.trans hs1)

theorem readMarkers_suffix {u : User} : ∀ (k m : Nat) (d : Hdr.Dec) (s : List UInt8) x, Hdr.readMarkers u k m d s = .ok x →
    x.2 <:+ s := by
  intro k
  induction k with
  | zero =>
    intro m d s x h
    rw [Hdr.readMarkers] at h
    split at h
    · injection h with h; subst h; exact List.suffix_rfl
    · cases h
  | succ k ih =>
    intro m d s x h
    rw [Hdr.readMarkers] at h
    split at h
    · injection h with h; subst h; exact List.suffix_rfl
    · obtain ⟨_, _, h⟩ := bind_ok h
      split at h
      · obtain ⟨⟨m1, d1, s1⟩, h1, h⟩ := bind_ok h
        exact (ih _ _ _ _ h).trans (readSegment_suffix h1)
      · obtain ⟨⟨m1, d1, s1⟩, h1, h⟩ := bind_ok h
        have hs1 := readUnk_suffix _ _ _ _ h1
        dsimp only at h hs1
        split at h
        · injection h with h; subst h; exact hs1
        · obtain ⟨⟨m2, d2, s2⟩, h2, h⟩ := bind_ok h
          exact (ih _ _ _ _ h).trans ((readSegment_suffix h2).trans hs1)

theorem readHeader_suffix {u : User} {file : List UInt8} {x : Hdr.Dec × List UInt8} (h : Hdr.readHeader u file = .ok x) :
    x.2 <:+ file := by
  unfold Hdr.readHeader at h
  dsimp only at h
  obtain ⟨_, _, h⟩ := bind_ok h
  obtain ⟨⟨soc, s1⟩, h1, h⟩ := bind_ok h
  have hs1 := next_suffix h1
  dsimp only at h hs1
  obtain ⟨_, _, h⟩ := bind_ok h
  obtain ⟨⟨b, s2⟩, h2, h⟩ := bind_ok h
  have hs2 := load_suffix h2
  dsimp only at h hs2
  obtain ⟨⟨m, _⟩, _, h⟩ := bind_ok h
  dsimp only at h
  obtain ⟨⟨d3, s3⟩, h3, h⟩ := bind_ok h
  have hs3 := readMarkers_suffix _ _ _ _ _ h3
  dsimp only at h hs3
  obtain ⟨_, _, h⟩ := bind_ok h
  obtain ⟨_, _, h⟩ := bind_ok h
  obtain ⟨_, _, h⟩ := bind_ok h
  obtain ⟨d4, _, h⟩ := bind_ok h
  injection h with h
  subst h
  exact hs3.trans (hs2.trans hs1)

/-! ## The decoder at the first tile-part -/

theorem skipped_start {h : Hdr.Dec} {strict : Bool} {w : Option Window} {i : Nat} (hi : i < h.tw * h.th) :
    skipped (withWindow (start h strict) w) i = !wanted h.tw w i := by
  cases w with
  | none =>
    have htw : 0 < h.tw := by
      rcases Nat.eq_zero_or_pos h.tw with h0 | h0
      · rw [h0] at hi; omega
      · exact h0
    have h1 := Nat.mod_lt i htw
    have h2 : i / h.tw < h.th := Nat.div_lt_of_lt_mul hi
    show (decide (i % h.tw < 0) || decide (h.tw ≤ i % h.tw) || decide (i / h.tw < 0) || decide (h.th ≤ i / h.tw)) = false
    simp only [Nat.not_lt_zero, decide_false, Bool.false_or, Bool.or_eq_false_iff, decide_eq_false_iff_not]
    exact ⟨⟨Nat.not_le.mpr h1, trivial⟩, Nat.not_le.mpr h2⟩
  | some w =>
    show (decide (i % h.tw < w.x0) || decide (w.x1 ≤ i % h.tw) || decide (i / h.tw < w.y0) || decide (w.y1 ≤ i / h.tw)) =
      !(decide (w.x0 ≤ i % h.tw) && decide (i % h.tw < w.x1) && decide (w.y0 ≤ i / h.tw) && decide (i / h.tw < w.y1))
    rw [Bool.eq_iff_iff]
    simp only [Bool.or_eq_true, decide_eq_true_eq, Bool.not_eq_true', Bool.and_eq_false_iff, decide_eq_false_iff_not]
    omega

theorem fresh_mode {u : User} {h : Hdr.Dec} {file rest junk : List UInt8} {strict zero : Bool} {w : Option Window}
    {p : Part} {ps : List Part} {g : Nat → Par} (hu : u.reduce < 64) (hr : Hdr.readHeader u file = .ok (h, rest))
    (hbytes : rest = ahead zero junk (p :: ps)) (V : Valid (h.tw * h.th) (wanted h.tw w) zero (p :: ps))
    (r : Runs u h (wanted h.tw w) (fun _ => { tcp := h.tcp }) (p :: ps) g) :
    Mode u h file junk zero (wanted h.tw w) (p :: ps) g [] (withWindow (start h strict) w)
      ⟨file, file.length - rest.length, file.length - rest.length⟩ := by
  have hp := Hdr.readHeader_strong hu file
  rw [hr] at hp
  obtain ⟨hb, hi, _⟩ := hp
  left
  obtain ⟨pre, hpre⟩ := readHeader_suffix hr
  dsimp only at hpre hb hi
  have hs : At file ⟨file, file.length - rest.length, file.length - rest.length⟩ rest := by
    refine ⟨rfl, rfl, Nat.sub_le _ _, ?_⟩
    show file.drop (file.length - rest.length) = rest
    rw [← hpre, List.length_append, Nat.add_sub_cancel]
    simp
  have hhd : (withWindow (start h strict) w).h = h := by cases w <;> rfl
  have htl : (withWindow (start h strict) w).tiles = List.replicate (h.tw * h.th) { tcp := h.tcp } := by cases w <;> rfl
  refine ⟨[], p, ps, _, rfl, ?_, by cases w <;> rfl, by rw [← hbytes]; exact hs, r⟩
  refine ⟨by rw [hhd], by rw [hhd]; exact hb, by rw [htl, List.length_replicate], ?_, by cases w <;> rfl,
    fun i hi => skipped_start hi, by cases w <;> rfl, by cases w <;> rfl, by cases w <;> rfl, by cases w <;> rfl,
    fun _ => by cases w <;> rfl, by simp⟩
  intro i t ht
  rw [htl, List.getElem?_replicate] at ht
  split at ht
  · injection ht with ht
    subst ht
    exact ⟨fun h => absurd h (by simp), fun _ => rfl, fun _ => ⟨rfl, fun z => by simp, by simp, by simp, rfl⟩, fun _ => rfl, fun _ => Or.inl rfl,
      fun _ => by simp [dataOf]⟩
  · cases ht

/-- Everything from the first tile-part to the last tile. -/
theorem decode_full {u : User} {h : Hdr.Dec} {file rest junk : List UInt8} {strict whole zero : Bool} {w : Option Window}
    {ps : List Part} {g : Nat → Par} (hu : u.reduce < 64) (hr : Hdr.readHeader u file = .ok (h, rest))
    (hbytes : be 2 0xFF90 ++ rest = partsBytes zero ps ++ (be 2 0xFFD9 ++ junk)) (hj : zero = true → junk = [])
    (hwhole : whole = true → w = none ∧ h.tw * h.th = 1) (V : Valid (h.tw * h.th) (wanted h.tw w) zero ps)
    (r : Runs u h (wanted h.tw w) (fun _ => { tcp := h.tcp }) ps g) :
    ∃ js, decodeFile u strict whole w file = .ok js ∧ Out (wanted h.tw w) ps g [] js := by
  have hp := Hdr.readHeader_strong hu file
  rw [hr] at hp
  obtain ⟨hb, hi, _⟩ := hp
  dsimp only at hb hi
  have hn : h.tw * h.th ≤ 65536 := by have := hi.geom.count.2.2; omega
  rw [front_ahead] at hbytes
  cases ps with
  | nil =>
    have := List.append_inj_left hbytes (by simp [be_len])
    exact absurd this (by decide)
  | cons p ps =>
    have hrest : rest = ahead zero junk (p :: ps) := List.append_inj_right hbytes (by simp [be_len])
    have M := fresh_mode (strict := strict) hu hr hrest V r
    have hdims : (withWindow (start h strict) w).h = h := by cases w <;> rfl
    unfold decodeFile
    rw [hr, ok_bind]
    unfold decodeTiles
    dsimp only
    cases hwh : whole with
    | false =>
      rw [if_neg (by decide), hdims]
      exact loop hn hj V _ [] _ _ (by simp) (by simp) M
    | true =>
      obtain ⟨rfl, h1⟩ := hwhole hwh
      rw [if_pos rfl]
      rcases round hn hj V M with ⟨d', s', c1, c2, c3⟩ | ⟨d', s1, job, d2, s2, d3, c1, c2, c3, c4, c5, c6, c7⟩
      · have := c3 p.tile rfl (by rw [show p :: ps = [p] ++ ps from rfl, cnt_append, cnt_single, if_pos rfl]; omega)
        exact nomatch this
      · refine ⟨[job], ?_, by simp, by simp, by simpa using c5, ?_⟩
        · rw [c1, ok_bind]
          dsimp only
          rw [if_pos rfl, c2]
          rfl
        · intro i _ hc
          right
          obtain ⟨q, hq, hqt⟩ := cnt_mem hc
          obtain ⟨q2, hq2, hqt2⟩ := cnt_mem c5.some
          have a1 := V.tile q hq
          have a2 := V.tile q2 hq2
          have : i = job.tile := by omega
          rw [this]; simp

end Jp2.Tp

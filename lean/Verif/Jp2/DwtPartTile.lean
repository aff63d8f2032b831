import Verif.Jp2.DwtPartLevel
/-! # Helper lemmas: all levels of the inverse transform of a part of a tile -/
namespace Jp2.Dwt

theorem cdp_eq (v d : Nat) : cdp v d = ceilDiv2 v d := by
  unfold cdp ceilDiv2
  have := Nat.two_pow_pos d
  rw [show v + (2 ^ d - 1) = v + 2 ^ d - 1 by omega]

theorem cdp_succ (v d : Nat) : cdp v (d + 1) = (cdp v d + 1) / 2 := by rw [cdp_eq, cdp_eq, ceilDiv2_succ]

theorem cdp_mono {v w : Nat} (h : v ≤ w) (d : Nat) : cdp v d ≤ cdp w d := by rw [cdp_eq, cdp_eq]; exact ceilDiv2_mono h d

theorem resOf_eq (c : Res) (d : Nat) : resOf c d = resAt c d := by
  unfold resOf resAt; simp only [cdp_eq]

theorem band0 (nb v : Nat) : bandCoord nb 0 v = cdp v nb := by
  unfold bandCoord
  by_cases h : nb = 0
  · subst h; simp [cdp]
  · rw [if_neg h, Nat.mul_zero]
    by_cases h2 : v ≤ 0
    · rw [if_pos h2]
      obtain rfl : v = 0 := by omega
      unfold cdp
      have := Nat.two_pow_pos nb
      rw [Nat.div_eq_of_lt (by omega)]
    · rw [if_neg h2]; rfl

theorem band1 (d v : Nat) : bandCoord (d + 1) 1 v = cdp v d / 2 := by
  unfold bandCoord cdp
  have hp := Nat.two_pow_pos d
  rw [if_neg (by omega), Nat.mul_one, Nat.add_sub_cancel, Nat.div_div_eq_div_mul, ← Nat.pow_succ]
  have e : 2 ^ (d + 1) = 2 * 2 ^ d := by rw [Nat.pow_succ]; omega
  by_cases h : v ≤ 2 ^ d
  · rw [if_pos h, Nat.div_eq_of_lt (by omega)]
  · rw [if_neg h]
    congr 1
    omega

/-- The windows of an axis on the way from `d + 1` decompositions to `d`. -/
def axWin (c0 c1 w0 w1 d : Nat) : Win :=
  winOf (d + 1) w0 w1 (bandCoord (d + 1) 0 c0) (bandCoord (d + 1) 1 c0) (cdp c1 (d + 1) - cdp c0 (d + 1))
    (cdp c1 d - cdp c0 d - (cdp c1 (d + 1) - cdp c0 (d + 1))) (cdp c0 d % 2) (cdp c1 d - cdp c0 d)

theorem axis_of {c0 c1 w0 w1 : Nat} (h0 : c0 ≤ w0) (h1 : w0 ≤ w1) (h2 : w1 ≤ c1) (d : Nat) :
    Axis (cdp c0 d) (cdp c1 d) (cdp w0 d) (cdp w1 d) (cdp c1 d - cdp c0 d) (cdp c1 (d + 1) - cdp c0 (d + 1)) (cdp c0 d % 2)
      (axWin c0 c1 w0 w1 d) := by
  have m0 := cdp_mono h0 d
  have m1 := cdp_mono h1 d
  have m2 := cdp_mono h2 d
  unfold axWin winOf growLo growHi
  rw [band0, band0, band0, band1, band1, band1]
  simp only [cdp_succ]
  constructor
  · exact m0
  · exact m1
  · exact m2
  · rfl
  · rfl
  · unfold lowCount; omega
  · split <;> rfl
  · split <;> rfl
  · split <;> rfl
  · split <;> rfl
  · split <;> rfl
  · split <;> rfl

/-- A cell that a level reads lies within two of the window, in its band. -/
theorem want_cell {c0 c1 w0 w1 : Nat} (h0 : c0 ≤ w0) (h1 : w0 ≤ w1) (h2 : w1 ≤ c1) (d i : Nat)
    (h : Want (cdp c1 (d + 1) - cdp c0 (d + 1)) (axWin c0 c1 w0 w1 d) i) :
    ∃ e u, e ≤ 1 ∧ i = u + (if e = 1 then cdp c1 (d + 1) - cdp c0 (d + 1) else 0) ∧ (e = 0 ↔ i < cdp c1 (d + 1) - cdp c0 (d + 1)) ∧
      bandCoord (d + 1) e c0 + u < bandCoord (d + 1) e c1 ∧
      bandCoord (d + 1) e w0 ≤ bandCoord (d + 1) e c0 + u + 2 ∧ bandCoord (d + 1) e c0 + u < bandCoord (d + 1) e w1 + 2 := by
  have g := axis_of h0 h1 h2 d
  have m0 := cdp_mono h0 d
  have m1 := cdp_mono h1 d
  have m2 := cdp_mono h2 d
  have l1 := g.l1_le
  have l2 := g.h1_le
  have q1 := g.hl0
  have q2 := g.hl1
  have q3 := g.hh0
  have q4 := g.hh1
  have q5 := g.hsn
  clear g
  unfold lowCount at q5
  generalize axWin c0 c1 w0 w1 d = x at *
  rcases h with h | h
  · refine ⟨0, i, by omega, by simp, by omega, ?_⟩
    simp only [band0]
    simp only [cdp_succ] at *
    have q2' : x.l1 ≤ (cdp w1 d + 1) / 2 - (cdp c0 d + 1) / 2 + 2 := by rw [q2]; exact Nat.min_le_left _ _
    clear q2 q4 q3 l2 q5
    refine ⟨?_, ?_, ?_⟩ <;> omega
  · refine ⟨1, i - (cdp c1 (d + 1) - cdp c0 (d + 1)), by omega, by rw [if_pos rfl]; omega, by omega, ?_⟩
    simp only [band1]
    simp only [cdp_succ] at *
    have q4' : x.h1 ≤ cdp w1 d / 2 - cdp c0 d / 2 + 2 := by rw [q4]; exact Nat.min_le_left _ _
    clear q2 q4 q1 l1
    refine ⟨?_, ?_, ?_⟩
    · clear q3 q4' m0 m1 m2; omega
    · clear q5 l2; omega
    · clear q5 l2; omega

/-- One level on the whole array, and the levels in order. -/
def fullLevel (W : Int → Int) (r : Res) (q : Plane) : Plane :=
  fun j i => if j < r.h ∧ i < r.w then invLevel W r q j i else q j i

def fullLevels (W : Int → Int) (c : Res) (s : Nat) : Nat → Plane → Plane
  | 0, q => q
  | n + 1, q => fullLevels W c s n (fullLevel W (resOf c (s + n)) q)

theorem resOf_anti (c : Res) (hx : c.x0 ≤ c.x1) (hy : c.y0 ≤ c.y1) {k l : Nat} (h : k ≤ l) :
    (resOf c l).w ≤ (resOf c k).w ∧ (resOf c l).h ≤ (resOf c k).h := by
  rw [resOf_eq, resOf_eq]; exact resAt_anti c hx hy h

theorem full_levels (W : Int → Int) (c : Res) (hx : c.x0 ≤ c.x1) (hy : c.y0 ≤ c.y1) (s : Nat) (hw0 : 0 < (resOf c s).w) (M n : Nat)
    (hM : ∀ n' < n, max (resOf c (s + n')).w (resOf c (s + n')).h ≤ M)
    {q : Plane} {m0 m t : Mem Int} (h : Holds (resOf c s).w (resOf c s).w (resOf c s).h m0 q m) (ht : ∀ k < M, (t k).isSome) :
    ∃ m' t', decodeLevels (fun x => some (W x)) (resOf c s).w (resOf c (s + n)) (resDown c s n) (m, t) = some (m', t') ∧
      Holds (resOf c s).w (resOf c s).w (resOf c s).h m0 (fullLevels W c s n q) m' := by
  induction n generalizing q m t with
  | zero => exact ⟨m, t, rfl, h⟩
  | succ n ih =>
    have hr := resOf_anti c hx hy (Nat.le_add_right s n)
    have hl : Holds (resOf c s).w (resOf c (s + n)).w (resOf c (s + n)).h m q m := by
      intro k
      split
      · rename_i hk
        rw [h k, if_pos ⟨by omega, by omega⟩]
      · rfl
    have hMn := hM n (by omega)
    obtain ⟨m1, t1, e1, p1, d1⟩ := decodeLevel_inv W (resOf c s).w hw0 (resOf c (s + n + 1)) (resOf c (s + n)) hr.1
      (by rw [resOf_eq, resOf_eq]; exact half_w c hx (s + n)) (by rw [resOf_eq, resOf_eq]; exact half_h c hy (s + n)) hl
      (fun k hk => ht k (by omega))
    have p1' : Holds (resOf c s).w (resOf c s).w (resOf c s).h m0 (fullLevel W (resOf c (s + n)) q) m1 := by
      intro k
      rw [p1 k, h k]
      unfold fullLevel
      by_cases a : k % (resOf c s).w < (resOf c (s + n)).w ∧ k / (resOf c s).w < (resOf c (s + n)).h
      · rw [if_pos a, if_pos ⟨by omega, by omega⟩, if_pos ⟨a.2, a.1⟩]
      · rw [if_neg a]
        split
        · rw [if_neg (fun h => a ⟨h.2, h.1⟩)]
        · rfl
    obtain ⟨m2, t2, e2, p2⟩ := ih (fun n' hn' => hM n' (by omega)) p1' (t := t1) (fun k hk => by rw [d1]; exact ht k hk)
    refine ⟨m2, t2, ?_, p2⟩
    unfold resDown decodeLevels
    rw [show s + (n + 1) = s + n + 1 by omega, e1]
    exact e2

/-- The positions of an axis, at `d` decompositions, that come out right. -/
def Ok1 (c0 w0 w1 d k : Nat) : Prop := Gd (cdp c0 d) (cdp w0 d) (cdp w1 d) k

theorem ok_of_want {c0 c1 w0 w1 : Nat} (h0 : c0 ≤ w0) (h1 : w0 ≤ w1) (h2 : w1 ≤ c1) (d i : Nat)
    (h : Want (cdp c1 (d + 1) - cdp c0 (d + 1)) (axWin c0 c1 w0 w1 d) i) (hi : i < cdp c1 (d + 1) - cdp c0 (d + 1)) :
    Ok1 c0 w0 w1 (d + 1) i := by
  obtain ⟨e, u, he, hu, hlow, -, b1, b2⟩ := want_cell h0 h1 h2 d i h
  obtain rfl := hlow.mpr hi
  simp only [band0] at b1 b2
  rw [if_neg (by omega)] at hu
  unfold Ok1 Gd
  omega

theorem part_levels (W : Int → Int) (junk : Nat → Nat → Nat → Nat → Int) (c win : Res)
    (x0 : c.x0 ≤ win.x0) (x1 : win.x0 ≤ win.x1) (x2 : win.x1 ≤ c.x1)
    (y0 : c.y0 ≤ win.y0) (y1 : win.y0 ≤ win.y1) (y2 : win.y1 ≤ c.y1) (s M n : Nat)
    (hM : ∀ n' < n, max (resOf c (s + n')).w (resOf c (s + n')).h ≤ M) (p q : Plane)
    (H1 : ∀ j < (resOf c (s + n)).h, ∀ i < (resOf c (s + n)).w, Ok1 c.y0 win.y0 win.y1 (s + n) j → Ok1 c.x0 win.x0 win.x1 (s + n) i →
      p j i = q j i)
    (H2 : ∀ n' < n, ∀ j i, Want (resOf c (s + n' + 1)).h (axWin c.y0 c.y1 win.y0 win.y1 (s + n')) j →
      Want (resOf c (s + n' + 1)).w (axWin c.x0 c.x1 win.x0 win.x1 (s + n')) i →
      ¬(j < (resOf c (s + n' + 1)).h ∧ i < (resOf c (s + n' + 1)).w) → p j i = q j i) :
    ∃ p', partLevels (fun x => some (W x)) (fun x => some (W x)) junk M (resOf c s).w (resOf c s).h s c win n p = some p' ∧
      ∀ j < (resOf c s).h, ∀ i < (resOf c s).w, Ok1 c.y0 win.y0 win.y1 s j → Ok1 c.x0 win.x0 win.x1 s i →
        p' j i = fullLevels W c s n q j i := by
  have hx : c.x0 ≤ c.x1 := by omega
  have hy : c.y0 ≤ c.y1 := by omega
  induction n generalizing p q with
  | zero => exact ⟨p, rfl, H1⟩
  | succ n ih =>
    have hr := resOf_anti c hx hy (Nat.le_add_right s n)
    obtain ⟨p1, e1, a1, a2⟩ := partLevel_ok W (junk n) M (resOf c s).w (resOf c s).h
      (axWin c.x0 c.x1 win.x0 win.x1 (s + n)) (axWin c.y0 c.y1 win.y0 win.y1 (s + n)) (resOf c (s + n + 1)) (resOf c (s + n))
      (axis_of x0 x1 x2 (s + n)) (axis_of y0 y1 y2 (s + n)) hr.1 hr.2 (hM n (by omega)) p q (by
        intro j i wj wi
        by_cases hin : j < (resOf c (s + n + 1)).h ∧ i < (resOf c (s + n + 1)).w
        · exact H1 j hin.1 i hin.2 (ok_of_want y0 y1 y2 _ _ wj hin.1) (ok_of_want x0 x1 x2 _ _ wi hin.2)
        · exact H2 n (by omega) j i wj wi hin)
    obtain ⟨p2, e2, b⟩ := ih (fun n' hn' => hM n' (by omega)) p1 (fullLevel W (resOf c (s + n)) q) (by
        intro j hj i hi oj oi
        rw [a1 j hj i hi oi oj]
        unfold fullLevel
        rw [if_pos ⟨hj, hi⟩]) (by
        intro n' hn' j i wj wi hout
        have hr' := resOf_anti c hx hy (show s + n' + 1 ≤ s + n by omega)
        have hout' : ¬(j < (resOf c (s + n)).h ∧ i < (resOf c (s + n)).w) := fun h => hout ⟨by omega, by omega⟩
        rw [a2 j i hout']
        unfold fullLevel
        rw [if_neg hout']
        exact H2 n' (by omega) j i wj wi hout)
    refine ⟨p2, ?_, b⟩
    unfold partLevels
    exact (congrArg (fun o => Option.bind o _) e1).trans e2

theorem resDown_mem (c : Res) (s n k : Nat) (h : k < n) : resOf c (s + k) ∈ resDown c s n := by
  induction n with
  | zero => omega
  | succ n ih =>
    unfold resDown
    by_cases hk : k = n
    · subst hk; exact List.mem_cons_self ..
    · exact List.mem_cons_of_mem _ (ih (by omega))

end Jp2.Dwt

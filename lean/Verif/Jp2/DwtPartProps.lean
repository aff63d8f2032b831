import Verif.Jp2.DwtPartTile
import Verif.Jp2.DwtMono
/-!
# C78: decoding a part of a tile gives the samples that decoding the whole tile would give

`resOf` and `bandCoord` are the coordinates of resolutions and bands of ITU-T T.800 Annex B; `partTile` is the decoding of a
window, `decodeTile` (`Dwt.lean`) that of the whole tile component.
-/
namespace Jp2.Dwt

/-! ### Helpers -/

section
variable {A A' : Arith} (hA : ∀ x, Ref (A x) (A' x))
include hA

theorem subUpd_mono (p q r : Nat) (t : Mem Int) : Ref (subUpd A p q r t) (subUpd A' p q r t) :=
  Ref.bind (Ref.refl _) fun _ => Ref.bind (Ref.refl _) fun _ => Ref.bind (upd_mono hA _ _) fun _ =>
    Ref.bind (Ref.refl _) fun _ => Ref.bind (hA _) fun _ => Ref.refl _

theorem addAvg_mono (p q r : Nat) (t : Mem Int) : Ref (addAvg A p q r t) (addAvg A' p q r t) :=
  Ref.bind (Ref.refl _) fun _ => Ref.bind (Ref.refl _) fun _ => Ref.bind (avg_mono hA _ _) fun _ =>
    Ref.bind (Ref.refl _) fun _ => Ref.bind (hA _) fun _ => Ref.refl _

theorem decodePart1_mono (B : Arith) (sn dn cas l0 l1 h0 h1 : Nat) (t : Mem Int) :
    Ref (decodePart1 A B sn dn cas l0 l1 h0 h1 t) (decodePart1 A' B sn dn cas l0 l1 h0 h1 t) := by
  unfold decodePart1
  refine Ref.ite (Ref.ite (Ref.bind (Ref.loop (fun _ _ => Ref.bind (Ref.refl _) fun _ => Ref.bind (Ref.refl _) fun _ => subUpd_mono hA _ _ _ _) _ _ _)
    fun _ => Ref.loop (fun _ _ => Ref.bind (Ref.refl _) fun _ => Ref.bind (Ref.refl _) fun _ => addAvg_mono hA _ _ _ _) _ _ _) (Ref.refl _)) (Ref.refl _)

theorem partLevel_mono (B : Arith) (junk : Nat → Nat → Nat → Int) (mx W H : Nat) (x y : Win) (lo r : Res) (p : Plane) :
    Ref (partLevel A B junk mx W H x y lo r p) (partLevel A' B junk mx W H x y lo r p) := by
  unfold partLevel partRow
  exact Ref.bind (Ref.loop (fun _ _ => Ref.ite (Ref.bind (Ref.bind (Ref.refl _) fun _ => Ref.bind (Ref.refl _) fun _ => Ref.bind (Ref.refl _) fun _ =>
    decodePart1_mono hA B _ _ _ _ _ _ _ _) fun _ => Ref.refl _) (Ref.refl _)) _ _ _) fun _ => Ref.refl _

theorem partTile_mono (B : Arith) (junk : Nat → Nat → Nat → Nat → Int) (N m : Nat) (c win : Res) (p old : Plane) :
    Ref (partTile A B junk N m c win p old) (partTile A' B junk N m c win p old) := by
  have hl : ∀ mx W H s n p, Ref (partLevels A B junk mx W H s c win n p) (partLevels A' B junk mx W H s c win n p) := by
    intro mx W H s n
    induction n with
    | zero => exact fun p => Ref.refl _
    | succ n ih => exact fun p => Ref.bind (partLevel_mono hA B _ _ _ _ _ _ _ _ _) fun p => ih p
  unfold partTile
  exact Ref.ite (Ref.refl _) (Ref.map (hl _ _ _ _ _ _))
end

theorem part_as_whole (W : Int → Int) (c win : Res) (x0 : c.x0 ≤ win.x0) (x1 : win.x0 ≤ win.x1) (x2 : win.x1 ≤ c.x1)
    (y0 : c.y0 ≤ win.y0) (y1 : win.y0 ≤ win.y1) (y2 : win.y1 ≤ c.y1) (s n : Nat)
    (junk : Nat → Nat → Nat → Nat → Int) (junk' : Nat → Int) (coef p old : Plane) (data : Mem Int)
    (hdata : ∀ j < (resOf c s).h, ∀ i < (resOf c s).w, data (j * (resOf c s).w + i) = some (coef j i))
    (H1 : ∀ j < (resOf c (s + n)).h, ∀ i < (resOf c (s + n)).w, Ok1 c.y0 win.y0 win.y1 (s + n) j → Ok1 c.x0 win.x0 win.x1 (s + n) i →
      p j i = coef j i)
    (H2 : ∀ n' < n, ∀ j i, Want (resOf c (s + n' + 1)).h (axWin c.y0 c.y1 win.y0 win.y1 (s + n')) j →
      Want (resOf c (s + n' + 1)).w (axWin c.x0 c.x1 win.x0 win.x1 (s + n')) i →
      ¬(j < (resOf c (s + n' + 1)).h ∧ i < (resOf c (s + n' + 1)).w) → p j i = coef j i) :
    ∃ out whole, partTile (fun x => some (W x)) (fun x => some (W x)) junk (s + n + 1) (n + 1) c win p old = some out ∧
      decodeTile (fun x => some (W x)) junk' (resOf c s) (resOf c (s + n)) (resDown c s n) data = some whole ∧
      ∀ x y, (resOf win s).x0 ≤ x → x < (resOf win s).x1 → (resOf win s).y0 ≤ y → y < (resOf win s).y1 →
        whole ((y - (resOf c s).y0) * (resOf c s).w + (x - (resOf c s).x0)) =
          some (out (y - (resOf win s).y0) (x - (resOf win s).x0)) := by
  have m1 : (resOf c s).x0 ≤ (resOf win s).x0 := cdp_mono x0 s
  have m2 : (resOf win s).x1 ≤ (resOf c s).x1 := cdp_mono x2 s
  have m3 : (resOf c s).y0 ≤ (resOf win s).y0 := cdp_mono y0 s
  have m4 : (resOf win s).y1 ≤ (resOf c s).y1 := cdp_mono y2 s
  have hM : ∀ n' < n, max (resOf c (s + n')).w (resOf c (s + n')).h ≤ maxRes (resDown c s n) :=
    fun n' hn' => maxRes_le _ _ (resDown_mem c s n n' hn')
  -- the whole tile
  have hwhole : ∃ whole, decodeTile (fun x => some (W x)) junk' (resOf c s) (resOf c (s + n)) (resDown c s n) data = some whole ∧
      (0 < (resOf c s).w → ∀ j < (resOf c s).h, ∀ i < (resOf c s).w,
        whole (j * (resOf c s).w + i) = some (fullLevels W c s n coef j i)) := by
    unfold decodeTile
    by_cases hw : (resOf c s).w = 0
    · rw [if_pos (Or.inr hw)]
      exact ⟨data, rfl, fun h => by omega⟩
    · cases n with
      | zero =>
        rw [if_pos (show resDown c s 0 = [] ∨ _ from Or.inl rfl)]
        exact ⟨data, rfl, fun _ => hdata⟩
      | succ n =>
        rw [if_neg (by unfold resDown; simp [hw])]
        have hH : Holds (resOf c s).w (resOf c s).w (resOf c s).h data coef data := by
          intro k
          split
          · rename_i hk
            have := hdata _ hk.2 _ hk.1
            rwa [div_mod_eq] at this
          · rfl
        obtain ⟨m', t', e, hm⟩ := full_levels W c (by omega) (by omega) s (by omega) (maxRes (resDown c s (n + 1))) (n + 1) hM hH
          (t := fresh junk' (8 * maxRes (resDown c s (n + 1)))) (fun k hk => by unfold fresh; rw [if_pos (by omega)]; rfl)
        refine ⟨m', by rw [e]; rfl, fun _ j hj i hi => hm.get (Nat.le_refl _) hj hi⟩
  obtain ⟨whole, ew, hwv⟩ := hwhole
  -- the window
  have hs : s + n + 1 - (n + 1) = s := by omega
  unfold partTile
  rw [hs, Nat.add_sub_cancel]
  simp only
  by_cases he : (resOf c s).x0 = (resOf c s).x1 ∨ (resOf c s).y0 = (resOf c s).y1
  · rw [if_pos he]
    exact ⟨old, whole, rfl, ew, fun x y => by omega⟩
  · rw [if_neg he]
    obtain ⟨p', e, hp⟩ := part_levels W junk c win x0 x1 x2 y0 y1 y2 s (maxRes (resDown c s n)) n hM p coef H1 H2
    rw [e]
    refine ⟨_, whole, rfl, ew, fun x y hx hx' hy hy' => ?_⟩
    have hw : (resOf c s).w = (resOf c s).x1 - (resOf c s).x0 := rfl
    have hh : (resOf c s).h = (resOf c s).y1 - (resOf c s).y0 := rfl
    have hw' : (resOf win s).w = (resOf win s).x1 - (resOf win s).x0 := rfl
    have hh' : (resOf win s).h = (resOf win s).y1 - (resOf win s).y0 := rfl
    simp only
    rw [if_pos ⟨by omega, by omega, by omega, by omega, by omega, by omega⟩,
      hwv (by omega) _ (by omega) _ (by omega),
      show (resOf win s).y0 - (resOf c s).y0 + (y - (resOf win s).y0) = y - (resOf c s).y0 by omega,
      show (resOf win s).x0 - (resOf c s).x0 + (x - (resOf win s).x0) = x - (resOf c s).x0 by omega]
    congr 1
    refine (hp _ (by omega) _ (by omega) ?_ ?_).symm
    · unfold Ok1 Gd
      have a1 : (resOf c s).y0 = cdp c.y0 s := rfl
      have a2 : (resOf win s).y0 = cdp win.y0 s := rfl
      have a3 : (resOf win s).y1 = cdp win.y1 s := rfl
      omega
    · unfold Ok1 Gd
      have a1 : (resOf c s).x0 = cdp c.x0 s := rfl
      have a2 : (resOf win s).x0 = cdp win.x0 s := rfl
      have a3 : (resOf win s).x1 = cdp win.x1 s := rfl
      omega

/-! ### The property -/

/-- The coefficient planes `p` and `coef` agree on every code-block that is decoded for the window: whenever the coefficient at
`(X, Y)` of band `b` (0 LL, 1 HL, 2 LH, 3 HH) of resolution `k` lies in a block that passes the test for the area of interest, its
cell in the array holds the same value in both. `blk` says which block a coefficient belongs to. Nothing is said of the
other blocks: the decoder skips them. -/
def KeptBlocks (N m : Nat) (c win : Res) (blk : Nat → Nat → Nat → Nat → Res) (p coef : Plane) : Prop :=
  ∀ k < m, ∀ b, (k = 0 ∧ b = 0 ∨ 0 < k ∧ 1 ≤ b ∧ b ≤ 3) → ∀ u v nb X Y, nb = (if k = 0 then N - 1 else N - k) →
    X = bandCoord nb (b % 2) c.x0 + u → Y = bandCoord nb (b / 2) c.y0 + v →
    X < bandCoord nb (b % 2) c.x1 → Y < bandCoord nb (b / 2) c.y1 →
    areaOfInterest N k b win (blk k b X Y) = true →
    p (v + if b / 2 = 1 then (resOf c (N - k)).h else 0) (u + if b % 2 = 1 then (resOf c (N - k)).w else 0) =
      coef (v + if b / 2 = 1 then (resOf c (N - k)).h else 0) (u + if b % 2 = 1 then (resOf c (N - k)).w else 0)

theorem aoi_of {N k b : Nat} {win blk : Res} {X Y nb : Nat} (hnb : nb = (if k = 0 then N - 1 else N - k))
    (h1 : blk.x0 ≤ X) (h2 : X < blk.x1) (h3 : blk.y0 ≤ Y) (h4 : Y < blk.y1)
    (a1 : bandCoord nb (b % 2) win.x0 ≤ X + 2) (a2 : X < bandCoord nb (b % 2) win.x1 + 2)
    (a3 : bandCoord nb (b / 2) win.y0 ≤ Y + 2) (a4 : Y < bandCoord nb (b / 2) win.y1 + 2) : areaOfInterest N k b win blk = true := by
  unfold areaOfInterest
  simp only [decide_eq_true_eq, ← hnb]
  omega

/-- C78: take a tile component `c` with `N` resolutions of which `m` are decoded, a window inside it, and an array that has the right
coefficients wherever a block passes the test for the area of interest. Then decoding the window succeeds (in a build without
overflow checks), decoding the whole tile component succeeds, and every sample of the window is the same in both. This holds
whatever the line buffers contain before they are used and whatever the skipped blocks would have held. -/
theorem C78_window_as_whole (c win : Res) (x0 : c.x0 ≤ win.x0) (x1 : win.x0 ≤ win.x1) (x2 : win.x1 ≤ c.x1)
    (y0 : c.y0 ≤ win.y0) (y1 : win.y0 ≤ win.y1) (y2 : win.y1 ≤ c.y1) (N m : Nat) (hm : 1 ≤ m) (hN : m ≤ N)
    (junk : Nat → Nat → Nat → Nat → Int) (junk' : Nat → Int) (coef p old : Plane) (data : Mem Int)
    (hdata : ∀ j < (resOf c (N - m)).h, ∀ i < (resOf c (N - m)).w, data (j * (resOf c (N - m)).w + i) = some (coef j i))
    (blk : Nat → Nat → Nat → Nat → Res)
    (hblk : ∀ k b X Y, (blk k b X Y).x0 ≤ X ∧ X < (blk k b X Y).x1 ∧ (blk k b X Y).y0 ≤ Y ∧ Y < (blk k b X Y).y1)
    (hp : KeptBlocks N m c win blk p coef) :
    ∃ out whole, partTile (ar .wrapping) (ar .wrapping) junk N m c win p old = some out ∧
      decodeTile (ar .wrapping) junk' (resOf c (N - m)) (resOf c (N - 1)) (resDown c (N - m) (m - 1)) data = some whole ∧
      ∀ x y, (resOf win (N - m)).x0 ≤ x → x < (resOf win (N - m)).x1 → (resOf win (N - m)).y0 ≤ y → y < (resOf win (N - m)).y1 →
        whole ((y - (resOf c (N - m)).y0) * (resOf c (N - m)).w + (x - (resOf c (N - m)).x0)) =
          some (out (y - (resOf win (N - m)).y0) (x - (resOf win (N - m)).x0)) := by
  obtain ⟨s, n, rfl, rfl⟩ : ∃ s n, N = s + n + 1 ∧ m = n + 1 := ⟨N - m, m - 1, by omega, by omega⟩
  have hs : s + n + 1 - (n + 1) = s := by omega
  rw [hs] at hdata ⊢
  rw [Nat.add_sub_cancel, Nat.add_sub_cancel]
  refine part_as_whole wrap32 c win x0 x1 x2 y0 y1 y2 s n junk junk' coef p old data hdata ?_ ?_
  · intro j hj i hi oj oi
    have hb := hblk 0 0 (cdp c.x0 (s + n) + i) (cdp c.y0 (s + n) + j)
    have hw : (resOf c (s + n)).w = cdp c.x1 (s + n) - cdp c.x0 (s + n) := rfl
    have hh : (resOf c (s + n)).h = cdp c.y1 (s + n) - cdp c.y0 (s + n) := rfl
    unfold Ok1 Gd at oj oi
    have := hp 0 (by omega) 0 (Or.inl ⟨rfl, rfl⟩) i j (s + n) (cdp c.x0 (s + n) + i) (cdp c.y0 (s + n) + j)
      (by rw [if_pos rfl, Nat.add_sub_cancel]) (by rw [band0]) (by rw [band0]) (by rw [band0]; omega) (by rw [band0]; omega)
      (aoi_of (nb := s + n) (by rw [if_pos rfl, Nat.add_sub_cancel]) hb.1 hb.2.1 hb.2.2.1 hb.2.2.2
        (by rw [band0]; omega) (by rw [band0]; omega) (by rw [band0]; omega) (by rw [band0]; omega))
    exact this
  · intro n' hn' j i wj wi hout
    obtain ⟨ey, v, ley, hv, hlowy, hy1, hy2, hy3⟩ := want_cell y0 y1 y2 (s + n') j wj
    obtain ⟨ex, u, lex, hu, hlowx, hx1, hx2, hx3⟩ := want_cell x0 x1 x2 (s + n') i wi
    have hk : s + n + 1 - (n - n') = s + n' + 1 := by omega
    have hnb : s + n' + 1 = (if n - n' = 0 then s + n + 1 - 1 else s + n + 1 - (n - n')) := by rw [if_neg (by omega), hk]
    obtain ⟨b, hb⟩ : ∃ b, b = ex + 2 * ey := ⟨_, rfl⟩
    have hb1 : b % 2 = ex := by omega
    have hb2 : b / 2 = ey := by omega
    have hw : (resOf c (s + n' + 1)).w = cdp c.x1 (s + n' + 1) - cdp c.x0 (s + n' + 1) := rfl
    have hh : (resOf c (s + n' + 1)).h = cdp c.y1 (s + n' + 1) - cdp c.y0 (s + n' + 1) := rfl
    have hb0 : 1 ≤ b := by
      rw [← hw] at hlowx
      rw [← hh] at hlowy
      by_cases h : b = 0
      · exact absurd ⟨hlowy.mp (by omega), hlowx.mp (by omega)⟩ hout
      · omega
    have q := hblk (n - n') b (bandCoord (s + n' + 1) ex c.x0 + u) (bandCoord (s + n' + 1) ey c.y0 + v)
    have := hp (n - n') (by omega) b (Or.inr ⟨by omega, hb0, by omega⟩) u v (s + n' + 1) _ _ hnb rfl rfl
      (by rw [hb1]; exact hx1) (by rw [hb2]; exact hy1) (by
        rw [hb1, hb2]
        exact aoi_of hnb q.1 q.2.1 q.2.2.1 q.2.2.2 (by rw [hb1]; exact hx2) (by rw [hb1]; exact hx3) (by rw [hb2]; exact hy2)
          (by rw [hb2]; exact hy3))
    rw [hb1, hb2, hk, hw, hh, ← hv, ← hu] at this
    exact this

/-- C78, in a build with overflow checks as well: if decoding the window and decoding the whole tile component both return, in whichever
builds, every sample of the window is the same in both. -/
theorem C78_window_as_whole_any_build (μ μ' : Mode) (c win : Res) (x0 : c.x0 ≤ win.x0) (x1 : win.x0 ≤ win.x1) (x2 : win.x1 ≤ c.x1)
    (y0 : c.y0 ≤ win.y0) (y1 : win.y0 ≤ win.y1) (y2 : win.y1 ≤ c.y1) (N m : Nat) (hm : 1 ≤ m) (hN : m ≤ N)
    (junk : Nat → Nat → Nat → Nat → Int) (junk' : Nat → Int) (coef p old : Plane) (data : Mem Int)
    (hdata : ∀ j < (resOf c (N - m)).h, ∀ i < (resOf c (N - m)).w, data (j * (resOf c (N - m)).w + i) = some (coef j i))
    (blk : Nat → Nat → Nat → Nat → Res)
    (hblk : ∀ k b X Y, (blk k b X Y).x0 ≤ X ∧ X < (blk k b X Y).x1 ∧ (blk k b X Y).y0 ≤ Y ∧ Y < (blk k b X Y).y1)
    (hp : KeptBlocks N m c win blk p coef) (out : Plane) (whole : Mem Int)
    (ho : partTile (ar μ) (ar .wrapping) junk N m c win p old = some out)
    (hw : decodeTile (ar μ') junk' (resOf c (N - m)) (resOf c (N - 1)) (resDown c (N - m) (m - 1)) data = some whole) :
    ∀ x y, (resOf win (N - m)).x0 ≤ x → x < (resOf win (N - m)).x1 → (resOf win (N - m)).y0 ≤ y → y < (resOf win (N - m)).y1 →
      whole ((y - (resOf c (N - m)).y0) * (resOf c (N - m)).w + (x - (resOf c (N - m)).x0)) =
        some (out (y - (resOf win (N - m)).y0) (x - (resOf win (N - m)).x0)) := by
  have hr : ∀ μ x, Ref (ar μ x) (ar .wrapping x) := by
    intro μ x v h
    cases μ
    · obtain ⟨rfl, hi⟩ := ar_checked x v h
      exact ar_of_I32 _ _ hi
    · exact h
  obtain ⟨out', whole', e1, e2, h⟩ := C78_window_as_whole c win x0 x1 x2 y0 y1 y2 N m hm hN junk junk' coef p old data hdata blk hblk hp
  have f1 := partTile_mono (hr μ) (ar .wrapping) junk N m c win p old out ho
  have f2 := decodeTile_mono (hr μ') junk' _ _ _ _ whole hw
  rw [e1, Option.some.injEq] at f1
  rw [e2, Option.some.injEq] at f2
  subst f1 f2
  exact h

/-- C78, the blocks of `KeptBlocks` are really decoded: a block with samples that passes the test is decoded, and the packets of its
precinct are read, whatever rectangle around the block the precinct is. -/
theorem C78_kept_blocks_decoded (N k b : Nat) (win prec blk : Res) (hx : blk.x0 < blk.x1) (hy : blk.y0 < blk.y1)
    (h1 : prec.x0 ≤ blk.x0) (h2 : blk.x1 ≤ prec.x1) (h3 : prec.y0 ≤ blk.y0) (h4 : blk.y1 ≤ prec.y1)
    (h : areaOfInterest N k b win blk = true) (precs : List (Nat × Res)) (hp : (b, prec) ∈ precs) :
    packetRead N k win precs = true ∧ blockDecoded N k b win prec blk = true := by
  have ha : areaOfInterest N k b win prec = true := by
    unfold areaOfInterest at h ⊢
    simp only [decide_eq_true_eq] at h ⊢
    omega
  refine ⟨List.any_eq_true.mpr ⟨_, hp, ha⟩, ?_⟩
  unfold blockDecoded
  rw [if_neg (by rw [ha]; decide), if_neg (by rw [h]; decide), if_neg (by omega)]

example : packetRead 2 1 ⟨0, 1, 4, 3⟩ [(1, ⟨0, 0, 16, 2⟩), (2, ⟨0, 0, 16, 2⟩), (3, ⟨0, 0, 16, 2⟩)] = true ∧
    blockDecoded 2 1 1 ⟨0, 1, 4, 3⟩ ⟨0, 0, 16, 2⟩ ⟨0, 0, 8, 2⟩ = true ∧
    blockDecoded 2 1 1 ⟨0, 1, 4, 3⟩ ⟨0, 0, 16, 2⟩ ⟨8, 0, 16, 2⟩ = false := by decide

/-- A tile component of 32 by 4 samples with one decomposition and blocks of 8 by 8: for the window `0..4` only the first block of
each band is needed; all the others are zero in the array, although the coefficients are not. -/
example : KeptBlocks 2 2 ⟨0, 0, 32, 4⟩ ⟨0, 1, 4, 3⟩ (fun _ _ X Y => ⟨X / 8 * 8, Y / 8 * 8, X / 8 * 8 + 8, Y / 8 * 8 + 8⟩)
    (fun j i => if i % 16 < 8 then 100 * j + i else 0) (fun j i => 100 * j + i) := by
  intro k hk b hb u v nb X Y hnb hX hY h1 h2 ha
  have hk' : k = 0 ∨ k = 1 := by omega
  have e : ∀ x, x = 0 ∨ x = 1 → bandCoord 1 x 0 = 0 ∧ bandCoord 1 x 32 = 16 ∧ bandCoord 1 x 4 = 2 := by
    intro x hx; rcases hx with rfl | rfl <;> decide
  have eb : b % 2 = 0 ∨ b % 2 = 1 := by omega
  have hn1 : nb = 1 := by rcases hk' with rfl | rfl <;> simpa using hnb
  subst hn1
  have e1 := e _ eb
  simp only [e1.1, e1.2.1, Nat.zero_add] at hX h1
  unfold areaOfInterest at ha
  rw [show (if k = 0 then 2 - 1 else 2 - k) = 1 by rcases hk' with rfl | rfl <;> rfl] at ha
  simp only [e1.1, e1.2.2, decide_eq_true_eq] at ha
  have hu : u < 8 := by omega
  have hw : b % 2 = 1 → (resOf ⟨0, 0, 32, 4⟩ (2 - k)).w = 16 := by
    intro h
    rcases hk' with rfl | rfl
    · omega
    · decide
  refine if_pos ?_
  by_cases hb1 : b % 2 = 1
  · rw [if_pos hb1, hw hb1]; omega
  · rw [if_neg hb1]; omega

/-- The two decoders on that tile: the window comes out the same. -/
example : ∃ out whole, partTile (ar .wrapping) (ar .wrapping) (fun _ _ _ _ => 12345) 2 2 ⟨0, 0, 32, 4⟩ ⟨0, 1, 4, 3⟩
      (fun j i => if i % 16 < 8 then 100 * j + i else 0) (fun _ _ => 0) = some out ∧
    decodeTile (ar .wrapping) (fun _ => 0) ⟨0, 0, 32, 4⟩ ⟨0, 0, 16, 2⟩ [⟨0, 0, 32, 4⟩]
      (fun k => if k < 128 then some (100 * ((k / 32 : Nat) : Int) + ((k % 32 : Nat) : Int)) else none) = some whole ∧
    whole (1 * 32 + 3) = some (out 0 3) ∧ out 0 3 ≠ 0 := by
  refine ⟨_, _, rfl, rfl, ?_, ?_⟩ <;> decide +kernel

/-- C78, false of a build with overflow checks: decoding a window can panic on what happens to be in the line buffer, where decoding the
whole tile component returns. The row has 16 samples and all its coefficients are `0` or `1`; the cell left of the loaded ones,
which is read but never set, holds `2^31 - 1`. -/
theorem C78_stale_cell_overflow :
    (partTile (ar .checked) (ar .wrapping) (fun _ _ _ _ => 2147483647) 2 2 ⟨0, 0, 16, 1⟩ ⟨8, 0, 10, 1⟩
      (fun _ i => if i < 8 then 0 else 1) (fun _ _ => 0)).isNone = true ∧
    (decodeTile (ar .checked) (fun _ => 2147483647) ⟨0, 0, 16, 1⟩ ⟨0, 0, 8, 1⟩ [⟨0, 0, 16, 1⟩]
      (fun k => if k < 16 then some (if k < 8 then 0 else 1) else none)).isSome = true := by
  constructor <;> decide +kernel

end Jp2.Dwt

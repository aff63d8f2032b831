import Verif.Jp2.DwtGrow
import Verif.Jp2.DwtTile
import Verif.Jp2.DwtMono
/-!
# C28, C29: the reversible wavelet transform is lossless
-/
namespace Jp2.Dwt

/-! ## Bridging lemmas -/

theorem ar_good (m : Mode) : Good (ar m) (2 ^ 31 - 1) := fun x h1 h2 => ar_of_I32 m x ⟨by omega, by omega⟩

theorem some_good (K : Int) : Good some K := fun _ _ _ => rfl

theorem checked_ref (x : Int) : Ref (ar .checked x) (some x) := fun v h => by rw [(ar_checked x v h).1]

theorem ofList_get (l : List Int) (i : Nat) (h : i < l.length) : Mem.ofList l i = some (l.getD i 0) := by
  unfold Mem.ofList
  rw [List.getD_eq_getElem?_getD, List.getElem?_eq_getElem h]; rfl

theorem getD_mem (l : List Int) (i : Nat) (h : i < l.length) : l.getD i 0 ∈ l := by
  rw [List.getD_eq_getElem?_getD, List.getElem?_eq_getElem h]; exact List.getElem_mem h

/-! ## C28: one line -/

/-- The forward transform of a row of up to 29-bit samples, in either build and for every length, never
overflows and leaves in the row the coefficients of the specification: low-pass, then high-pass. -/
theorem C28_row_coefficients (m : Mode) (even : Bool) (x : List Int) (hx : ∀ v ∈ x, -2 ^ 29 < v ∧ v < 2 ^ 29)
    (hodd : even = false → x ≠ []) (tmp : Mem Int) (ht : ∀ k < x.length, (tmp k).isSome) :
    ∃ c t, encodeRow (ar m) x.length even (Mem.ofList x, tmp) = some (c, t) ∧
      ∀ k, c k = if k < x.length then some (fwd1 x.length (if even then 0 else 1) (fun i => x.getD i 0) k) else none := by
  obtain ⟨c, t, e, h1, h2⟩ := encodeRow_ok (ar_good m) (B := 2 ^ 29 - 1) (by omega) x.length even
    (fun h => List.length_pos_iff.mpr (hodd h)) (fun i => x.getD i 0)
    (fun k hk => by have := hx _ (getD_mem x k hk); constructor <;> omega) (Mem.ofList x) tmp (fun k hk => ofList_get x k hk) ht
  refine ⟨c, t, e, fun k => ?_⟩
  rw [h1 k]
  split
  · rfl
  · unfold Mem.ofList; rw [List.getElem?_eq_none_iff]; omega

example : ∃ c t, encodeRow (ar .checked) 5 true (Mem.ofList [3, 1, 4, 1, 5], fun _ => some 0) = some (c, t) ∧
    ∀ k, c k = if k < 5 then some (fwd1 5 0 (fun i => [3, 1, 4, 1, 5].getD i 0) k) else none :=
  C28_row_coefficients .checked true [3, 1, 4, 1, 5] (by decide) (by decide) _ (fun _ _ => rfl)

/-- The inverse transform returns every row exactly, in either build, for every length and both parities.
`sn`, the number of low-pass samples, is what the decoder gets from the lower resolution. -/
theorem C28_row_lossless (m m' : Mode) (even : Bool) (x : List Int) (hx : ∀ v ∈ x, -2 ^ 29 < v ∧ v < 2 ^ 29)
    (hodd : even = false → x ≠ []) (tmp tmp' : Mem Int) (ht : ∀ k < x.length, (tmp k).isSome) (ht' : ∀ k < x.length, (tmp' k).isSome)
    (sn : Nat) (hsn : sn = if even then (x.length + 1) / 2 else x.length / 2) :
    ∃ c t t', encodeRow (ar m) x.length even (Mem.ofList x, tmp) = some (c, t) ∧
      idwtLine (ar m') 1 sn (x.length - sn) (if even then 0 else 1) (c, tmp') = some (Mem.ofList x, t') := by
  obtain ⟨c, t, e, h1⟩ := C28_row_coefficients m even x hx hodd tmp ht
  have hs : sn = lowCount x.length (if even then 0 else 1) := by rw [hsn]; cases even <;> rfl
  obtain ⟨a', t', e', q1, q2, -⟩ := idwtLine_ok (ar_good m') (B := 2 ^ 29 - 1) (by omega) x.length (if even then 0 else 1) 1
    (by split <;> omega) (by omega) (fun i => x.getD i 0)
    (fun k hk => by have := hx _ (getD_mem x k hk); constructor <;> omega) c tmp'
    (fun i hi => by rw [Nat.mul_one, h1, if_pos hi]) ht'
  rw [← hs] at e'
  have ha : a' = Mem.ofList x := by
    funext q
    by_cases hq : q < x.length
    · have := q1 q hq
      rw [Nat.mul_one] at this
      rw [this, ofList_get x q hq]
    · rw [q2 q (fun k hk => by omega), h1, if_neg hq]
      unfold Mem.ofList; rw [eq_comm, List.getElem?_eq_none_iff]; omega
  rw [ha] at e'
  exact ⟨c, t, t', e, e'⟩

example : ∃ c t t', encodeRow (ar .wrapping) 4 false (Mem.ofList [7, -2, 0, 9], fun _ => some 0) = some (c, t) ∧
    idwtLine (ar .checked) 1 2 2 1 (c, fun _ => some 0) = some (Mem.ofList [7, -2, 0, 9], t') :=
  C28_row_lossless .wrapping .checked false [7, -2, 0, 9] (by decide) (by decide) _ _ (fun _ _ => rfl) (fun _ _ => rfl) 2 (by decide)

/-- The same for one to eight columns of an image of width `w` transformed together: each column comes back,
and nothing else is touched by either direction. -/
theorem C28_columns_lossless (m m' : Mode) (even : Bool) (n w cols : Nat) (hc : 1 ≤ cols) (hc8 : cols ≤ 8) (hw : cols ≤ w)
    (hodd : even = false → 1 ≤ n) (X : Nat → Nat → Int) (hX : ∀ c < cols, ∀ k < n, -2 ^ 29 < X c k ∧ X c k < 2 ^ 29) (arr tmp : Mem Int)
    (harr : ∀ c < cols, ∀ k < n, arr (k * w + c) = some (X c k)) (ht : ∀ q < 8 * n, (tmp q).isSome)
    (sn : Nat) (hsn : sn = if even then (n + 1) / 2 else n / 2) :
    ∃ a t, encodeCols (ar m) n even w cols (arr, tmp) = some (a, t) ∧
      (∀ q, (∀ k < n, ∀ c < cols, q ≠ k * w + c) → a q = arr q) ∧
      ∀ c < cols, ∀ tmp' : Mem Int, (∀ k < n, (tmp' k).isSome) →
        ∃ a' t', at_ (idwtLine (ar m') w sn (n - sn) (if even then 0 else 1)) c (a, tmp') = some (a', t') ∧
          (∀ k < n, a' (k * w + c) = some (X c k)) ∧ (∀ q, (∀ k < n, q ≠ k * w + c) → a' q = a q) := by
  obtain ⟨a, t, e, p1, p2, -⟩ := encodeCols_ok (ar_good m) (B := 2 ^ 29 - 1) (by omega) n even w cols hodd hc hc8 hw X
    (fun c hc k hk => by have := hX c hc k hk; constructor <;> omega) arr tmp harr ht
  refine ⟨a, t, e, p2, fun c hc tmp' ht' => ?_⟩
  have hs : sn = lowCount n (if even then 0 else 1) := by rw [hsn]; cases even <;> rfl
  obtain ⟨a', t', e', q1, q2, -⟩ := idwtLine_ok (ar_good m') (B := 2 ^ 29 - 1) (by omega) n (if even then 0 else 1) w
    (by split <;> omega) (by omega) (X c)
    (fun k hk => by have := hX c hc k hk; constructor <;> omega) (fun i => a (c + i)) tmp'
    (fun i hi => by rw [Nat.add_comm, p1 i hi c hc]) ht'
  rw [← hs] at e'
  refine ⟨fun k => if c ≤ k then a' (k - c) else a k, t', ?_, fun k hk => ?_, fun q hq => ?_⟩
  · unfold at_; simp only [e', Option.map_some]
  · simp only; rw [if_pos (by omega), show k * w + c - c = k * w by omega, q1 k hk]
  · simp only
    by_cases hcq : c ≤ q
    · rw [if_pos hcq, q2 (q - c) (fun k hk he => hq k hk (by omega)), show c + (q - c) = q by omega]
    · rw [if_neg hcq]

example : ∃ a t, encodeCols (ar .checked) 3 true 2 2 (Mem.ofList [1, 2, 3, 4, 5, 6], fun _ => some 0) = some (a, t) := by
  obtain ⟨a, t, e, -⟩ := C28_columns_lossless .checked .checked true 3 2 2 (by omega) (by omega) (by omega) (by simp)
    (fun c k => ([1, 2, 3, 4, 5, 6] : List Int).getD (k * 2 + c) 0) (by decide) (Mem.ofList [1, 2, 3, 4, 5, 6]) (fun _ => some 0)
    (by decide) (fun _ _ => rfl) 2 rfl
  exact ⟨a, t, e⟩

/-- The row transform of an odd line of no samples is not harmless: it reads two samples and overwrites the
first one. -/
theorem C28_empty_odd_row_overwritten :
    ((encodeRow (ar .checked) 0 false (Mem.ofList [10, 20], fun _ => some 0)).map fun s => (s.1 0, s.1 1)) =
      some (some 15, some 20) := by decide +kernel

/-! ## C29: a tile -/

/-- `⌈a / 2^k⌉`. -/
def ceilDiv2 (a k : Nat) : Nat := (a + 2 ^ k - 1) / 2 ^ k

/-- The resolution `k` halvings below a tile, as `opj_tcd_init_tile` computes it (`tcd.rs:966-969`). -/
def resAt (t : Res) (k : Nat) : Res := ⟨ceilDiv2 t.x0 k, ceilDiv2 t.y0 k, ceilDiv2 t.x1 k, ceilDiv2 t.y1 k⟩

/-- The resolutions above the lowest of a tile with `L` decomposition levels, in increasing order. -/
def resList (t : Res) : Nat → List Res
  | 0 => []
  | L + 1 => resAt t L :: resList t L

/-- No level of the transform has an odd origin and no extent in the same direction. -/
def NoThin (t : Res) (L : Nat) : Prop :=
  ∀ k < L, ((resAt t k).x0 % 2 = 1 → (resAt t k).x0 < (resAt t k).x1) ∧ ((resAt t k).y0 % 2 = 1 → (resAt t k).y0 < (resAt t k).y1)

theorem ceilDiv2_succ (a k : Nat) : ceilDiv2 a (k + 1) = (ceilDiv2 a k + 1) / 2 := by
  unfold ceilDiv2
  have hp : 0 < 2 ^ k := Nat.two_pow_pos k
  rw [Nat.pow_succ]
  generalize 2 ^ k = p at *
  rw [← Nat.div_div_eq_div_mul]
  congr 1
  rw [show a + p * 2 - 1 = (a + p - 1) + p by omega, Nat.add_div_right _ hp]

theorem ceilDiv2_mono {a b : Nat} (h : a ≤ b) (k : Nat) : ceilDiv2 a k ≤ ceilDiv2 b k := by
  unfold ceilDiv2
  exact Nat.div_le_div_right (by omega)

theorem ceilDiv2_zero (a : Nat) : ceilDiv2 a 0 = a := by simp [ceilDiv2]

theorem half_w (t : Res) (h : t.x0 ≤ t.x1) (k : Nat) : (resAt t (k + 1)).w = lowCount (resAt t k).w ((resAt t k).x0 % 2) := by
  have := ceilDiv2_mono h k
  simp only [resAt, Res.w, lowCount, ceilDiv2_succ]
  omega

theorem half_h (t : Res) (h : t.y0 ≤ t.y1) (k : Nat) : (resAt t (k + 1)).h = lowCount (resAt t k).h ((resAt t k).y0 % 2) := by
  have := ceilDiv2_mono h k
  simp only [resAt, Res.h, lowCount, ceilDiv2_succ]
  omega

theorem lowCount_le (n cas : Nat) : lowCount n cas ≤ n := by unfold lowCount; omega

theorem resAt_le (t : Res) (hx : t.x0 ≤ t.x1) (hy : t.y0 ≤ t.y1) (k : Nat) : (resAt t k).w ≤ t.w ∧ (resAt t k).h ≤ t.h := by
  induction k with
  | zero => simp only [resAt, Res.w, Res.h, ceilDiv2_zero]; omega
  | succ k ih =>
    rw [half_w t hx, half_h t hy]
    have := lowCount_le (resAt t k).w ((resAt t k).x0 % 2)
    have := lowCount_le (resAt t k).h ((resAt t k).y0 % 2)
    omega

theorem foldl_max_le (rs : List Res) (a : Nat) : a ≤ rs.foldl (fun m r => max (max m r.w) r.h) a := by
  induction rs generalizing a with
  | nil => exact Nat.le_refl a
  | cons r rs ih => exact Nat.le_trans (show a ≤ max (max a r.w) r.h by omega) (ih _)

theorem maxRes_le (rs : List Res) (r : Res) (h : r ∈ rs) : max r.w r.h ≤ maxRes rs := by
  unfold maxRes
  suffices ∀ a, max r.w r.h ≤ rs.foldl (fun m r => max (max m r.w) r.h) a from this 0
  intro a
  induction rs generalizing a with
  | nil => cases h
  | cons r' rs ih =>
    rw [List.foldl_cons]
    rcases List.mem_cons.mp h with rfl | h
    · exact Nat.le_trans (by omega) (foldl_max_le rs _)
    · exact ih h _

theorem resAt_mem (t : Res) (L k : Nat) (h : k < L) : resAt t k ∈ resList t L := by
  induction L with
  | zero => omega
  | succ L ih =>
    unfold resList
    by_cases hk : k = L
    · subst hk; exact List.mem_cons_self ..
    · exact List.mem_cons_of_mem _ (ih (by omega))

/-- Every sample in the buffer is at most `B` in magnitude. -/
def BdMem (B : Int) (m : Mem Int) : Prop := ∀ q v, m q = some v → -B ≤ v ∧ v ≤ B

theorem resAt_anti (t : Res) (hx : t.x0 ≤ t.x1) (hy : t.y0 ≤ t.y1) {k l : Nat} (h : k ≤ l) : (resAt t l).w ≤ (resAt t k).w ∧ (resAt t l).h ≤ (resAt t k).h := by
  induction l with
  | zero => obtain rfl : k = 0 := by omega
            exact ⟨Nat.le_refl _, Nat.le_refl _⟩
  | succ l ih =>
    by_cases hkl : k = l + 1
    · subst hkl; exact ⟨Nat.le_refl _, Nat.le_refl _⟩
    · have := ih (by omega)
      rw [half_w t hx, half_h t hy]
      have := lowCount_le (resAt t l).w ((resAt t l).x0 % 2)
      have := lowCount_le (resAt t l).h ((resAt t l).y0 % 2)
      omega

/-- How large the coefficients are after `L` levels, if the samples were at most `B`: a level makes those of the low band at most 9/4 times
as large, those of the other bands at most 3 and, for the band that is high in both directions, 4 times (and 3/2 more, for the rounding). -/
def Grown (t : Res) (L : Nat) (B : Int) (m : Mem Int) : Prop :=
  ∀ q v, m q = some v →
    (q % t.w < (resAt t L).w → q / t.w < (resAt t L).h → (2 * (v.natAbs : Int) + 3) * 4 ^ L ≤ 9 ^ L * (2 * B + 3)) ∧
    ∀ k < L, q % t.w < (resAt t k).w → q / t.w < (resAt t k).h →
      (¬(q % t.w < (resAt t (k + 1)).w ∧ q / t.w < (resAt t (k + 1)).h) → (2 * (v.natAbs : Int) + 3) * 4 ^ k ≤ 4 * (9 ^ k * (2 * B + 3))) ∧
      (q % t.w < (resAt t (k + 1)).w ∧ ¬ q / t.w < (resAt t (k + 1)).h ∨ ¬ q % t.w < (resAt t (k + 1)).w ∧ q / t.w < (resAt t (k + 1)).h →
        (2 * (v.natAbs : Int) + 3) * 4 ^ k ≤ 3 * (9 ^ k * (2 * B + 3)))

theorem grown_step {t : Res} (hx : t.x0 ≤ t.x1) (hy : t.y0 ≤ t.y1) {L : Nat} {B : Int} {m1 m2 : Mem Int} {x : Nat → Nat → Int} (h1 : Grown t L B m1)
    (hget : ∀ j < (resAt t L).h, ∀ i < (resAt t L).w, m1 (j * t.w + i) = some (x j i))
    (p2 : Holds t.w (resAt t L).w (resAt t L).h m1 (horiz (resAt t L).w ((resAt t L).x0 % 2) (vert (resAt t L).h ((resAt t L).y0 % 2) x)) m2) :
    Grown t (L + 1) B m2 := by
  intro q v hv
  have hle := resAt_le t hx hy L
  have ew := half_w t hx L
  have eh := half_h t hy L
  have lw := lowCount_le (resAt t L).w ((resAt t L).x0 % 2)
  have lh := lowCount_le (resAt t L).h ((resAt t L).y0 % 2)
  rw [p2 q] at hv
  by_cases hq : q % t.w < (resAt t L).w ∧ q / t.w < (resAt t L).h
  · rw [if_pos hq] at hv
    simp only [Option.some.injEq] at hv
    obtain ⟨F, hF⟩ : ∃ F : Int, F = 9 ^ L * (2 * B + 3) := ⟨_, rfl⟩
    have e4 : (4 : Int) ^ (L + 1) = 4 * 4 ^ L := by ring
    have e9 : (9 : Int) ^ (L + 1) * (2 * B + 3) = 9 * F := by rw [hF]; ring
    obtain ⟨s, hs⟩ : ∃ s : Int, s = 4 ^ L := ⟨_, rfl⟩
    have hs0 : 0 < s := by rw [hs]; positivity
    have hxs : ∀ j < (resAt t L).h, ∀ i < (resAt t L).w, (2 * ((x j i).natAbs : Int) + 3) * s ≤ F := by
      intro j hj i hi
      have := (h1 _ _ (hget j hj i hi)).1
      have hd := div_mod_of (w := t.w) (j := j) (i := i) (by omega)
      rw [hd.1, hd.2, ← hF, ← hs] at this
      exact this hi hj
    have hvert : ∀ i < (resAt t L).w, ((q / t.w < (resAt t (L + 1)).h → 2 * ((2 * ((vert (resAt t L).h ((resAt t L).y0 % 2) x (q / t.w) i).natAbs : Int) + 3) * s) ≤ 3 * F) ∧
        (2 * ((vert (resAt t L).h ((resAt t L).y0 % 2) x (q / t.w) i).natAbs : Int) + 3) * s ≤ 2 * F) := by
      intro i hi
      have := fwd1_grow (n := (resAt t L).h) (cas := (resAt t L).y0 % 2) (by omega) hs0 (x := fun k => x k i) (F := F) (fun k hk => hxs k hk i hi) (q / t.w) hq.2
      rw [← eh] at this
      exact this
    have hlow : q / t.w < (resAt t (L + 1)).h → (q % t.w < (resAt t (L + 1)).w → 4 * ((2 * (v.natAbs : Int) + 3) * s) ≤ 9 * F) ∧ (2 * (v.natAbs : Int) + 3) * s ≤ 3 * F := by
      intro hl
      have := fwd1_grow (n := (resAt t L).w) (cas := (resAt t L).x0 % 2) (by omega) (s := 2 * s) (by omega)
        (x := fun k => vert (resAt t L).h ((resAt t L).y0 % 2) x (q / t.w) k) (F := 3 * F) (fun k hk => by
          have := (hvert k hk).1 hl
          rw [show ∀ a : Int, a * (2 * s) = 2 * (a * s) from fun a => by ring]
          exact this) (q % t.w) hq.1
      rw [show fwd1 (resAt t L).w ((resAt t L).x0 % 2) (fun k => vert (resAt t L).h ((resAt t L).y0 % 2) x (q / t.w) k) (q % t.w) = v from hv, ← ew] at this
      rw [show ∀ a : Int, a * (2 * s) = 2 * (a * s) from fun a => by ring] at this
      refine ⟨fun h => ?_, ?_⟩
      · have := this.1 h; omega
      · have := this.2; omega
    have hhigh : (q % t.w < (resAt t (L + 1)).w → (2 * (v.natAbs : Int) + 3) * s ≤ 3 * F) ∧ (2 * (v.natAbs : Int) + 3) * s ≤ 4 * F := by
      have := fwd1_grow (n := (resAt t L).w) (cas := (resAt t L).x0 % 2) (by omega) (s := s) (by omega)
        (x := fun k => vert (resAt t L).h ((resAt t L).y0 % 2) x (q / t.w) k) (F := 2 * F) (fun k hk => (hvert k hk).2) (q % t.w) hq.1
      rw [show fwd1 (resAt t L).w ((resAt t L).x0 % 2) (fun k => vert (resAt t L).h ((resAt t L).y0 % 2) x (q / t.w) k) (q % t.w) = v from hv, ← ew] at this
      refine ⟨fun h => ?_, ?_⟩
      · have := this.1 h; omega
      · have := this.2; omega
    refine ⟨fun a b => ?_, fun k hk a b => ?_⟩
    · rw [e4, e9, ← hs]
      have := (hlow b).1 a
      rw [show ∀ a : Int, a * (4 * s) = 4 * (a * s) from fun a => by ring]
      exact this
    · by_cases hkL : k = L
      · subst hkL
        rw [← hF, ← hs]
        refine ⟨fun _ => hhigh.2, fun h => ?_⟩
        rcases h with ⟨c1, -⟩ | ⟨-, c2⟩
        · exact hhigh.1 c1
        · exact (hlow c2).2
      · have := resAt_anti t hx hy (k := k + 1) (l := L) (by omega)
        exact ⟨fun h => absurd ⟨by omega, by omega⟩ h, fun h => by omega⟩
  · rw [if_neg hq] at hv
    have := (h1 q v hv).2
    refine ⟨fun a b => absurd ⟨by omega, by omega⟩ hq, fun k hk a b => ?_⟩
    by_cases hkL : k = L
    · subst hkL; exact absurd ⟨a, b⟩ hq
    · exact this k (by omega) a b

theorem levels_ok {A A' : Arith} {K : Int} (hA : Good A K) (hA' : Good A' K) (t : Res) (hx : t.x0 ≤ t.x1) (hy : t.y0 ≤ t.y1)
    (hw0 : 0 < t.w) (h32 : t.h * t.w < 2 ^ 32) (L : Nat) (hthin : NoThin t L) {B : Int} (hB : 0 ≤ B)
    (hK : 2 * (B * 4 ^ L) + 2 ≤ K) (m : Mem Int) (hdom : ∀ q < t.w * t.h, (m q).isSome) (hbd : BdMem B m)
    (s : Mem Int) (hs : ∀ q < 8 * maxRes (resList t L), (s q).isSome) :
    ∃ m' s', encodeLevels A t.w (resList t L) (m, s) = some (m', s') ∧ (∀ q, (m' q).isSome = (m q).isSome) ∧ (BdMem (B * 4 ^ L) m' ∧ Grown t L B m') ∧
      (∀ q, (s' q).isSome = (s q).isSome) ∧
      ∀ s2 : Mem Int, (∀ q < 8 * maxRes (resList t L), (s2 q).isSome) →
        ∃ s3, decodeLevels A' t.w (resAt t L) (resList t L) (m', s2) = some (m, s3) := by
  obtain ⟨M, hM⟩ : ∃ M, M = 8 * maxRes (resList t L) := ⟨_, rfl⟩
  rw [← hM] at hs ⊢
  have hMk : ∀ k < L, 8 * max (resAt t k).w (resAt t k).h ≤ M := by
    intro k hk
    have := maxRes_le (resList t L) _ (resAt_mem t L k hk); omega
  clear hM
  induction L with
  | zero =>
    refine ⟨m, s, rfl, fun _ => rfl, ⟨by simpa using hbd, fun q v hv => ⟨fun _ _ => by have := hbd q v hv; simp only [pow_zero, mul_one, one_mul]; omega, fun k hk => by omega⟩⟩, fun _ => rfl, fun s2 _ => ⟨s2, rfl⟩⟩
  | succ L ih =>
    have h4 : B * 4 ^ (L + 1) = 4 * (B * 4 ^ L) := by ring
    have h4' : 0 ≤ B * 4 ^ L := mul_nonneg hB (by positivity)
    obtain ⟨m1, s1, e1, d1, ⟨b1, g1⟩, ds1, dec1⟩ := ih (fun k hk => hthin k (by omega)) (by omega) (fun k hk => hMk k (by omega))
    obtain ⟨r, hr⟩ : ∃ r, r = resAt t L := ⟨_, rfl⟩
    obtain ⟨hrw, hrh⟩ := resAt_le t hx hy L
    rw [← hr] at hrw hrh
    have hMr := hMk L (by omega)
    rw [← hr] at hMr
    have hth := hthin L (by omega)
    rw [← hr] at hth
    obtain ⟨B', hB'⟩ : ∃ B', B' = B * 4 ^ L := ⟨_, rfl⟩
    rw [← hB'] at h4 h4' b1
    obtain ⟨x, hxd⟩ : ∃ x : Nat → Nat → Int, x = fun j i => (m1 (j * t.w + i)).getD 0 := ⟨_, rfl⟩
    have hin : ∀ j < r.h, ∀ i < r.w, j * t.w + i < t.w * t.h := by
      intro j hj i hi
      have : (j + 1) * t.w ≤ t.h * t.w := Nat.mul_le_mul_right _ (by omega)
      rw [Nat.add_mul, Nat.one_mul] at this
      rw [Nat.mul_comm t.w t.h]; omega
    have hget : ∀ j < r.h, ∀ i < r.w, m1 (j * t.w + i) = some (x j i) := by
      intro j hj i hi
      have h0 : (m1 (j * t.w + i)).isSome := by rw [d1]; exact hdom _ (hin j hj i hi)
      obtain ⟨v, hv⟩ := Option.isSome_iff_exists.mp h0
      rw [hxd, hv]; simp only [hv, Option.getD_some]
    have hxb : ∀ j < r.h, ∀ i < r.w, -B' ≤ x j i ∧ x j i ≤ B' := fun j hj i hi => b1 _ _ (hget j hj i hi)
    have hold : Holds t.w r.w r.h m1 x m1 := by
      intro q
      split
      · rename_i hq
        have := hget _ hq.2 _ hq.1
        rwa [div_mod_eq] at this
      · rfl
    have hrh32 : r.h * t.w < 2 ^ 32 := Nat.lt_of_le_of_lt (Nat.mul_le_mul_right _ hrh) h32
    obtain ⟨m2, s2, e2, p2, d2⟩ := encodeLevel_ok hA (B := B') (by omega) h4' t.w r hrw
      (fun h => by have := hth.1 h; unfold Res.w; omega) (fun h => by have := hth.2 h; unfold Res.h; omega) hrh32 hxb hold
      (fun q hq => by rw [ds1]; exact hs q (by omega))
    have hdm : ∀ q, (m2 q).isSome = (m1 q).isSome := by
      intro q
      rw [p2 q]
      split
      · rename_i hq
        have := hget _ hq.2 _ hq.1
        rw [div_mod_eq] at this
        rw [this]; rfl
      · rfl
    refine ⟨m2, s2, ?_, fun q => by rw [hdm, d1], ⟨?_, by rw [hr] at hget p2; exact grown_step hx hy g1 hget p2⟩, fun q => by rw [d2, ds1], fun s3 hs3 => ?_⟩
    · simp only [resList, encodeLevels, e1, Option.bind_some, ← hr, e2]
    · rw [h4]
      intro q v hv
      rw [p2 q] at hv
      split at hv
      · rename_i hq
        simp only [Option.some.injEq] at hv
        rw [← hv]
        have := fwd1_bd (n := r.w) (cas := r.x0 % 2) (by omega) (B := 2 * B')
          (fun k hk => fwd1_bd (n := r.h) (cas := r.y0 % 2) (by omega) (fun k' hk' => hxb k' hk' k hk) (q / t.w) hq.2) (q % t.w) hq.1
        unfold horiz vert
        omega
      · have := b1 q v hv; omega
    · obtain ⟨m4, s4, e4, p4, d4⟩ := decodeLevel_ok hA' (B := B') (by omega) h4' t.w hw0 (resAt t (L + 1)) r hrw
        (by rw [hr]; exact half_w t hx L) (by rw [hr]; exact half_h t hy L) hxb p2 (fun q hq => hs3 q (by omega))
      have hm4 : m4 = m1 := by funext q; rw [p4 q]; exact (hold q).symm
      subst hm4
      obtain ⟨s5, e5⟩ := dec1 s4 (fun q hq => by rw [d4]; exact hs3 q hq)
      refine ⟨s5, ?_⟩
      simp only [resList, decodeLevels, ← hr, e4, Option.bind_some]
      rw [hr]; exact e5

/-- The forward and inverse transforms of a whole tile, run in any arithmetic exact on a large enough range. -/
theorem tile_ok {A A' : Arith} {K : Int} (hA : Good A K) (hA' : Good A' K) (t : Res) (hx : t.x0 ≤ t.x1) (hy : t.y0 ≤ t.y1)
    (hw0 : 0 < t.w) (h32 : t.w * t.h < 2 ^ 32) (L : Nat) (hthin : NoThin t L) {B : Int} (hB : 0 ≤ B)
    (hK : 2 * (B * 4 ^ L) + 2 ≤ K) (x : List Int) (hlen : x.length = t.w * t.h) (hbd : ∀ v ∈ x, -B ≤ v ∧ v ≤ B)
    (junk junk' : Nat → Int) :
    ∃ c, encodeTile A junk t (resList t L) (Mem.ofList x) = some c ∧
      decodeTile A' junk' t (resAt t L) (resList t L) c = some (Mem.ofList x) := by
  obtain ⟨m', s', e, -, -, -, dec⟩ := levels_ok hA hA' t hx hy hw0 (by rwa [Nat.mul_comm]) L hthin hB hK (Mem.ofList x)
    (fun q hq => by rw [ofList_get x q (by omega)]; rfl)
    (fun q v hv => by
      unfold Mem.ofList at hv
      exact hbd v (List.mem_of_getElem? hv))
    (fresh junk (8 * maxRes (resList t L))) (fun q hq => by unfold fresh; rw [if_pos hq]; rfl)
  obtain ⟨s3, e3⟩ := dec (fresh junk' (8 * maxRes (resList t L))) (fun q hq => by unfold fresh; rw [if_pos hq]; rfl)
  refine ⟨m', by simp only [encodeTile, e, Option.map_some], ?_⟩
  unfold decodeTile
  split
  · rename_i hor
    have hnil : resList t L = [] := by
      rcases hor with h | h
      · exact h
      · omega
    rw [hnil] at e3
    simp only [decodeLevels, Option.some.injEq, Prod.mk.injEq] at e3
    rw [e3.1]
  · simp only [e3, Option.map_some]

/-- For every tile rectangle (any origin parity), every number of decomposition levels and every content of
the scratch buffers, the inverse transform undoes the forward one exactly, in either build and with no
overflow, when the samples leave room for the growth of the coefficients.
Partial: levels with an odd origin and no extent (`NoThin`) are excluded; there the code is wrong, see below. -/
theorem C29_tile_lossless_partial (m m' : Mode) (t : Res) (hx : t.x0 ≤ t.x1) (hy : t.y0 ≤ t.y1)
    (hw0 : 0 < t.w) (h32 : t.w * t.h < 2 ^ 32) (L : Nat) (hthin : NoThin t L)
    (x : List Int) (hlen : x.length = t.w * t.h) (hbd : ∀ v ∈ x, (v.natAbs : Int) * 4 ^ L ≤ 2 ^ 30 - 2)
    (junk junk' : Nat → Int) :
    ∃ c, encodeTile (ar m) junk t (resList t L) (Mem.ofList x) = some c ∧
      decodeTile (ar m') junk' t (resAt t L) (resList t L) c = some (Mem.ofList x) := by
  have h4 : (0 : Int) < 4 ^ L := by positivity
  refine tile_ok (ar_good m) (ar_good m') t hx hy hw0 h32 L hthin (B := (2 ^ 30 - 2) / 4 ^ L) (Int.ediv_nonneg (by omega) (by omega)) ?_
    x hlen ?_ junk junk'
  · have := Int.ediv_mul_le (2 ^ 30 - 2 : Int) (Int.ne_of_gt h4); omega
  · intro v hv
    have : (v.natAbs : Int) ≤ (2 ^ 30 - 2) / 4 ^ L := (Int.le_ediv_iff_mul_le h4).mpr (hbd v hv)
    omega

/-- A tile whose sides are at least `2^(L-1)` has no thin level, so `L` levels are lossless on it. -/
theorem noThin_of_large (t : Res) (L : Nat) (hw : 2 ^ (L - 1) ≤ t.w) (hh : 2 ^ (L - 1) ≤ t.h) : NoThin t L := by
  have aux : ∀ a b k : Nat, k < L → 2 ^ (L - 1) ≤ b - a → ceilDiv2 a k < ceilDiv2 b k := by
    intro a b k hk h
    have hp : 2 ^ k ≤ 2 ^ (L - 1) := Nat.pow_le_pow_right (by omega) (by omega)
    have hp0 : 0 < 2 ^ k := Nat.two_pow_pos k
    unfold ceilDiv2
    have : (a + 2 ^ k - 1) / 2 ^ k + 1 ≤ (b + 2 ^ k - 1) / 2 ^ k := by
      rw [← Nat.add_div_right _ hp0]
      exact Nat.div_le_div_right (by omega)
    omega
  intro k hk
  exact ⟨fun _ => aux _ _ k hk hw, fun _ => aux _ _ k hk hh⟩

theorem C29_large_tile_lossless (m m' : Mode) (t : Res) (L : Nat) (hw : 2 ^ (L - 1) ≤ t.w) (hh : 2 ^ (L - 1) ≤ t.h)
    (h32 : t.w * t.h < 2 ^ 32) (x : List Int) (hlen : x.length = t.w * t.h)
    (hbd : ∀ v ∈ x, (v.natAbs : Int) * 4 ^ L ≤ 2 ^ 30 - 2) (junk junk' : Nat → Int) :
    ∃ c, encodeTile (ar m) junk t (resList t L) (Mem.ofList x) = some c ∧
      decodeTile (ar m') junk' t (resAt t L) (resList t L) c = some (Mem.ofList x) := by
  have hp : 0 < 2 ^ (L - 1) := Nat.two_pow_pos _
  exact C29_tile_lossless_partial m m' t (by unfold Res.w at hw; omega) (by unfold Res.h at hh; omega) (by omega) h32 L
    (noThin_of_large t L hw hh) x hlen hbd junk junk'

/-- A 3 × 2 tile at (5, 3), two levels. -/
example : ∃ c, encodeTile (ar .checked) (fun _ => 0) ⟨5, 3, 8, 5⟩ (resList ⟨5, 3, 8, 5⟩ 2) (Mem.ofList [1, 200, -3, 40, 5, -128]) = some c ∧
    decodeTile (ar .wrapping) (fun _ => 7) ⟨5, 3, 8, 5⟩ (resAt ⟨5, 3, 8, 5⟩ 2) (resList ⟨5, 3, 8, 5⟩ 2) c =
      some (Mem.ofList [1, 200, -3, 40, 5, -128]) :=
  C29_large_tile_lossless .checked .wrapping ⟨5, 3, 8, 5⟩ 2 (by decide) (by decide) (by decide) [1, 200, -3, 40, 5, -128] rfl (by decide) _ _

/-- In a build with overflow checks no assumption on the samples is needed: whatever they are, a tile that
both directions process without an overflow panic comes back exactly. -/
theorem C29_checked_lossless_or_panic (t : Res) (hx : t.x0 ≤ t.x1) (hy : t.y0 ≤ t.y1)
    (hw0 : 0 < t.w) (h32 : t.w * t.h < 2 ^ 32) (L : Nat) (hthin : NoThin t L)
    (x : List Int) (hlen : x.length = t.w * t.h) (junk junk' : Nat → Int) (c y : Mem Int)
    (he : encodeTile (ar .checked) junk t (resList t L) (Mem.ofList x) = some c)
    (hd : decodeTile (ar .checked) junk' t (resAt t L) (resList t L) c = some y) : y = Mem.ofList x := by
  have he' := encodeTile_mono checked_ref junk t (resList t L) (Mem.ofList x) c he
  have hd' := decodeTile_mono checked_ref junk' t (resAt t L) (resList t L) c y hd
  have hbd : ∃ B : Int, 0 ≤ B ∧ ∀ v ∈ x, -B ≤ v ∧ v ≤ B := by
    clear hlen he he' hd hd'
    induction x with
    | nil => exact ⟨0, by omega, fun v hv => by cases hv⟩
    | cons a x ih =>
      obtain ⟨B, hB, h⟩ := ih
      refine ⟨max B a.natAbs, by omega, fun v hv => ?_⟩
      rcases List.mem_cons.mp hv with rfl | hv
      · omega
      · have := h v hv; omega
  obtain ⟨B, hB, hbd⟩ := hbd
  obtain ⟨c', h1, h2⟩ := tile_ok (some_good _) (some_good _) t hx hy hw0 h32 L hthin hB (le_refl _) x hlen hbd junk junk'
  rw [he', Option.some.injEq] at h1
  subst h1
  rw [hd', Option.some.injEq] at h2
  exact h2

/-- False in general: a one-sample-wide tile at x = 1 (say an image with that offset in a 4 × 4 tile grid) with
two levels loses its content, because the second level transforms rows of no samples. -/
theorem C29_thin_tile_corrupted :
    ((encodeTile (ar .checked) (fun _ => 0) ⟨1, 0, 2, 2⟩ (resList ⟨1, 0, 2, 2⟩ 2) (Mem.ofList [10, 20])).bind fun c =>
      (decodeTile (ar .checked) (fun _ => 0) ⟨1, 0, 2, 2⟩ (resAt ⟨1, 0, 2, 2⟩ 2) (resList ⟨1, 0, 2, 2⟩ 2) c).map
        fun y => [y 0, y 1]) ≠ some [some 10, some 20] := by decide +kernel

/-- Worse, a single-sample tile at y = 1 with two levels makes the encoder access memory past the end of its
scratch buffer, whatever the sample. -/
theorem C29_thin_tile_out_of_bounds (m : Mode) (v : Int) (hv : -2 ^ 28 < v ∧ v < 2 ^ 28) (junk : Nat → Int) :
    encodeTile (ar m) junk ⟨0, 1, 1, 2⟩ (resList ⟨0, 1, 1, 2⟩ 2) (Mem.ofList [v]) = none := by
  have hr : resList ⟨0, 1, 1, 2⟩ 2 = [⟨0, 1, 1, 1⟩, ⟨0, 1, 1, 2⟩] := by decide
  have hm : maxRes [⟨0, 1, 1, 1⟩, ⟨0, 1, 1, 2⟩] = 1 := by decide
  have hw : (⟨0, 1, 1, 2⟩ : Res).w = 1 := rfl
  rw [hr]
  unfold encodeTile
  rw [hm, hw]
  obtain ⟨m', t', e, -, d⟩ := encodeLevel_ok (ar_good m) (B := 2 ^ 28 - 1) (by omega) (by omega) 1 ⟨0, 1, 1, 2⟩ (by decide)
    (by decide) (by decide) (by decide) (x := fun _ _ => v) (fun _ _ _ _ => by constructor <;> omega)
    (m0 := Mem.ofList [v]) (m := Mem.ofList [v]) (t := fresh junk 8)
    (by
      intro q
      have hw : (⟨0, 1, 1, 2⟩ : Res).w = 1 := rfl
      have hh : (⟨0, 1, 1, 2⟩ : Res).h = 1 := rfl
      rw [hw, hh]
      split
      · obtain rfl : q = 0 := by omega
        rfl
      · rfl) (fun q hq => by
        have : q < 8 := hq
        unfold fresh; rw [if_pos this]; rfl)
  have h8 : t' 8 = none := by
    have := d 8
    simpa [fresh] using this
  simp only [encodeLevels, Option.bind_some, e]
  have : (⟨0, 1, 1, 1⟩ : Res).w = 1 := rfl
  have : (⟨0, 1, 1, 1⟩ : Res).h = 0 := rfl
  simp [encodeLevel, at_, encodeCols, fetchCols, loopM, liftCols, cols8, subOne, dc, h8, *]

end Jp2.Dwt

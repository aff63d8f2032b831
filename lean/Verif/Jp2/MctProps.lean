import Verif.Jp2.Mct
import Mathlib.Tactic.Linarith
/-!
# Property theorems about the component transforms (C27, C41)
-/
namespace Jp2.Mct

/-! ## Helpers -/

theorem fwd_inv (m : Mode) (r g b : Int) (hr : -2 ^ 29 ≤ r ∧ r < 2 ^ 29) (hg : -2 ^ 29 ≤ g ∧ g < 2 ^ 29)
    (hb : -2 ^ 29 ≤ b ∧ b < 2 ^ 29) :
    ∃ y u v, fwd m r g b = some (y, u, v) ∧ inv m y u v = some (r, g, b) := by
  have h2 : ∀ x : Int, x >>> (2 : Nat) = x / 4 := fun x => by rw [Int.shiftRight_eq_div_pow]; rfl
  unfold fwd inv
  rw [ar_of_I32 m (g * 2) (by unfold I32; omega), Option.bind_some, ar_of_I32 m (r + g * 2) (by unfold I32; omega),
    Option.bind_some, ar_of_I32 m (r + g * 2 + b) (by unfold I32; omega), Option.bind_some,
    ar_of_I32 m (b - g) (by unfold I32; omega), Option.bind_some, ar_of_I32 m (r - g) (by unfold I32; omega),
    Option.bind_some]
  refine ⟨_, _, _, rfl, ?_⟩
  rw [ar_of_I32 m (b - g + (r - g)) (by unfold I32; omega), Option.bind_some, h2, h2]
  have e : (r + g * 2 + b) / 4 - (b - g + (r - g)) / 4 = g := by omega
  rw [e, ar_of_I32 m g (by unfold I32; omega), Option.bind_some, ar_of_I32 m (r - g + g) (by unfold I32; omega),
    Option.bind_some, ar_of_I32 m (b - g + g) (by unfold I32; omega), Option.bind_some]
  congr 3 <;> omega

/-- The loop of a total function keeps everything outside `i .. i+rem` and applies it inside. -/
theorem loop_spec (f : Int → Int → Int → Option (Int × Int × Int)) (rem i : Nat) (c0 c1 c2 d0 d1 d2 : List Int)
    (h : loop f rem i (c0, c1, c2) = some (d0, d1, d2)) :
    (d0.length = c0.length ∧ d1.length = c1.length ∧ d2.length = c2.length) ∧
    (∀ k, (k < i ∨ i + rem ≤ k) → d0[k]? = c0[k]? ∧ d1[k]? = c1[k]? ∧ d2[k]? = c2[k]?) ∧
    (∀ k, i ≤ k → k < i + rem → ∃ x y z x' y' z', c0[k]? = some x ∧ c1[k]? = some y ∧ c2[k]? = some z ∧
      f x y z = some (x', y', z') ∧ d0[k]? = some x' ∧ d1[k]? = some y' ∧ d2[k]? = some z') := by
  induction rem generalizing i c0 c1 c2 with
  | zero =>
    simp only [loop, Option.some.injEq, Prod.mk.injEq] at h
    obtain ⟨rfl, rfl, rfl⟩ := h
    exact ⟨⟨rfl, rfl, rfl⟩, fun k _ => ⟨rfl, rfl, rfl⟩, fun k _ _ => by omega⟩
  | succ n ih =>
    simp only [loop, Option.bind_eq_some_iff] at h
    obtain ⟨x, hx, y, hy, z, hz, ⟨x', y', z'⟩, hf, h⟩ := h
    obtain ⟨⟨l0, l1, l2⟩, h1, h2⟩ := ih (i + 1) _ _ _ h
    simp only [List.length_set] at l0 l1 l2
    have ix := (List.getElem?_eq_some_iff.1 hx).1
    have iy := (List.getElem?_eq_some_iff.1 hy).1
    have iz := (List.getElem?_eq_some_iff.1 hz).1
    refine ⟨⟨l0, l1, l2⟩, fun k hk => ?_, fun k hk hk' => ?_⟩
    · have := h1 k (by omega)
      rw [List.getElem?_set_ne (by omega), List.getElem?_set_ne (by omega), List.getElem?_set_ne (by omega)] at this
      exact this
    · by_cases e : k = i
      · subst e
        have := h1 k (by omega)
        rw [List.getElem?_set_self ix, List.getElem?_set_self iy, List.getElem?_set_self iz] at this
        exact ⟨x, y, z, x', y', z', hx, hy, hz, hf, this⟩
      · obtain ⟨a, b, c, a', b', c', e1, e2, e3, e4⟩ := h2 k (by omega) (by omega)
        rw [List.getElem?_set_ne (by omega)] at e1 e2 e3
        exact ⟨a, b, c, a', b', c', e1, e2, e3, e4⟩

theorem loop_ok (f : Int → Int → Int → Option (Int × Int × Int)) (rem i : Nat) (c0 c1 c2 : List Int)
    (h : ∀ k, i ≤ k → k < i + rem → ∃ x y z r, c0[k]? = some x ∧ c1[k]? = some y ∧ c2[k]? = some z ∧
      f x y z = some r) : ∃ d, loop f rem i (c0, c1, c2) = some d := by
  induction rem generalizing i c0 c1 c2 with
  | zero => exact ⟨_, rfl⟩
  | succ n ih =>
    obtain ⟨x, y, z, ⟨x', y', z'⟩, h1, h2, h3, h4⟩ := h i (by omega) (by omega)
    obtain ⟨d, hd⟩ := ih (i + 1) (c0.set i x') (c1.set i y') (c2.set i z') (fun k hk hk' => by
      rw [List.getElem?_set_ne (by omega), List.getElem?_set_ne (by omega), List.getElem?_set_ne (by omega)]
      exact h k (by omega) (by omega))
    exact ⟨d, by simp only [loop, h1, h2, h3, h4, Option.bind_some, hd]⟩

/-! ## C27 -/

/-- **C27.** Both builds: on any three component buffers of at least `n` samples, each sample a signed
30-bit number, forward then inverse transform succeed (no overflow, no access outside the buffers) and
return the buffers unchanged. -/
theorem C27_rct_lossless (m : Mode) (n : Nat) (c0 c1 c2 : List Int)
    (h0 : n ≤ c0.length) (h1 : n ≤ c1.length) (h2 : n ≤ c2.length)
    (hs : ∀ x ∈ c0 ++ c1 ++ c2, -2 ^ 29 ≤ x ∧ x < 2 ^ 29) :
    ∃ y u v, encode m n c0 c1 c2 = some (y, u, v) ∧ decode m n y u v = some (c0, c1, c2) := by
  have hmem : ∀ (k : Nat) (x : Int), (c0[k]? = some x ∨ c1[k]? = some x ∨ c2[k]? = some x) → -2 ^ 29 ≤ x ∧ x < 2 ^ 29 := by
    intro k x h
    apply hs
    rcases h with h | h | h <;> have := List.mem_of_getElem? h <;> simp [this]
  obtain ⟨⟨y, u, v⟩, he⟩ := loop_ok (fwd m) n 0 c0 c1 c2 (fun k _ hk => by
    have a0 := List.getElem?_eq_getElem (show k < c0.length by omega)
    have a1 := List.getElem?_eq_getElem (show k < c1.length by omega)
    have a2 := List.getElem?_eq_getElem (show k < c2.length by omega)
    obtain ⟨y, u, v, hf, _⟩ := fwd_inv m _ _ _ (hmem k _ (.inl a0)) (hmem k _ (.inr (.inl a1))) (hmem k _ (.inr (.inr a2)))
    exact ⟨_, _, _, _, a0, a1, a2, hf⟩)
  obtain ⟨⟨ly, lu, lv⟩, e1, e2⟩ := loop_spec _ _ _ _ _ _ _ _ _ he
  refine ⟨y, u, v, he, ?_⟩
  have key : ∀ k, k < n → ∃ r g b y' u' v', c0[k]? = some r ∧ c1[k]? = some g ∧ c2[k]? = some b ∧
      y[k]? = some y' ∧ u[k]? = some u' ∧ v[k]? = some v' ∧ inv m y' u' v' = some (r, g, b) := by
    intro k hk
    obtain ⟨r, g, b, y', u', v', a1, a2, a3, a4, a5, a6, a7⟩ := e2 k (by omega) (by omega)
    obtain ⟨y2, u2, v2, b1, b2⟩ := fwd_inv m r g b (hmem k _ (.inl a1)) (hmem k _ (.inr (.inl a2))) (hmem k _ (.inr (.inr a3)))
    rw [a4] at b1
    simp only [Option.some.injEq, Prod.mk.injEq] at b1
    obtain ⟨rfl, rfl, rfl⟩ := b1
    exact ⟨r, g, b, _, _, _, a1, a2, a3, a5, a6, a7, b2⟩
  obtain ⟨⟨r, g, b⟩, hd⟩ := loop_ok (inv m) n 0 y u v (fun k _ hk => by
    obtain ⟨r, g, b, y', u', v', a1, a2, a3, a4, a5, a6, a7⟩ := key k (by omega)
    exact ⟨_, _, _, _, a4, a5, a6, a7⟩)
  obtain ⟨⟨lr, lg, lb⟩, f1, f2⟩ := loop_spec _ _ _ _ _ _ _ _ _ hd
  have fin : ∀ k : Nat, r[k]? = c0[k]? ∧ g[k]? = c1[k]? ∧ b[k]? = c2[k]? := by
    intro k
    by_cases hk : k < n
    · obtain ⟨r', g', b', y', u', v', a1, a2, a3, a4, a5, a6, a7⟩ := key k hk
      obtain ⟨x1, x2, x3, z1, z2, z3, c1, c2, c3, c4, c5, c6, c7⟩ := f2 k (by omega) (by omega)
      rw [a4] at c1; rw [a5] at c2; rw [a6] at c3
      simp only [Option.some.injEq] at c1 c2 c3
      subst c1; subst c2; subst c3
      rw [a7] at c4
      simp only [Option.some.injEq, Prod.mk.injEq] at c4
      obtain ⟨rfl, rfl, rfl⟩ := c4
      rw [a1, a2, a3, c5, c6, c7]; exact ⟨rfl, rfl, rfl⟩
    · have p := e1 k (by omega)
      have q := f1 k (by omega)
      exact ⟨q.1.trans p.1, q.2.1.trans p.2.1, q.2.2.trans p.2.2⟩
  unfold decode
  rw [hd]
  congr 2
  · exact List.ext_getElem? fun k => (fin k).1
  · congr 1
    · exact List.ext_getElem? fun k => (fin k).2.1
    · exact List.ext_getElem? fun k => (fin k).2.2

example : encode .checked 2 [-3, 7, 9] [100, -2 ^ 29] [0, 2 ^ 29 - 1] =
    some ([49, -134217727, 9], [-100, 1073741823], [-103, 536870919]) := by decide

/-- **C27.** 30 bits is the limit: one more and a build with overflow checks panics while a release
build silently returns other samples. -/
theorem C27_wide_samples_lost :
    encode .checked 1 [2 ^ 29] [2 ^ 29] [2 ^ 29] = none ∧
    (encode .wrapping 1 [2 ^ 29] [2 ^ 29] [2 ^ 29]).bind (fun r => decode .wrapping 1 r.1 r.2.1 r.2.2) ≠
      some ([2 ^ 29], [2 ^ 29], [2 ^ 29]) := by decide

/-- **C27.** The inverse transform of arbitrary coefficients (as a damaged stream yields) can overflow:
it panics in a build with overflow checks. In a release build it never does. -/
theorem C27_decode_overflow : decode .checked 1 [0] [2 ^ 30] [2 ^ 30] = none ∧
    ∀ (n : Nat) (c0 c1 c2 : List Int), n ≤ c0.length → n ≤ c1.length → n ≤ c2.length →
      ∃ d, decode .wrapping n c0 c1 c2 = some d := by
  refine ⟨by decide, fun n c0 c1 c2 h0 h1 h2 => loop_ok _ _ _ _ _ _ fun k _ hk => ?_⟩
  exact ⟨_, _, _, _, List.getElem?_eq_getElem (by omega), List.getElem?_eq_getElem (by omega),
    List.getElem?_eq_getElem (by omega), rfl⟩

/-! ## C41 -/

theorem get2_set2 {α : Type} (d d' : List (List α)) (j i : Nat) (v : α) (h : set2 d j i v = some d') (j' i' : Nat) :
    get2 d' j' i' = if j' = j ∧ i' = i then some v else get2 d j' i' := by
  simp only [set2, Option.bind_eq_some_iff] at h
  obtain ⟨c, hc, h⟩ := h
  split at h
  · rename_i hi
    simp only [Option.some.injEq] at h
    subst h
    have hj := (List.getElem?_eq_some_iff.1 hc).1
    unfold get2
    by_cases e : j' = j
    · subst e
      rw [List.getElem?_set_self hj, Option.bind_some, hc, Option.bind_some]
      by_cases e2 : i' = i
      · subst e2; rw [List.getElem?_set_self hi]; simp
      · rw [List.getElem?_set_ne (by omega)]; simp [e2]
    · rw [List.getElem?_set_ne (by omega)]; simp [e]
  · simp at h

theorem gather_spec {α : Type} (d : List (List α)) (i rem j : Nat) (cur : List α) (h : gather d i rem j = some cur) :
    ∀ k, k < rem → cur[k]? = get2 d (j + k) i ∧ (get2 d (j + k) i).isSome := by
  induction rem generalizing j cur with
  | zero => intro k hk; omega
  | succ n ih =>
    simp only [gather, Option.bind_eq_some_iff, Option.map_eq_some_iff] at h
    obtain ⟨v, hv, r, hr, rfl⟩ := h
    intro k hk
    cases k with
    | zero => simp [hv]
    | succ k =>
      have := ih (j + 1) r hr k (by omega)
      rw [List.getElem?_cons_succ, show j + (k + 1) = j + 1 + k by omega]
      exact this

theorem rows_spec {α : Type} (step : α → α → α → Option α) (zero : α) (mat cur : List α) (nb i rem j p : Nat)
    (d d' : List (List α)) (h : rows step zero mat cur nb i rem j p d = some d') :
    (∀ j' i', (i' ≠ i ∨ j' < j ∨ j + rem ≤ j') → get2 d' j' i' = get2 d j' i') ∧
    (∀ k, k < rem → ∃ v, dot step mat cur nb (p + k * nb) 0 zero = some v ∧ get2 d' (j + k) i = some v) := by
  induction rem generalizing j p d with
  | zero =>
    simp only [rows, Option.some.injEq] at h
    subst h
    exact ⟨fun _ _ _ => rfl, fun k hk => by omega⟩
  | succ n ih =>
    simp only [rows, Option.bind_eq_some_iff] at h
    obtain ⟨v, hv, e, he, h⟩ := h
    obtain ⟨h1, h2⟩ := ih (j + 1) (p + nb) e h
    refine ⟨fun j' i' hc => ?_, fun k hk => ?_⟩
    · rw [h1 j' i' (by omega), get2_set2 d e j i v he, if_neg (by omega)]
    · cases k with
      | zero =>
        refine ⟨v, by simpa using hv, ?_⟩
        rw [Nat.add_zero, h1 j i (by omega), get2_set2 d e j i v he]; simp
      | succ k =>
        obtain ⟨w, a, b⟩ := h2 k (by omega)
        refine ⟨w, ?_, ?_⟩
        · rw [← a]; congr 1; rw [Nat.succ_mul]; omega
        · rw [← b]; congr 1; omega

theorem pixels_spec {α : Type} (step : α → α → α → Option α) (zero : α) (mat : List α) (nb rem i : Nat)
    (d d' : List (List α)) (h : pixels step zero mat nb rem i d = some d') :
    (∀ j i', (nb ≤ j ∨ i' < i ∨ i + rem ≤ i') → get2 d' j i' = get2 d j i') ∧
    (∀ i', i ≤ i' → i' < i + rem → ∃ cur, gather d i' nb 0 = some cur ∧
      ∀ j, j < nb → ∃ v, dot step mat cur nb (j * nb) 0 zero = some v ∧ get2 d' j i' = some v) := by
  induction rem generalizing i d with
  | zero =>
    simp only [pixels, Option.some.injEq] at h
    subst h
    exact ⟨fun _ _ _ => rfl, fun k hk => by omega⟩
  | succ n ih =>
    simp only [pixels, Option.bind_eq_some_iff] at h
    obtain ⟨cur, hc, e, he, h⟩ := h
    obtain ⟨h1, h2⟩ := ih (i + 1) e h
    obtain ⟨r1, r2⟩ := rows_spec step zero mat cur nb i nb 0 0 d e he
    have gsame : ∀ i' rem j, i' ≠ i → gather e i' rem j = gather d i' rem j := by
      intro i' rem
      induction rem with
      | zero => intros; rfl
      | succ r ihr =>
        intro j hne
        simp only [gather, r1 j i' (.inl hne), ihr (j + 1) hne]
    refine ⟨fun j i' hcond => ?_, fun i' hi hi' => ?_⟩
    · rw [h1 j i' (by omega), r1 j i' (by omega)]
    · by_cases e0 : i' = i
      · subst e0
        refine ⟨cur, hc, fun j hj => ?_⟩
        obtain ⟨v, a, b⟩ := r2 j hj
        refine ⟨v, by simpa using a, ?_⟩
        rw [h1 j i' (by omega)]
        simpa using b
      · obtain ⟨c, g1, g2⟩ := h2 i' (by omega) (by omega)
        exact ⟨c, by rw [← gsame i' nb 0 e0]; exact g1, g2⟩

/-- Rounded fixed-point product with 13 fractional bits: `⌊a·x / 2^13 + 1/2⌋`. -/
def fixProd (a x : Int) : Int := (a * x + 2 ^ 12) / 2 ^ 13

/-- The scalar product of row `j` of the matrix with the samples of one pixel. -/
def rowSum (mat : Nat → Int) (px : Nat → Int) : Nat → Int
  | 0 => 0
  | k + 1 => rowSum mat px k + fixProd (mat k) (px k)

theorem fixMul_eq (a x t : Int) (h : fixMul a x = some t) : t = fixProd a x := by
  unfold fixMul at h
  simp only at h
  split at h
  · simp only [Option.some.injEq] at h
    rw [← h, Int.shiftRight_eq_div_pow]; rfl
  · simp at h

theorem dot_spec (mat cur : List Int) (px : Nat → Int) (nb rem p k : Nat) (acc v : Int) (hk : k + rem = nb)
    (hcur : ∀ k, k < nb → cur[k]? = some (px k))
    (h : dot (fun acc a x => (fixMul a x).bind fun t => ar .checked (acc + t)) mat cur rem p k acc = some v)
    (M : Nat → Int) (hM : ∀ q, q < rem → mat[p + q]? = some (M (k + q)))
    (hacc : acc = rowSum M px k) : v = rowSum M px nb := by
  induction rem generalizing p k acc with
  | zero => simp only [dot, Option.some.injEq] at h; rw [← h, hacc]; congr 1
  | succ n ih =>
    simp only [dot, Option.bind_eq_some_iff] at h
    obtain ⟨a, ha, x, hx, acc', ⟨t, ht, hs⟩, h⟩ := h
    obtain ⟨rfl, _⟩ := ar_checked _ _ hs
    have ha' := hM 0 (by omega)
    rw [Nat.add_zero, Nat.add_zero, ha] at ha'
    have hx' := hcur k (by omega)
    rw [hx] at hx'
    simp only [Option.some.injEq] at ha' hx'
    refine ih (p + 1) (k + 1) _ (by omega) h (fun q hq => ?_) ?_
    · have := hM (q + 1) (by omega)
      rw [show p + 1 + q = p + (q + 1) by omega, this]; congr 2; omega
    · rw [rowSum, fixMul_eq a x t ht, hacc, ha', hx']

/-- **C41.** Custom forward transform: whenever the build with overflow checks completes, sample `i` of
component `j` becomes the rounded product of row `j` of the matrix with the *original* samples of pixel
`i`, for every `i < n`, and nothing else changes. -/
theorem C41_custom_encode (mat : List Int) (n nb : Nat) (d d' : List (List Int))
    (M : Nat → Nat → Int) (hM : ∀ j k, j < nb → k < nb → mat[j * nb + k]? = some (M j k))
    (px : Nat → Nat → Int) (hpx : ∀ j i, j < nb → i < n → get2 d j i = some (px j i))
    (h : encodeCustom .checked mat n nb d = some d') :
    (∀ j i, j < nb → i < n → get2 d' j i = some (rowSum (M j) (fun k => px k i) nb)) ∧
    (∀ j i, (nb ≤ j ∨ n ≤ i) → get2 d' j i = get2 d j i) := by
  obtain ⟨h1, h2⟩ := pixels_spec _ _ _ _ _ _ _ _ h
  refine ⟨fun j i hj hi => ?_, fun j i hc => h1 j i (by omega)⟩
  obtain ⟨cur, hc, hv⟩ := h2 i (by omega) (by omega)
  obtain ⟨v, hdot, hget⟩ := hv j hj
  have hcur : ∀ k, k < nb → cur[k]? = some (px k i) := by
    intro k hk
    have := (gather_spec d i nb 0 cur hc k hk).1
    rw [this, Nat.zero_add, hpx k i hk hi]
  rw [hget, dot_spec mat cur (fun k => px k i) nb nb (j * nb) 0 0 v (by omega) hcur hdot (M j)
    (fun q hq => by rw [Nat.zero_add]; exact hM j q hj hq) rfl]

/-- The decoder's sum, in its evaluation order. -/
def rowSumF {α : Type} (add mul : α → α → α) (zero : α) (mat : Nat → α) (px : Nat → α) : Nat → α
  | 0 => zero
  | k + 1 => add (rowSumF add mul zero mat px k) (mul (mat k) (px k))

theorem dotF_spec {α : Type} (add mul : α → α → α) (zero : α) (mat cur : List α) (px : Nat → α) (nb rem p k : Nat)
    (acc v : α) (hk : k + rem = nb) (hcur : ∀ k, k < nb → cur[k]? = some (px k))
    (h : dot (fun acc a x => some (add acc (mul a x))) mat cur rem p k acc = some v)
    (M : Nat → α) (hM : ∀ q, q < rem → mat[p + q]? = some (M (k + q)))
    (hacc : acc = rowSumF add mul zero M px k) : v = rowSumF add mul zero M px nb := by
  induction rem generalizing p k acc with
  | zero => simp only [dot, Option.some.injEq] at h; rw [← h, hacc]; congr 1
  | succ n ih =>
    simp only [dot, Option.bind_eq_some_iff, Option.some.injEq] at h
    obtain ⟨a, ha, x, hx, acc', rfl, h⟩ := h
    have ha' := hM 0 (by omega)
    rw [Nat.add_zero, Nat.add_zero, ha] at ha'
    have hx' := hcur k (by omega)
    rw [hx] at hx'
    simp only [Option.some.injEq] at ha' hx'
    refine ih (p + 1) (k + 1) _ (by omega) h (fun q hq => ?_) ?_
    · have := hM (q + 1) (by omega)
      rw [show p + 1 + q = p + (q + 1) by omega, this]; congr 2; omega
    · rw [rowSumF, hacc, ha', hx']

/-- **C41.** Custom inverse transform, for any addition and multiplication (so for `f32` as computed):
whenever the buffers are large enough it succeeds, sample `i` of component `j` becomes the row sum over
the *original* samples of pixel `i`, and nothing else changes. -/
theorem C41_custom_decode {α : Type} (add mul : α → α → α) (zero : α) (mat : List α) (n nb : Nat)
    (d d' : List (List α))
    (M : Nat → Nat → α) (hM : ∀ j k, j < nb → k < nb → mat[j * nb + k]? = some (M j k))
    (px : Nat → Nat → α) (hpx : ∀ j i, j < nb → i < n → get2 d j i = some (px j i))
    (h : decodeCustom add mul zero mat n nb d = some d') :
    (∀ j i, j < nb → i < n → get2 d' j i = some (rowSumF add mul zero (M j) (fun k => px k i) nb)) ∧
    (∀ j i, (nb ≤ j ∨ n ≤ i) → get2 d' j i = get2 d j i) := by
  obtain ⟨h1, h2⟩ := pixels_spec _ _ _ _ _ _ _ _ h
  refine ⟨fun j i hj hi => ?_, fun j i hc => h1 j i (by omega)⟩
  obtain ⟨cur, hc, hv⟩ := h2 i (by omega) (by omega)
  obtain ⟨v, hdot, hget⟩ := hv j hj
  have hcur : ∀ k, k < nb → cur[k]? = some (px k i) := by
    intro k hk
    have := (gather_spec d i nb 0 cur hc k hk).1
    rw [this, Nat.zero_add, hpx k i hk hi]
  rw [hget, dotF_spec add mul zero mat cur (fun k => px k i) nb nb (j * nb) 0 zero v (by omega) hcur hdot (M j)
    (fun q hq => by rw [Nat.zero_add]; exact hM j q hj hq) rfl]

theorem dot_total {α : Type} (f : α → α → α → α) (mat cur : List α) (rem p k : Nat) (acc : α)
    (hc : k + rem ≤ cur.length) (hm : p + rem ≤ mat.length) :
    ∃ v, dot (fun acc a x => some (f acc a x)) mat cur rem p k acc = some v := by
  induction rem generalizing p k acc with
  | zero => exact ⟨_, rfl⟩
  | succ n ih =>
    obtain ⟨v, hv⟩ := ih (p + 1) (k + 1) (f acc (mat[p]'(by omega)) (cur[k]'(by omega))) (by omega) (by omega)
    exact ⟨v, by simp only [dot, List.getElem?_eq_getElem (show p < mat.length by omega),
      List.getElem?_eq_getElem (show k < cur.length by omega), Option.bind_some, hv]⟩

/-- **C41.** The inverse transform stays inside the buffers: it completes whenever the matrix has
`nb²` entries and each of the `nb` components at least `n` samples. -/
theorem C41_custom_decode_total {α : Type} (add mul : α → α → α) (zero : α) (mat : List α) (n nb : Nat)
    (d : List (List α)) (hm : nb * nb ≤ mat.length)
    (hpx : ∀ j i, j < nb → i < n → (get2 d j i).isSome) :
    ∃ d', decodeCustom add mul zero mat n nb d = some d' := by
  have hg : ∀ (rem j i : Nat) (d : List (List α)), (∀ j', j' < j + rem → (get2 d j' i).isSome) →
      ∃ cur, gather d i rem j = some cur ∧ cur.length = rem := by
    intro rem
    induction rem with
    | zero => intros; exact ⟨[], rfl, rfl⟩
    | succ r ih =>
      intro j i d h
      obtain ⟨c, h1, h2⟩ := ih (j + 1) i d (fun j' hj => h j' (by omega))
      obtain ⟨v, hv⟩ := Option.isSome_iff_exists.1 (h j (by omega))
      exact ⟨v :: c, by simp [gather, hv, h1], by simp [h2]⟩
  have hset : ∀ (d : List (List α)) (j i : Nat) (v : α), (get2 d j i).isSome → ∃ d', set2 d j i v = some d' := by
    intro d j i v h
    unfold get2 at h
    cases hc : d[j]? with
    | none => rw [hc] at h; simp at h
    | some c =>
      rw [hc, Option.bind_some] at h
      have : i < c.length := by
        by_contra hn
        rw [List.getElem?_eq_none (by omega)] at h; simp at h
      exact ⟨d.set j (c.set i v), by simp only [set2, hc, Option.bind_some, if_pos this]⟩
  have hrows : ∀ (rem j i : Nat) (cur : List α) (d : List (List α)), cur.length = nb → j + rem = nb →
      (∀ j' i', j' < nb → i' < n → (get2 d j' i').isSome) → i < n →
      ∃ d', rows (fun acc a x => some (add acc (mul a x))) zero mat cur nb i rem j (j * nb) d = some d' ∧
        ∀ j' i', j' < nb → i' < n → (get2 d' j' i').isSome := by
    intro rem
    induction rem with
    | zero => intro j i cur d _ _ h _; exact ⟨d, rfl, h⟩
    | succ r ih =>
      intro j i cur d hc hj h hi
      have hle : (j + 1) * nb ≤ nb * nb := Nat.mul_le_mul_right _ (by omega)
      rw [Nat.add_mul, Nat.one_mul] at hle
      obtain ⟨v, hv⟩ := dot_total (fun acc a x => add acc (mul a x)) mat cur nb (j * nb) 0 zero (by omega) (by omega)
      obtain ⟨e, he⟩ := hset d j i v (h j i (by omega) hi)
      obtain ⟨d', h1, h2⟩ := ih (j + 1) i cur e hc (by omega) (fun j' i' hj' hi' => by
        rw [get2_set2 d e j i v he]; split
        · rfl
        · exact h j' i' hj' hi') hi
      rw [Nat.add_mul, Nat.one_mul] at h1
      exact ⟨d', by simp only [rows, hv, he, Option.bind_some, h1], h2⟩
  have hpix : ∀ (rem i : Nat) (d : List (List α)), i + rem = n → (∀ j' i', j' < nb → i' < n → (get2 d j' i').isSome) →
      ∃ d', pixels (fun acc a x => some (add acc (mul a x))) zero mat nb rem i d = some d' := by
    intro rem
    induction rem with
    | zero => intros; exact ⟨_, rfl⟩
    | succ r ih =>
      intro i d hi h
      obtain ⟨cur, c1, c2⟩ := hg nb 0 i d (fun j' hj => h j' i (by omega) (by omega))
      obtain ⟨e, e1, e2⟩ := hrows nb 0 i cur d c2 (by omega) h (by omega)
      rw [Nat.zero_mul] at e1
      obtain ⟨d', h1⟩ := ih (i + 1) e (by omega) e2
      exact ⟨d', by simp only [pixels, c1, e1, Option.bind_some, h1]⟩
  exact hpix n 0 d (by omega) hpx

example : encodeCustom .checked [8192, 4096, -8192, 8192] 2 2 [[10, 20], [4, 6, 7]] =
    some [[12, 23], [-6, -14, 7]] := by decide
example : decodeCustom (· + ·) (· * ·) (0 : Int) [1, 2, 3, 4] 2 2 [[10, 20], [4, 6, 7]] =
    some [[18, 32], [46, 84, 7]] := by decide

end Jp2.Mct

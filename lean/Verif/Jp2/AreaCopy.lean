import Verif.Jp2.Area
import Verif.Jp2.TcdShape
import Verif.Jp2.SetupLemmas
/-!
# What `opj_j2k_update_image_data` does to a component

A tile-component that delivers the samples of a rectangle leaves them in the image, and leaves alone what lies outside.
-/
namespace Jp2.Area
open Jp2.Hdr (R Fail refuseIf)
open Jp2.Setup (u32)
open Jp2.Tcd (asI32 Rect)

/-! ## Rows -/

theorem flatMap_get {α : Type} (f : Nat → List α) (w : Nat) (hf : ∀ j, (f j).length = w) : ∀ (n : Nat),
    ((List.range n).flatMap f).length = n * w ∧
    ∀ j i, j < n → i < w → ((List.range n).flatMap f)[j * w + i]? = (f j)[i]?
  | 0 => ⟨by simp, fun j i h => by omega⟩
  | n + 1 => by
    obtain ⟨h1, h2⟩ := flatMap_get f w hf n
    have e : (List.range (n + 1)).flatMap f = (List.range n).flatMap f ++ f n := by
      rw [List.range_succ, List.flatMap_append]; simp
    refine ⟨by rw [e, List.length_append, h1, hf, Nat.succ_mul], ?_⟩
    intro j i hj hi
    rw [e]
    by_cases h : j < n
    · rw [List.getElem?_append_left]
      · exact h2 j i h hi
      · rw [h1]
        have : (j + 1) * w ≤ n * w := Nat.mul_le_mul_right w h
        rw [Nat.succ_mul] at this
        omega
    · obtain rfl : j = n := by omega
      rw [List.getElem?_append_right (by rw [h1]; omega), h1]
      congr 1
      omega

theorem render_get {P : Int → Int → Int} {r : Rect} :
    (render P r).length = (r.y1 - r.y0).toNat * (r.x1 - r.x0).toNat ∧
    ∀ j i : Nat, j < (r.y1 - r.y0).toNat → i < (r.x1 - r.x0).toNat →
      (render P r)[j * (r.x1 - r.x0).toNat + i]? = some (P (r.x0 + i) (r.y0 + j)) := by
  obtain ⟨h1, h2⟩ := flatMap_get (fun (j : Nat) => (List.range (r.x1 - r.x0).toNat).map fun (i : Nat) => P (r.x0 + i) (r.y0 + j))
    (r.x1 - r.x0).toNat (by simp) (r.y1 - r.y0).toNat
  refine ⟨h1, ?_⟩
  intro j i hj hi
  refine (h2 j i hj hi).trans ?_
  simp [hi]

theorem copyRow_ok {dst src : List (Option Int)} {o so n : Nat} (h : n = 0 ∨ (o + n ≤ dst.length ∧ so + n ≤ src.length)) :
    ∃ dst', copyRow dst o src so n = .ok dst' ∧ dst'.length = dst.length ∧
      (∀ i, i < n → dst'[o + i]? = src[so + i]?) ∧
      ∀ q, (∀ i, i < n → q ≠ o + i) → dst'[q]? = dst[q]? := by
  unfold copyRow
  by_cases hn : n = 0
  · rw [if_pos hn]
    exact ⟨dst, rfl, rfl, fun i hi => by omega, fun _ _ => rfl⟩
  · rw [if_neg hn]
    obtain ⟨h1, h2⟩ := h.resolve_left hn
    rw [if_pos ⟨h1, h2⟩]
    have l1 : (dst.take o).length = o := by rw [List.length_take]; omega
    have l2 : ((src.drop so).take n).length = n := by rw [List.length_take, List.length_drop]; omega
    refine ⟨_, rfl, ?_, ?_, ?_⟩
    · rw [List.length_append, List.length_append, l1, l2, List.length_drop]; omega
    · intro i hi
      rw [List.getElem?_append_left (by rw [List.length_append, l1, l2]; omega), List.getElem?_append_right (by rw [l1]; omega), l1,
        List.getElem?_take_of_lt (by omega), List.getElem?_drop]
      congr 1
      omega
    · intro q hq
      by_cases hqo : q < o
      · rw [List.getElem?_append_left (by rw [List.length_append, l1, l2]; omega), List.getElem?_append_left (by rw [l1]; exact hqo),
          List.getElem?_take_of_lt hqo]
      · have : o + n ≤ q := by
          by_contra hc
          exact hq (q - o) (by omega) (by omega)
        rw [List.getElem?_append_right (by rw [List.length_append, l1, l2]; omega), List.length_append, l1, l2, List.getElem?_drop]
        congr 1
        omega

theorem copyRows_ok {w stride n : Nat} {src : List (Option Int)} (hnw : n ≤ w) : ∀ (k : Nat) (dst : List (Option Int)) (o so : Nat),
    (∀ j, j < k → n = 0 ∨ (o + j * w + n ≤ dst.length ∧ so + j * stride + n ≤ src.length)) →
    ∃ dst', copyRows w stride n src k dst o so = .ok dst' ∧ dst'.length = dst.length ∧
      (∀ j i, j < k → i < n → dst'[o + j * w + i]? = src[so + j * stride + i]?) ∧
      ∀ q, (∀ j i, j < k → i < n → q ≠ o + j * w + i) → dst'[q]? = dst[q]?
  | 0, dst, o, so, _ => ⟨dst, rfl, rfl, fun j i h => by omega, fun _ _ => rfl⟩
  | k + 1, dst, o, so, h => by
    obtain ⟨d1, e1, l1, a1, b1⟩ := copyRow_ok (dst := dst) (src := src) (o := o) (so := so) (n := n) (by simpa using h 0 (by omega))
    obtain ⟨d2, e2, l2, a2, b2⟩ := copyRows_ok (w := w) (stride := stride) (n := n) (src := src) hnw k d1 (o + w) (so + stride) (by
      intro j hj
      have := h (j + 1) (by omega)
      rw [Nat.succ_mul, Nat.succ_mul] at this
      rw [l1]
      omega)
    refine ⟨d2, ?_, l2.trans l1, ?_, ?_⟩
    · unfold copyRows
      rw [e1]
      exact e2
    · intro j i hj hi
      cases j with
      | zero =>
        rw [Nat.zero_mul, Nat.zero_mul, Nat.add_zero, Nat.add_zero, ← a1 i hi]
        refine b2 _ ?_
        intro j' i' _ _
        have := Nat.zero_le (j' * w)
        omega
      | succ j =>
        rw [Nat.succ_mul, Nat.succ_mul]
        have := a2 j i (by omega) hi
        rw [show o + (j * w + w) + i = o + w + j * w + i by omega, show so + (j * stride + stride) + i = so + stride + j * stride + i by omega]
        exact this
    · intro q hq
      rw [b2 q, b1 q]
      · intro i hi
        have := hq 0 i (by omega) hi
        simpa using this
      · intro j i hj hi
        have := hq (j + 1) i (by omega) hi
        rw [Nat.succ_mul] at this
        omega

/-! ## Spans -/

theorem u32_nat (n : Nat) (h : n < 2 ^ 32) : u32 (n : Int) = n := by unfold u32; omega
theorem u32_of {x : Int} (h0 : 0 ≤ x) (h1 : x < 2 ^ 32) : u32 x = x.toNat := by unfold u32; omega

theorem sub_of {a b : Nat} (h : b ≤ a) (ha : a < 2 ^ 32) : sub a b = a - b := by unfold sub; omega

theorem i32_of {x : Int} (h0 : -2 ^ 31 ≤ x) (h1 : x < 2 ^ 31) : i32 x = .ok x := if_pos ⟨h0, h1⟩

theorem ok_bind {α β : Type} (a : α) (f : α → R β) : (Except.ok a >>= f) = f a := rfl

/-- The part common to the image and the tile along one axis. -/
theorem span_ok {d0 w : Nat} {r0 r1 : Int} (h0 : 0 ≤ r0) (h1 : r0 ≤ r1) (h2 : r1 < 2 ^ 31) (hd : d0 + w < 2 ^ 31) (hl : d0 ≤ r1)
    (hr : r0 ≤ (d0 + w : Nat)) :
    ∃ s : Span, span d0 w r0 r1 = .ok s ∧ 0 ≤ s.off ∧ 0 ≤ s.rest ∧ s.start + s.len ≤ w ∧ s.off.toNat + s.len ≤ (r1 - r0).toNat ∧
      (r0 + s.off.toNat : Int) = d0 + s.start ∧
      (∀ i : Nat, i < w → r0 ≤ d0 + i → (d0 + i : Int) < r1 → s.start ≤ i ∧ i < s.start + s.len) ∧ asI32 s.len = s.len := by
  obtain ⟨a, rfl⟩ : ∃ a : Nat, r0 = a := ⟨r0.toNat, by omega⟩
  obtain ⟨e, rfl⟩ : ∃ e : Nat, r1 = e := ⟨r1.toNat, by omega⟩
  unfold span
  rw [i32_of (by omega) (by omega), ok_bind, u32_nat a (by omega), u32_nat e (by omega), Nat.mod_eq_of_lt (by omega)]
  simp only
  rw [u32_of (x := (e : Int) - a) (by omega) (by omega)]
  split
  · split
    · refine ⟨_, rfl, ?_⟩
      simp only [sub_of (a := a) (b := d0) (by omega) (by omega)]
      refine ⟨by omega, by omega, by omega, by omega, by omega, ?_, Tcd.asI32_ok (by omega)⟩
      intro i hi hi1 hi2
      omega
    · refine ⟨_, rfl, ?_⟩
      simp only [sub_of (a := a) (b := d0) (by omega) (by omega), sub_of (a := d0 + w) (b := a) (by omega) (by omega)]
      rw [sub_of (by omega) (by omega), Tcd.asI32_ok (by omega), Tcd.asI32_ok (by omega)]
      refine ⟨by omega, by omega, by omega, by omega, by omega, ?_, rfl⟩
      intro i hi hi1 hi2
      omega
  · rw [Tcd.asI32_ok (n := d0) (by omega), i32_of (by omega) (by omega)]
    simp only [ok_bind]
    split
    · refine ⟨_, rfl, ?_⟩
      rw [u32_of (x := (d0 : Int) - a) (by omega) (by omega)]
      simp only
      rw [sub_of (by omega) (by omega)]
      refine ⟨by omega, by omega, by omega, by omega, by omega, ?_, Tcd.asI32_ok (by omega)⟩
      intro i hi hi1 hi2
      omega
    · rw [Tcd.asI32_ok (n := d0 + w) (by omega), i32_of (by omega) (by omega)]
      refine ⟨_, rfl, ?_⟩
      simp only
      refine ⟨by omega, by omega, by omega, by omega, by omega, ?_, Tcd.asI32_ok (by omega)⟩
      intro i hi hi1 hi2
      omega

/-! ## A component -/

/-- `(X0, Y0)` is the first sample of the component in the image. -/
structure Place (c : Comp) (X0 Y0 : Nat) : Prop where
  x : Math.uintCeildivpow2 c.x0 c.factor = some X0
  y : Math.uintCeildivpow2 c.y0 c.factor = some Y0
  w : X0 + c.w < 2 ^ 31
  h : Y0 + c.h < 2 ^ 31

/-- Where `S` holds the component has the samples of the plane. -/
structure Filled (P : Int → Int → Int) (X0 Y0 : Nat) (c : Comp) (S : Int → Int → Prop) : Prop where
  vals : ∀ dst, c.data = some dst → c.w * c.h ≤ dst.length ∧
    ∀ i j, i < c.w → j < c.h → S (X0 + i) (Y0 + j) → dst[j * c.w + i]? = some (some (P (X0 + i) (Y0 + j)))
  some : ∀ i j, i < c.w → j < c.h → S (X0 + i) (Y0 + j) → c.data ≠ none

/-- A tile-component that delivers the samples of its rectangle, which touches the image. -/
structure Delivers (P : Int → Int → Int) (X0 Y0 : Nat) (c : Comp) (s : Src) : Prop where
  ok : Tcd.RectOk s.rect
  stride : s.stride = (s.rect.x1 - s.rect.x0).toNat
  data : ∃ kept, s.data = buffer P s.rect kept
  l : (X0 : Int) ≤ s.rect.x1
  r : s.rect.x0 ≤ (X0 + c.w : Nat)
  t : (Y0 : Int) ≤ s.rect.y1
  b : s.rect.y0 ≤ (Y0 + c.h : Nat)

theorem idx_inj {w a b j k : Nat} (ha : a < w) (hb : b < w) (h : j * w + a = k * w + b) : j = k ∧ a = b := by
  have h1 : (j * w + a) / w = j := by rw [Nat.mul_comm, Nat.mul_add_div (by omega), Nat.div_eq_of_lt ha]; rfl
  have h2 : (k * w + b) / w = k := by rw [Nat.mul_comm, Nat.mul_add_div (by omega), Nat.div_eq_of_lt hb]; rfl
  have : j = k := by rw [← h1, ← h2, h]
  subst this
  exact ⟨rfl, by omega⟩

theorem buffer_get {P : Int → Int → Int} {r : Rect} {kept : List Int} {src : List (Option Int)} (h : buffer P r kept = some src) :
    (r.y1 - r.y0).toNat * (r.x1 - r.x0).toNat ≤ src.length ∧
    ∀ j i : Nat, j < (r.y1 - r.y0).toNat → i < (r.x1 - r.x0).toNat →
      src[j * (r.x1 - r.x0).toNat + i]? = some (some (P (r.x0 + i) (r.y0 + j))) := by
  obtain ⟨h1, h2⟩ := render_get (P := P) (r := r)
  unfold buffer at h
  split at h
  · simp at h
  · have e := Option.some.inj h
    subst e
    refine ⟨by rw [List.length_map, List.length_append, h1]; omega, ?_⟩
    intro j i hj hi
    rw [List.getElem?_map, List.getElem?_append_left, h2 j i hj hi]
    · rfl
    · rw [h1]
      have : (j + 1) * (r.x1 - r.x0).toNat ≤ (r.y1 - r.y0).toNat * (r.x1 - r.x0).toNat := Nat.mul_le_mul_right _ hj
      rw [Nat.succ_mul] at this
      omega

theorem buffer_none {P : Int → Int → Int} {r : Rect} {kept : List Int} (h : buffer P r kept = none) (u v : Int) : ¬ r.has u v := by
  obtain ⟨h1, -⟩ := render_get (P := P) (r := r)
  unfold buffer at h
  split at h
  · rename_i he
    have : (render P r).length = 0 := by
      rw [List.append_eq_nil_iff] at he
      rw [he.1]; rfl
    rintro ⟨a, b, c, d⟩
    rw [h1, Nat.mul_eq_zero] at this
    omega
  · simp at h

/-- **Copying.** What the tile delivers is in the image afterwards, and what was there stays. -/
theorem copyComp_ok {P : Int → Int → Int} {X0 Y0 : Nat} {c : Comp} {s : Src} {S : Int → Int → Prop} (hp : Place c X0 Y0)
    (hs : Delivers P X0 Y0 c s) (hw : 0 < c.w) (hh : 0 < c.h) (hf : Filled P X0 Y0 c S) :
    ∃ c', copyComp c s = .ok c' ∧ c' = { c with data := c'.data } ∧ Filled P X0 Y0 c' (fun u v => S u v ∨ s.rect.has u v) := by
  obtain ⟨kept, hk⟩ := hs.data
  have ro := hs.ok
  unfold copyComp
  cases hd : s.data with
  | none =>
    refine ⟨c, rfl, rfl, ?_, ?_⟩
    · intro dst hdst
      refine ⟨(hf.vals dst hdst).1, fun i j hi hj h => (hf.vals dst hdst).2 i j hi hj ?_⟩
      exact h.resolve_right (buffer_none (hk.symm.trans hd) _ _)
    · intro i j hi hj h
      exact hf.some i j hi hj (h.resolve_right (buffer_none (hk.symm.trans hd) _ _))
  | some src =>
    obtain ⟨bl, bv⟩ := buffer_get (hk.symm.trans hd)
    obtain ⟨x, ex, x1, x2, x3, x4, x5, x6, x7⟩ := span_ok ro.x0 ro.x ro.x1 hp.w hs.l hs.r
    obtain ⟨y, ey, y1, y2, y3, y4, y5, y6, y7⟩ := span_ok ro.y0 ro.y ro.y1 hp.h hs.t hs.b
    have r0 := ro.x0
    have r1 := ro.x
    have hlen : ¬ (asI32 x.len < 0 ∨ asI32 y.len < 0) := by
      rw [x7, y7, not_or]
      exact ⟨not_lt.2 (Int.natCast_nonneg _), not_lt.2 (Int.natCast_nonneg _)⟩
    clear x7 y7
    simp only
    rw [hp.x, hp.y]
    simp only [opt, ok_bind]
    rw [if_neg (by omega), ex, ok_bind, ey, ok_bind, Hdr.refuse_bind (by omega), Hdr.refuse_bind hlen]
    clear hlen
    -- positions
    have key : ∀ i j : Nat, i < c.w → j < c.h → s.rect.has (X0 + i) (Y0 + j) → ∃ i' j' : Nat, i' < x.len ∧ j' < y.len ∧ i = x.start + i' ∧ j = y.start + j' ∧
        src[x.off.toNat + y.off.toNat * s.stride + j' * s.stride + i']? = some (some (P (X0 + i) (Y0 + j))) := by
      rintro i j hi hj ⟨a1, a2, a3, a4⟩
      obtain ⟨b1, b2⟩ := x6 i hi a1 a2
      obtain ⟨b3, b4⟩ := y6 j hj a3 a4
      refine ⟨i - x.start, j - y.start, by omega, by omega, by omega, by omega, ?_⟩
      have := bv (y.off.toNat + (j - y.start)) (x.off.toNat + (i - x.start)) (by omega) (by omega)
      rw [← hs.stride] at this
      rw [show x.off.toNat + y.off.toNat * s.stride + (j - y.start) * s.stride + (i - x.start) = (y.off.toNat + (j - y.start)) * s.stride + (x.off.toNat + (i - x.start)) by rw [Nat.add_mul]; omega,
        this, show s.rect.x0 + ((x.off.toNat + (i - x.start) : Nat) : Int) = X0 + i by push_cast; omega,
        show s.rect.y0 + ((y.off.toNat + (j - y.start) : Nat) : Int) = Y0 + j by push_cast; omega]
    have bnd : ∀ dst : List (Option Int), c.w * c.h ≤ dst.length → ∀ j, j < y.len → x.len = 0 ∨ (x.start + y.start * c.w + j * c.w + x.len ≤ dst.length ∧
        x.off.toNat + y.off.toNat * s.stride + j * s.stride + x.len ≤ src.length) := by
      intro dst hdst j hj
      right
      constructor
      · have : (y.start + j + 1) * c.w ≤ c.h * c.w := Nat.mul_le_mul_right _ (by omega)
        rw [Nat.add_mul, Nat.add_mul, Nat.mul_comm c.h] at this
        omega
      · have : (y.off.toNat + j + 1) * s.stride ≤ (s.rect.y1 - s.rect.y0).toNat * s.stride := Nat.mul_le_mul_right _ (by omega)
        rw [Nat.add_mul, Nat.add_mul] at this
        rw [← hs.stride] at bl
        have := hs.stride
        omega
    have fin : ∀ dst : List (Option Int), c.w * c.h ≤ dst.length →
        (∀ i j, i < c.w → j < c.h → S (X0 + i) (Y0 + j) → dst[j * c.w + i]? = some (some (P (X0 + i) (Y0 + j))) ∨ s.rect.has (X0 + i) (Y0 + j)) →
        ∃ dst', copyRows c.w s.stride x.len src y.len dst (x.start + y.start * c.w) (x.off.toNat + y.off.toNat * s.stride) = .ok dst' ∧
          Filled P X0 Y0 { c with data := some dst' } (fun u v => S u v ∨ s.rect.has u v) := by
      intro dst hdst hold
      obtain ⟨dst', e, l, a, b⟩ := copyRows_ok (w := c.w) (stride := s.stride) (n := x.len) (src := src) (by omega) y.len dst
        (x.start + y.start * c.w) (x.off.toNat + y.off.toNat * s.stride) (bnd dst hdst)
      refine ⟨dst', e, ?_, ?_⟩
      · intro d' hd'
        have e' : dst' = d' := Option.some.inj hd'
        subst e'
        refine ⟨by rw [l]; exact hdst, ?_⟩
        intro i j hi hj h
        change dst'[j * c.w + i]? = _
        by_cases hin : s.rect.has (X0 + i) (Y0 + j)
        · obtain ⟨i', j', k1, k2, k3, k4, k5⟩ := key i j hi hj hin
          have := a j' i' k2 k1
          rw [show j * c.w + i = x.start + y.start * c.w + j' * c.w + i' by rw [k3, k4, Nat.add_mul]; omega, this, k5]
        · have hS := h.resolve_right hin
          rw [b, (hold i j hi hj hS).resolve_right hin]
          intro j' i' hj' hi' he
          apply hin
          have he' : j * c.w + i = (y.start + j') * c.w + (x.start + i') := by rw [he, Nat.add_mul]; omega
          obtain ⟨k1, k2⟩ := idx_inj (w := c.w) (a := i) (b := x.start + i') hi (by omega) he'
          refine ⟨?_, ?_, ?_, ?_⟩ <;> omega
      · intro i j _ _ _
        simp
    cases hcd : c.data with
    | some dst =>
      obtain ⟨v1, v2⟩ := hf.vals dst hcd
      obtain ⟨dst', e, F⟩ := fin dst v1 (fun i j hi hj h => Or.inl (v2 i j hi hj h))
      refine ⟨{ c with data := some dst' }, ?_, rfl, F⟩
      simp only
      rw [e]
      rfl
    | none =>
      have noS : ∀ i j, i < c.w → j < c.h → ¬ S (X0 + i) (Y0 + j) := fun i j hi hj h => hf.some i j hi hj h hcd
      simp only
      by_cases hb : x.off.toNat + y.off.toNat * s.stride = 0 ∧ x.start + y.start * c.w = 0 ∧ s.stride = c.w ∧ x.len = c.w ∧ y.len = c.h
      · rw [if_pos hb]
        refine ⟨{ c with data := some src }, rfl, rfl, ?_, fun i j _ _ _ => by simp⟩
        obtain ⟨b1, b2, b3, b4, b5⟩ := hb
        have b6 : y.start = 0 := by
          rcases Nat.mul_eq_zero.1 (by omega : y.start * c.w = 0) with h | h
          · exact h
          · omega
        have b7 : y.off.toNat = 0 := by
          rcases Nat.mul_eq_zero.1 (by omega : y.off.toNat * s.stride = 0) with h | h
          · exact h
          · omega
        intro d' hd'
        have e' : src = d' := Option.some.inj hd'
        subst e'
        constructor
        · have : c.h * c.w ≤ (s.rect.y1 - s.rect.y0).toNat * (s.rect.x1 - s.rect.x0).toNat := by
            rw [← hs.stride, b3]
            exact Nat.mul_le_mul_right _ (by omega)
          rw [Nat.mul_comm] at this
          exact le_trans this bl
        · intro i j hi hj h
          have hin := h.resolve_left (noS i j hi hj)
          obtain ⟨i', j', k1, k2, k3, k4, k5⟩ := key i j hi hj hin
          rw [b3] at k5
          change src[j * c.w + i]? = _
          rw [← k5, show j * c.w + i = x.off.toNat + y.off.toNat * c.w + j' * c.w + i' by
            have : j = j' := by omega
            subst this
            have : y.off.toNat * c.w = 0 := by rw [b7, Nat.zero_mul]
            omega]
      · rw [if_neg hb, Hdr.refuse_bind (by omega), Hdr.refuse_bind (by rw [Nat.mul_eq_zero]; omega)]
        obtain ⟨dst', e, F⟩ := fin (List.replicate (c.w * c.h) (if c.w ≠ x.len ∨ c.h ≠ y.len then some 0 else none)) (by simp)
          (fun i j hi hj h => absurd h (noS i j hi hj))
        refine ⟨{ c with data := some dst' }, ?_, rfl, F⟩
        rw [e]
        rfl

end Jp2.Area

import Verif.Jp2.T1Round
/-!
# The order in which the encoder is handed the samples of a block
-/
namespace Jp2.T1

theorem flatMap_len {α : Type} {k : Nat} {f : Nat → List α} (hf : ∀ i, (f i).length = k) : ∀ n, ((List.range n).flatMap f).length = n * k := by
  intro n
  induction n with
  | zero => simp
  | succ n ih => rw [List.range_succ, List.flatMap_append, List.length_append, ih, List.flatMap_singleton, hf, Nat.add_mul, Nat.one_mul]

theorem flatMap_get {α : Type} {k : Nat} {f : Nat → List α} (hf : ∀ i, (f i).length = k) : ∀ n i j, i < n → j < k →
    ((List.range n).flatMap f)[i * k + j]? = (f i)[j]? := by
  intro n
  induction n with
  | zero => intro i j hi; omega
  | succ n ih =>
    intro i j hi hj
    rw [List.range_succ, List.flatMap_append, List.flatMap_singleton]
    have hl := flatMap_len hf n
    rcases Nat.lt_or_ge i n with h | h
    · have : (i + 1) * k ≤ n * k := Nat.mul_le_mul_right _ h
      rw [Nat.add_mul] at this
      rw [List.getElem?_append_left (by rw [hl]; omega)]
      exact ih i j h hj
    · have : i = n := by omega
      subst this
      rw [List.getElem?_append_right (by rw [hl]; omega), hl, Nat.add_sub_cancel_left]

theorem order_len (w h : Nat) (px : Nat → Nat → Int) : (stripeOrder w h px).length = w * h := by
  unfold stripeOrder
  rw [List.length_append, flatMap_len (k := w * 4) (fun i => by rw [flatMap_len (k := 4) (fun j => by simp)]), flatMap_len (k := h % 4) (fun j => by simp)]
  conv_rhs => rw [← Nat.div_add_mod h 4, Nat.mul_add]
  rw [Nat.mul_comm (h / 4), Nat.mul_assoc]

theorem order_get {w h y x : Nat} (px : Nat → Nat → Int) (hy : y < h) (hx : x < w) : (stripeOrder w h px)[eidx w h y x]? = some (px y x) := by
  unfold stripeOrder eidx
  have hl1 : ((List.range (h / 4)).flatMap fun k => (List.range w).flatMap fun x => (List.range 4).map fun j => px (4 * k + j) x).length = h / 4 * (w * 4) :=
    flatMap_len (k := w * 4) (fun i => by rw [flatMap_len (k := 4) (fun j => by simp)]) _
  split
  · rename_i hl
    have hin : 4 * x + y % 4 < w * 4 := by omega
    have hb : (y / 4 + 1) * (w * 4) ≤ h / 4 * (w * 4) := Nat.mul_le_mul_right _ hl
    rw [Nat.add_mul] at hb
    rw [Nat.mul_comm 4 w, Nat.add_assoc, List.getElem?_append_left (by rw [hl1]; omega),
      flatMap_get (k := w * 4) (fun i => by rw [flatMap_len (k := 4) (fun j => by simp)]) _ _ _ hl hin]
    rw [Nat.mul_comm 4 x, flatMap_get (k := 4) (fun j => by simp) _ _ _ hx (by omega)]
    rw [List.getElem?_map, List.getElem?_range (by omega)]
    simp only [Option.map_some]
    rw [Nat.div_add_mod]
  · rename_i hl
    have he : y / 4 = h / 4 := by omega
    rw [Nat.mul_comm 4 w, Nat.add_assoc, List.getElem?_append_right (by rw [hl1]; omega), hl1, Nat.add_sub_cancel_left, Nat.mul_comm (h % 4) x,
      flatMap_get (k := h % 4) (fun j => by simp) _ _ _ hx (by omega)]
    rw [List.getElem?_map, List.getElem?_range (by omega)]
    simp only [Option.map_some]
    rw [← he, show y / 4 * 4 + y % 4 = y by omega]

theorem mem_order {w h : Nat} {px : Nat → Nat → Int} {v : Int} (hv : v ∈ stripeOrder w h px) : ∃ y x, y < h ∧ x < w ∧ v = px y x := by
  unfold stripeOrder at hv
  rcases List.mem_append.mp hv with hv | hv
  · simp only [List.mem_flatMap, List.mem_map, List.mem_range] at hv
    obtain ⟨k, hk, x, hx, j, hj, e⟩ := hv
    exact ⟨4 * k + j, x, by omega, hx, e.symm⟩
  · simp only [List.mem_flatMap, List.mem_map, List.mem_range] at hv
    obtain ⟨x, hx, j, hj, e⟩ := hv
    exact ⟨h / 4 * 4 + j, x, by omega, hx, e.symm⟩

end Jp2.T1

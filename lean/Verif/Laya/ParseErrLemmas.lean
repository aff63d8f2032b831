import Verif.Laya.ParseLemmas
/-! Helper lemmas: which error a rejected region yields. -/
namespace Laya

section
variable {T : Type} (parse : Str → Option T) (validate : T → Nat → Except ParseError T) (input : Str)

def Good (i : Nat) (t : Str) : Prop := ∃ v0 v, parse t = some v0 ∧ validate v0 i = .ok v

theorem loop_bad (pre : List Str) (t : Str) (rest : List Str) (todo idx : Nat) (e : ParseError)
    (hg : ∀ j (h : j < pre.length), Good parse validate (idx + j) pre[j]) (hl : pre.length < todo)
    (hb : (parse t = none ∧ e = .regionSelectorUnparsable t (idx + pre.length)) ∨
      (∃ v, parse t = some v ∧ validate v (idx + pre.length) = .error e)) :
    selectorLoop parse validate input todo idx (pre ++ t :: rest) = .error e := by
  induction pre generalizing todo idx with
  | nil =>
    obtain ⟨n, rfl⟩ : ∃ n, todo = n + 1 := ⟨todo - 1, by simp at hl; omega⟩
    simp only [List.nil_append, selectorLoop, List.length_nil, Nat.add_zero] at hb ⊢
    rcases hb with ⟨h1, h2⟩ | ⟨v, h1, h2⟩
    · rw [h1, h2]
    · simp only [h1, h2]
  | cons a pre ih =>
    obtain ⟨n, rfl⟩ : ∃ n, todo = n + 1 := ⟨todo - 1, by simp at hl; omega⟩
    obtain ⟨v0, v, h1, h2⟩ := hg 0 (by simp)
    simp only [List.getElem_cons_zero, Nat.add_zero] at h1 h2
    simp only [List.cons_append, selectorLoop, h1, h2]
    rw [ih n (idx + 1) (fun j h => by
      have := hg (j + 1) (by simp; omega)
      simp only [List.getElem_cons_succ] at this
      rw [Nat.add_right_comm]; exact this) (by simp at hl; omega)
      (by simp only [List.length_cons] at hb; rw [show idx + 1 + pre.length = idx + (pre.length + 1) by omega]; exact hb)]

theorem loop_short (pre : List Str) (todo idx : Nat)
    (hg : ∀ j (h : j < pre.length), Good parse validate (idx + j) pre[j]) (hl : pre.length < todo) :
    selectorLoop parse validate input todo idx pre = .error (.regionSelectorCount input) := by
  induction pre generalizing todo idx with
  | nil =>
    obtain ⟨n, rfl⟩ : ∃ n, todo = n + 1 := ⟨todo - 1, by simp at hl; omega⟩
    simp [selectorLoop]
  | cons a pre ih =>
    obtain ⟨n, rfl⟩ : ∃ n, todo = n + 1 := ⟨todo - 1, by simp at hl; omega⟩
    obtain ⟨v0, v, h1, h2⟩ := hg 0 (by simp)
    simp only [List.getElem_cons_zero, Nat.add_zero] at h1 h2
    simp only [selectorLoop, h1, h2]
    rw [ih n (idx + 1) (fun j h => by
      have := hg (j + 1) (by simp; omega)
      simp only [List.getElem_cons_succ] at this
      rw [Nat.add_right_comm]; exact this) (by simp at hl; omega)]

theorem loop_rest (pre rest : List Str) (todo idx : Nat)
    (hg : ∀ j (h : j < pre.length), Good parse validate (idx + j) pre[j]) (hl : pre.length = todo) :
    ∃ vs, selectorLoop parse validate input todo idx (pre ++ rest) = .ok (vs, rest) := by
  induction pre generalizing todo idx with
  | nil => subst hl; exact ⟨[], by simp [selectorLoop]⟩
  | cons a pre ih =>
    obtain ⟨n, rfl⟩ : ∃ n, todo = n + 1 := ⟨todo - 1, by simp at hl; omega⟩
    obtain ⟨v0, v, h1, h2⟩ := hg 0 (by simp)
    simp only [List.getElem_cons_zero, Nat.add_zero] at h1 h2
    obtain ⟨vs, hvs⟩ := ih n (idx + 1) (fun j h => by
      have := hg (j + 1) (by simp; omega)
      simp only [List.getElem_cons_succ] at this
      rw [Nat.add_right_comm]; exact this) (by simp at hl; omega)
    exact ⟨v :: vs, by simp only [List.cons_append, selectorLoop, h1, h2, hvs]⟩

theorem selectors_bad (pieces : List Str) (hs : split ',' input = pieces) (i : Nat) (hi : i < 4)
    (t : Str) (ht : pieces[i]? = some t)
    (hg : ∀ j u, j < i → pieces[j]? = some u → Good parse validate j u) (e : ParseError)
    (hb : (parse t = none ∧ e = .regionSelectorUnparsable t i) ∨
      (∃ v, parse t = some v ∧ validate v i = .error e)) :
    parseRegionSelectors parse validate input = .error e := by
  obtain ⟨hlt, hti⟩ := List.getElem?_eq_some_iff.1 ht
  have hlen : (pieces.take i).length = i := by simp; omega
  have hp : pieces = pieces.take i ++ t :: pieces.drop (i + 1) := by
    rw [← hti, List.getElem_cons_drop, List.take_append_drop]
  have := loop_bad parse validate input (pieces.take i) t (pieces.drop (i + 1)) 4 0 e
    (fun j h => by
      rw [Nat.zero_add]
      have hj : j < i := by omega
      refine hg j _ hj ?_
      rw [List.getElem_take, List.getElem?_eq_getElem]) (by omega)
    (by rw [Nat.zero_add, hlen]; exact hb)
  rw [← hp] at this
  unfold parseRegionSelectors
  rw [hs, this]

theorem selectors_count (pieces : List Str) (hs : split ',' input = pieces)
    (hg : ∀ j u, j < 4 → pieces[j]? = some u → Good parse validate j u) (hl : pieces.length ≠ 4) :
    parseRegionSelectors parse validate input = .error (.regionSelectorCount input) := by
  unfold parseRegionSelectors
  rw [hs]
  rcases Nat.lt_or_gt_of_ne hl with h | h
  · rw [loop_short parse validate input pieces 4 0 (fun j hj => by
      rw [Nat.zero_add]; exact hg j _ (by omega) (List.getElem?_eq_getElem hj)) h]
  · obtain ⟨vs, hvs⟩ := loop_rest parse validate input (pieces.take 4) (pieces.drop 4) 4 0
      (fun j hj => by
        rw [Nat.zero_add]
        simp only [List.length_take] at hj
        refine hg j _ (by omega) ?_
        rw [List.getElem_take, List.getElem?_eq_getElem]) (by simp; omega)
    rw [List.take_append_drop] at hvs
    rw [hvs]
    cases hd : pieces.drop 4 with
    | nil => simp at hd; omega
    | cons a b => rfl

end

end Laya

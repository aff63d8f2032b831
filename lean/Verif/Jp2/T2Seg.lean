import Verif.Jp2.T2Spec
import Verif.Jp2.MathProps
import Verif.Jp2.TgtProps
/-!
# Codeword segments: how passes group, on the encoder's and on the decoder's side
-/
namespace Jp2.T2
open Jp2.Bio Jp2.Tgt
open T1 (segsOf)

theorem ok_bind {α β : Type} (a : α) (f : α → Except Err β) : (Except.ok a >>= f) = f a := rfl
theorem err_bind {α β : Type} (e : Err) (f : α → Except Err β) : ((Except.error e : Except Err α) >>= f) = .error e := rfl
theorem ofOpt_some {α : Type} (a : α) : ofOpt (some a) = .ok a := rfl

/-! ## `segsOf` -/

theorem segsOf_ne (ps : List T1.Pass) (h : ps ≠ []) (l k : Nat) : segsOf l k ps ≠ [] := by
  induction ps generalizing l k with
  | nil => exact absurd rfl h
  | cons p ps ih =>
    rw [segsOf]
    split
    · simp
    · cases ps with
      | nil => rw [segsOf, if_neg (by omega)]; simp
      | cons q ps => exact ih (by simp) _ _

theorem segsOf_shift_aux (ps : List T1.Pass) (h : ps ≠ []) (a b : Nat) :
    ∃ a' b' G, segsOf a b ps = (a', b') :: G ∧ ∀ l k, segsOf (l + a) (k + b) ps = (l + a', k + b') :: G := by
  induction ps generalizing a b with
  | nil => exact absurd rfl h
  | cons p ps ih =>
    cases hp : p.term with
    | true =>
      exact ⟨a + p.len, b + 1, segsOf 0 0 ps, by rw [segsOf, if_pos hp], fun l k => by
        rw [segsOf, if_pos hp, Nat.add_assoc, Nat.add_assoc]⟩
    | false =>
      cases ps with
      | nil =>
        refine ⟨a + p.len, b + 1, [], by rw [segsOf, if_neg (by simp [hp]), segsOf, if_neg (by omega)], fun l k => ?_⟩
        rw [segsOf, if_neg (by simp [hp]), segsOf, if_neg (by omega), Nat.add_assoc, Nat.add_assoc]
      | cons q ps =>
        obtain ⟨a', b', G, h1, h2⟩ := ih (by simp) (a + p.len) (b + 1)
        refine ⟨a', b', G, by rw [segsOf, if_neg (by simp [hp]), h1], fun l k => ?_⟩
        rw [segsOf, if_neg (by simp [hp]), Nat.add_assoc, Nat.add_assoc, h2]

theorem segsOf_shift (ps : List T1.Pass) (h : ps ≠ []) :
    ∃ a' b' G, segsOf 0 0 ps = (a', b') :: G ∧ ∀ l k, segsOf l k ps = (l + a', k + b') :: G := by
  obtain ⟨a', b', G, h1, h2⟩ := segsOf_shift_aux ps h 0 0
  exact ⟨a', b', G, h1, fun l k => by rw [← h2]; simp⟩

theorem segsOf_append_term (qs ps : List T1.Pass) (h : qs ≠ []) (ht : (qs.getLast h).term = true) (l k : Nat) :
    segsOf l k (qs ++ ps) = segsOf l k qs ++ segsOf 0 0 ps := by
  induction qs generalizing l k with
  | nil => exact absurd rfl h
  | cons q qs ih =>
    cases qs with
    | nil =>
      have : q.term = true := ht
      rw [List.cons_append, List.nil_append, segsOf, if_pos this, segsOf, if_pos this]; rfl
    | cons r qs =>
      have ht : ((r :: qs).getLast (by simp)).term = true := ht
      rw [List.cons_append, segsOf]
      conv_rhs => rw [segsOf]
      split
      · rw [ih (by simp) ht]; rfl
      · rw [ih (by simp) ht]

theorem segsOf_append_open (qs ps : List T1.Pass) (h : qs ≠ []) (ht : (qs.getLast h).term = false) (l k : Nat) :
    ∃ F l' k', segsOf l k qs = F ++ [(l', k')] ∧ 0 < k' ∧ segsOf l k (qs ++ ps) = F ++ segsOf l' k' ps := by
  induction qs generalizing l k with
  | nil => exact absurd rfl h
  | cons q qs ih =>
    cases qs with
    | nil =>
      have ht : q.term = false := ht
      refine ⟨[], l + q.len, k + 1, ?_, by omega, ?_⟩
      · rw [segsOf, if_neg (by simp [ht]), segsOf, if_neg (by omega)]; rfl
      · rw [List.cons_append, List.nil_append, segsOf, if_neg (by simp [ht])]; rfl
    | cons r qs =>
      have ht : ((r :: qs).getLast (by simp)).term = false := ht
      rw [List.cons_append, segsOf]
      conv => enter [1, F, 1, l', 1, k', 2, 2]; rw [segsOf]
      split
      · obtain ⟨F, l', k', h1, h2, h3⟩ := ih (by simp) ht 0 0
        exact ⟨(l + q.len, k + 1) :: F, l', k', by rw [h1]; rfl, h2, by rw [h3]; rfl⟩
      · exact ih (by simp) ht _ _

theorem segsOf_sum (ps : List T1.Pass) (l k : Nat) (h : k = 0 → l = 0) :
    ((segsOf l k ps).map Prod.fst).sum = l + size ps ∧ ((segsOf l k ps).map Prod.snd).sum = k + ps.length := by
  induction ps generalizing l k with
  | nil =>
    rw [segsOf]
    split
    · rename_i e; have := h e; subst e; simp [size, this]
    · simp [size]
  | cons p ps ih =>
    rw [segsOf]
    split
    · have := ih 0 0 (fun _ => rfl)
      simp only [List.map_cons, List.sum_cons, List.length_cons, size] at this ⊢
      omega
    · have := ih (l + p.len) (k + 1) (by omega)
      simp only [List.map_cons, List.sum_cons, List.length_cons, size] at this ⊢
      omega

theorem segsOf_pos (ps : List T1.Pass) (l k : Nat) : ∀ g ∈ segsOf l k ps, 0 < g.2 := by
  induction ps generalizing l k with
  | nil =>
    rw [segsOf]; split
    · simp
    · intro g hg; simp at hg; subst hg; simp only; omega
  | cons p ps ih =>
    rw [segsOf]; split
    · intro g hg
      rcases List.mem_cons.mp hg with e | e
      · subst e; simp
      · exact ih 0 0 g e
    · exact ih _ _

theorem sum_mem_le (l : List Nat) (x : Nat) (h : x ∈ l) : x ≤ l.sum := by
  induction l with
  | nil => cases h
  | cons y l ih =>
    rw [List.sum_cons]
    rcases List.mem_cons.mp h with e | e
    · omega
    · have := ih e; omega

/-! ## The capacities of the decoder's segments -/

def firstCap (sty : Nat) : Nat := if sty &&& 4 ≠ 0 then 1 else if sty &&& 1 ≠ 0 then 10 else 109
def nextCap (sty mp : Nat) : Nat := if sty &&& 4 ≠ 0 then 1 else if sty &&& 1 ≠ 0 then (if mp = 1 ∨ mp = 10 then 2 else 1) else 109

/-- `passes` fill segments of capacity `mp` (of which `kk` are taken), then the next capacities. -/
def Agr (sty : Nat) : Nat → Nat → List T1.Pass → Prop
  | _, _, [] => True
  | mp, kk, p :: l => kk < mp ∧ (l ≠ [] → (p.term = true ↔ kk + 1 = mp)) ∧
      Agr sty (if kk + 1 = mp then nextCap sty mp else mp) (if kk + 1 = mp then 0 else kk + 1) l

/-- Groups of passes fill segments of capacity `mp` (of which `kk` are taken), then the next capacities. -/
def Caps (sty : Nat) : Nat → Nat → List (Nat × Nat) → Prop
  | _, _, [] => True
  | mp, kk, g :: G => 0 < g.2 ∧ kk + g.2 ≤ mp ∧ (G ≠ [] → kk + g.2 = mp) ∧ Caps sty (nextCap sty mp) 0 G

/-- Capacity and filling of the last segment. -/
def endPos (sty : Nat) : Nat → Nat → List (Nat × Nat) → Nat × Nat
  | mp, kk, [] => (mp, kk)
  | mp, kk, [g] => (mp, kk + g.2)
  | mp, _, _ :: g :: G => endPos sty (nextCap sty mp) 0 (g :: G)

theorem agr_split (sty : Nat) (rest : List T1.Pass) (ps : List T1.Pass) (hne : ps ≠ []) (mp kk k0 len0 : Nat)
    (h : Agr sty mp (kk + k0) (ps ++ rest)) :
    Caps sty mp kk (segsOf len0 k0 ps) ∧
    (rest ≠ [] →
      ((ps.getLast hne).term = true ∧ (endPos sty mp kk (segsOf len0 k0 ps)).2 = (endPos sty mp kk (segsOf len0 k0 ps)).1 ∧
        Agr sty (nextCap sty (endPos sty mp kk (segsOf len0 k0 ps)).1) 0 rest) ∨
      ((ps.getLast hne).term = false ∧ (endPos sty mp kk (segsOf len0 k0 ps)).2 < (endPos sty mp kk (segsOf len0 k0 ps)).1 ∧
        Agr sty (endPos sty mp kk (segsOf len0 k0 ps)).1 (endPos sty mp kk (segsOf len0 k0 ps)).2 rest)) := by
  induction ps generalizing mp kk k0 len0 with
  | nil => exact absurd rfl hne
  | cons p ps ih =>
    obtain ⟨h1, h2, h3⟩ := h
    cases ps with
    | nil =>
      have hs : segsOf len0 k0 [p] = [(len0 + p.len, k0 + 1)] := by
        rw [segsOf]; split
        · rfl
        · rw [segsOf, if_neg (by omega)]
      rw [hs]
      refine ⟨⟨by simp, by simp only; omega, by simp, trivial⟩, fun hr => ?_⟩
      simp only [endPos, List.getLast_singleton]
      have h2 := h2 hr
      by_cases e : kk + k0 + 1 = mp
      · left
        rw [if_pos e, if_pos e] at h3
        exact ⟨h2.mpr e, by omega, h3⟩
      · right
        rw [if_neg e, if_neg e] at h3
        refine ⟨?_, by omega, by rw [← Nat.add_assoc]; exact h3⟩
        cases hp : p.term with
        | false => rfl
        | true => exact absurd (h2.mp hp) e
    | cons q ps =>
      have h2 := h2 (by simp)
      have hl : (p :: q :: ps).getLast hne = (q :: ps).getLast (by simp) := rfl
      rw [hl]
      cases hp : p.term with
      | true =>
        have e := h2.mp hp
        rw [if_pos e, if_pos e] at h3
        obtain ⟨k1, k2⟩ := ih (by simp) (nextCap sty mp) 0 0 0 h3
        rw [segsOf, if_pos hp]
        obtain ⟨g, G, hG⟩ := List.exists_cons_of_ne_nil (segsOf_ne (q :: ps) (by simp) 0 0)
        rw [hG] at k1 k2 ⊢
        exact ⟨⟨by simp, by simp only; omega, fun _ => by simp only; omega, k1⟩, k2⟩
      | false =>
        have e : kk + k0 + 1 ≠ mp := fun e => by rw [h2.mpr e] at hp; cases hp
        rw [if_neg e, if_neg e, Nat.add_assoc] at h3
        rw [segsOf, if_neg (by simp [hp])]
        exact ih (by simp) mp kk (k0 + 1) _ h3

theorem and5 (sty : Nat) : sty &&& 5 = 0 ↔ sty &&& 4 = 0 ∧ sty &&& 1 = 0 := by
  rw [show (5 : Nat) = 4 ||| 1 from rfl, Nat.and_or_distrib_left, Nat.or_eq_zero_iff]

/-- Pass number `i` is number `kk` of a segment of capacity `mp`. -/
def At (sty i kk mp : Nat) : Prop :=
  if sty &&& 4 ≠ 0 then kk = 0 ∧ mp = 1
  else if sty &&& 1 ≠ 0 then
    (i < 10 ∧ kk = i ∧ mp = 10) ∨ (10 ≤ i ∧ (i - 10) % 3 = 0 ∧ kk = 0 ∧ mp = 2) ∨
    (10 ≤ i ∧ (i - 10) % 3 = 1 ∧ kk = 1 ∧ mp = 2) ∨ (10 ≤ i ∧ (i - 10) % 3 = 2 ∧ kk = 0 ∧ mp = 1)
  else kk = i ∧ mp = 109

theorem agr_of_term (sty : Nat) (ps : List T1.Pass) (i kk mp : Nat) (h : At sty i kk mp)
    (ht : ∀ j p, ps[j]? = some p → j + 1 < ps.length → p.term = endsSegment sty (i + j))
    (hc : sty &&& 5 = 0 → i + ps.length ≤ 109) : Agr sty mp kk ps := by
  induction ps generalizing i kk mp with
  | nil => trivial
  | cons p ps ih =>
    have h0 : ps ≠ [] → p.term = endsSegment sty i := fun hne => by
      have := ht 0 p rfl (by
        have := List.length_pos_of_ne_nil hne
        rw [List.length_cons]; omega)
      simpa using this
    have hi : ∀ kk' mp', At sty (i + 1) kk' mp' → Agr sty mp' kk' ps := fun kk' mp' ha =>
      ih (i + 1) kk' mp' ha (fun j p hj hl => by
        rw [ht (j + 1) p (by simpa using hj) (by rw [List.length_cons]; omega)]; congr 1; omega)
        (fun h5 => by have := hc h5; rw [List.length_cons] at this; omega)
    rw [List.length_cons] at hc
    unfold At at h
    by_cases h4 : sty &&& 4 ≠ 0
    · rw [if_pos h4] at h
      obtain ⟨rfl, rfl⟩ := h
      refine ⟨by omega, fun hne => ?_, ?_⟩
      · rw [h0 hne]; simp [endsSegment, h4]
      · apply hi; unfold At nextCap; simp [h4]
    · rw [if_neg h4] at h
      by_cases h1 : sty &&& 1 ≠ 0
      · rw [if_pos h1] at h
        have hE : endsSegment sty i = true ↔ (i = 9 ∨ (10 ≤ i ∧ (i - 10) % 3 ≠ 0)) := by
          have h4' : sty &&& 4 = 0 := by omega
          unfold endsSegment; simp only [h4', h1, ne_eq]; simp
        have hN : ∀ m, nextCap sty m = if m = 1 ∨ m = 10 then 2 else 1 := by
          intro m; unfold nextCap; rw [if_neg h4, if_pos h1]
        have hA : ∀ i kk mp, At sty i kk mp ↔ ((i < 10 ∧ kk = i ∧ mp = 10) ∨ (10 ≤ i ∧ (i - 10) % 3 = 0 ∧ kk = 0 ∧ mp = 2) ∨
            (10 ≤ i ∧ (i - 10) % 3 = 1 ∧ kk = 1 ∧ mp = 2) ∨ (10 ≤ i ∧ (i - 10) % 3 = 2 ∧ kk = 0 ∧ mp = 1)) := by
          intro i kk mp; unfold At; rw [if_neg h4, if_pos h1]
        refine ⟨by omega, fun hne => ?_, ?_⟩
        · rw [h0 hne, hE]; omega
        · apply hi
          rw [hA, hN]
          rcases h with ⟨a, rfl, rfl⟩ | ⟨a, b, rfl, rfl⟩ | ⟨a, b, rfl, rfl⟩ | ⟨a, b, rfl, rfl⟩
          · by_cases e : kk + 1 = 10
            · rw [if_pos e, if_pos e]; right; left; simp; omega
            · rw [if_neg e, if_neg e]; left; omega
          · right; right; left; simp; omega
          · right; right; right; simp; omega
          · right; left; simp; omega
      · rw [if_neg h1] at h
        obtain ⟨rfl, rfl⟩ := h
        have h5 := hc ((and5 sty).mpr ⟨by omega, by omega⟩)
        refine ⟨by omega, fun hne => ?_, ?_⟩
        · rw [h0 hne]
          have := List.length_pos_of_ne_nil hne
          simp only [endsSegment, h4, h1]
          simp
          omega
        · by_cases e : kk + 1 = 109
          · have : ps = [] := List.length_eq_zero_iff.mp (by omega)
            subst this; trivial
          · rw [if_neg e, if_neg e]; apply hi; unfold At; rw [if_neg h4, if_neg h1]; exact ⟨rfl, rfl⟩

theorem agr_all (sty : Nat) (ps : List T1.Pass)
    (ht : ∀ j p, ps[j]? = some p → j + 1 < ps.length → p.term = endsSegment sty j)
    (hc : sty &&& 5 = 0 → ps.length ≤ 109) : Agr sty (firstCap sty) 0 ps := by
  refine agr_of_term sty ps 0 0 _ ?_ (by simpa using ht) (by simpa using hc)
  unfold At firstCap
  split
  · exact ⟨rfl, rfl⟩
  · split
    · left; omega
    · exact ⟨rfl, rfl⟩

/-! ## Lengths -/

theorem intFl (n : Nat) (h : n < 2 ^ 31) : Math.intFloorlog2 (asI32 n) = some n.log2 := by
  have e : asI32 n = n := by unfold asI32; rw [if_pos h]
  rw [e]
  rcases Nat.eq_zero_or_pos n with rfl | h0
  · rfl
  · obtain ⟨k, h1, h2, h3⟩ := (Math.C26_floorlog2 n h0 (by omega)).2 h
    rw [h1]
    congr 1
    exact ((Nat.log2_eq_iff (by omega)).mpr ⟨h2, h3⟩).symm

theorem uintFl (n : Nat) (h0 : 0 < n) (h : n < 2 ^ 32) : Math.uintFloorlog2 n = some n.log2 := by
  obtain ⟨k, h1, h2, h3⟩ := (Math.C26_floorlog2 n h0 h).1
  rw [h1]
  congr 1
  exact ((Nat.log2_eq_iff (by omega)).mpr ⟨h2, h3⟩).symm

/-- What the first loop of the encoder computes. -/
def incr (nlb : Nat) : Int → List (Nat × Nat) → Int
  | inc, [] => inc
  | inc, g :: G => incr nlb (max inc ((g.1.log2 : Int) + 1 - (asI32 nlb + g.2.log2))) G

theorem incrementLoop_eq (nlb : Nat) (ps : List T1.Pass) (k l : Nat) (inc : Int) (h : ps ≠ [] ∨ k = 0)
    (hl : l + size ps < 2 ^ 31) (hk : k + ps.length < 2 ^ 31) :
    incrementLoop nlb k l inc ps = some (incr nlb inc (segsOf l k ps)) := by
  induction ps generalizing k l inc with
  | nil =>
    rcases h with h | rfl
    · exact absurd rfl h
    · rfl
  | cons p ps ih =>
    simp only [size, List.map_cons, List.sum_cons, List.length_cons] at hl hk
    rw [incrementLoop]
    rw [Nat.mod_eq_of_lt (by omega), Nat.mod_eq_of_lt (by omega)]
    by_cases ht : p.term = true ∨ ps = []
    · rw [if_pos ht, intFl _ (by omega), intFl _ (by omega), Option.bind_some, Option.bind_some,
        ih 0 0 _ (Or.inr rfl) (by simp only [size]; omega) (by omega)]
      have : segsOf l k (p :: ps) = (l + p.len, k + 1) :: segsOf 0 0 ps := by
        rw [segsOf]; split
        · rfl
        · rcases ht with ht | rfl
          · contradiction
          · rw [segsOf, if_neg (by omega)]; rfl
      rw [this]; rfl
    · rw [if_neg ht, segsOf, if_neg (by tauto)]
      exact ih _ _ _ (Or.inl (by tauto)) (by simp only [size]; omega) (by omega)

theorem incr_spec (nlb : Nat) (hn : nlb < 2 ^ 31) (G : List (Nat × Nat)) (inc : Int) :
    inc ≤ incr nlb inc G ∧ (∀ g ∈ G, (g.1.log2 : Int) + 1 ≤ nlb + incr nlb inc G + g.2.log2) ∧
    (∀ B : Int, nlb + inc ≤ B → (∀ g ∈ G, (g.1.log2 : Int) + 1 ≤ B) → nlb + incr nlb inc G ≤ B) := by
  have e : asI32 nlb = nlb := by unfold asI32; rw [if_pos hn]
  induction G generalizing inc with
  | nil => exact ⟨le_refl _, by simp, fun B h _ => h⟩
  | cons g G ih =>
    rw [incr, e]
    obtain ⟨h1, h2, h3⟩ := ih (max inc ((g.1.log2 : Int) + 1 - ((nlb : Int) + g.2.log2)))
    refine ⟨by omega, ?_, ?_⟩
    · intro x hx
      rcases List.mem_cons.mp hx with rfl | hx
      · omega
      · exact h2 x hx
    · intro B hB hG
      refine h3 B ?_ (fun x hx => hG x (by simp [hx]))
      have := hG g (by simp)
      omega

/-- The bits of the lengths. -/
def lenBits (nlb : Nat) (G : List (Nat × Nat)) : List Bool := G.flatMap fun g => bitsOf (nlb + g.2.log2) g.1

theorem lengthsLoop_eq (nlb : Nat) (ps : List T1.Pass) (k l : Nat) (s : Bio) (h : ps ≠ [] ∨ k = 0)
    (hl : l + size ps < 2 ^ 31) (hk : k + ps.length < 2 ^ 31) (h0 : 0 < nlb)
    (hG : ∀ g ∈ segsOf l k ps, nlb + g.2.log2 ≤ 32) :
    lengthsLoop nlb s k l ps = putBits s (lenBits nlb (segsOf l k ps)) := by
  induction ps generalizing k l s with
  | nil =>
    rcases h with h | rfl
    · exact absurd rfl h
    · rfl
  | cons p ps ih =>
    simp only [size, List.map_cons, List.sum_cons, List.length_cons] at hl hk
    rw [lengthsLoop]
    rw [Nat.mod_eq_of_lt (by omega), Nat.mod_eq_of_lt (by omega)]
    by_cases ht : p.term = true ∨ ps = []
    · have hs : segsOf l k (p :: ps) = (l + p.len, k + 1) :: segsOf 0 0 ps := by
        rw [segsOf]; split
        · rfl
        · rcases ht with ht | rfl
          · contradiction
          · rw [segsOf, if_neg (by omega)]; rfl
      rw [hs] at hG ⊢
      have hb := hG (l + p.len, k + 1) (by simp)
      simp only at hb
      rw [if_pos ht, intFl _ (by omega), Option.bind_some, Nat.mod_eq_of_lt (by omega), write_eq _ _ _ (by omega) hb]
      unfold lenBits
      rw [List.flatMap_cons, putBits_append]
      congr 1
      funext t
      exact ih 0 0 t (Or.inr rfl) (by simp only [size]; omega) (by omega) (fun g hg => hG g (by simp [hg]))
    · have hs : segsOf l k (p :: ps) = segsOf (l + p.len) (k + 1) ps := by
        rw [segsOf, if_neg (by tauto)]
      rw [hs] at hG ⊢
      rw [if_neg ht]
      exact ih _ _ _ (Or.inl (by tauto)) (by simp only [size]; omega) (by omega) hG

end Jp2.T2

import Verif.Jp2.PocCheck
import Verif.Jp2.SetupProps
/-!
# C76: the encoder says when progression order changes leave out packets
-/
namespace Jp2.Setup
open Jp2.Hdr (R Fail)

/-- The change is for the tile (they count from 1) and takes in the packets of layer `l`, resolution `r` and component `c`. -/
def Change.Sends (p : Change) (tile l r c : Nat) : Prop :=
  p.tile = tile + 1 ∧ l < p.layno1 ∧ (p.resno0 ≤ r ∧ r < p.resno1) ∧ p.compno0 ≤ c ∧ c < p.compno1

instance (p : Change) (tile l r c : Nat) : Decidable (p.Sends tile l r c) := by unfold Change.Sends; infer_instance

/-- Every packet of the tile is sent by one of the changes: layers, resolutions and components below `nl`, `nr` and `nc`. -/
def AllSent (tile nr nc nl : Nat) (l : List Change) : Prop := ∀ lay < nl, ∀ r < nr, ∀ c < nc, ∃ p ∈ l, p.Sends tile lay r c

instance (tile nr nc nl : Nat) (l : List Change) : Decidable (AllSent tile nr nc nl l) := by unfold AllSent; infer_instance

/-! ## Marking -/

/-- `f` marks what `P` says in arrays of length `N`. -/
def Marks (N : Nat) (f : List Nat → R (List Nat)) (P : Nat → Prop) : Prop :=
  ∀ a : List Nat, a.length = N → ∃ a', f a = .ok a' ∧ a'.length = N ∧ ∀ n < N, a'[n]? = some 1 ↔ P n ∨ a[n]? = some 1

theorem mark_marks {N i : Nat} (h : i < N) : Marks N (mark i) (· = i) := fun a ha => by
  refine ⟨a.set i 1, if_pos (by omega), by simp [ha], fun n hn => ?_⟩
  rw [List.getElem?_set]
  by_cases e : i = n
  · subst e
    rw [if_pos rfl, if_pos (by omega)]
    simp
  · rw [if_neg e]
    constructor
    · exact Or.inr
    · rintro (h | h)
      · exact absurd h.symm e
      · exact h

theorem walk_marks {N step : Nat} {body : Nat → List Nat → R (List Nat)} : ∀ (k i : Nat) (P : Nat → Nat → Prop),
    (∀ j < k, i + j * step < 2 ^ 32 ∧ Marks N (body (i + j * step)) (P j)) → Marks N (walk body step k i) fun n => ∃ j < k, P j n
  | 0, _, _, _ => fun a ha => ⟨a, rfl, ha, fun n _ => by simp⟩
  | k + 1, i, P, h => fun a ha => by
    obtain ⟨a1, e1, l1, m1⟩ := (h 0 (by omega)).2 a ha
    rw [Nat.zero_mul, Nat.add_zero] at e1
    have hidx : ∀ j < k, (i + step) % 2 ^ 32 + j * step = i + (j + 1) * step := fun j hj => by
      have := (h 1 (by omega)).1
      rw [Nat.one_mul] at this
      rw [Nat.mod_eq_of_lt this, Nat.succ_mul]
      omega
    obtain ⟨a2, e2, l2, m2⟩ := walk_marks k ((i + step) % 2 ^ 32) (fun j => P (j + 1)) (fun j hj => by
      rw [hidx j hj]
      exact h (j + 1) (by omega)) a1 l1
    refine ⟨a2, ?_, l2, fun n hn => ?_⟩
    · unfold walk
      rw [e1]
      exact e2
    · rw [m2 n hn, m1 n hn]
      constructor
      · rintro (⟨j, hj, hp⟩ | h0 | h0)
        · exact Or.inl ⟨j + 1, by omega, hp⟩
        · exact Or.inl ⟨0, by omega, h0⟩
        · exact Or.inr h0
      · rintro (⟨j, hj, hp⟩ | h0)
        · cases j with
          | zero => exact Or.inr (Or.inl hp)
          | succ j => exact Or.inl ⟨j, by omega, hp⟩
        · exact Or.inr (Or.inr h0)

/-- Where the packets of a layer, resolution and component have their mark. -/
def slot (nr nc l r c : Nat) : Nat := l * (nr * nc) + (r * nc + c)

theorem slot_low {nr nc r c : Nat} (hr : r < nr) (hc : c < nc) : r * nc + c < nr * nc := by
  have : (r + 1) * nc ≤ nr * nc := Nat.mul_le_mul_right nc hr
  rw [Nat.succ_mul] at this
  omega

theorem slot_lt {nr nc nl l r c : Nat} (hl : l < nl) (hr : r < nr) (hc : c < nc) : slot nr nc l r c < nr * nc * nl := by
  have h1 := slot_low hr hc
  have : (l + 1) * (nr * nc) ≤ nl * (nr * nc) := Nat.mul_le_mul_right _ hl
  rw [Nat.succ_mul, Nat.mul_comm nl] at this
  unfold slot
  omega

theorem slot_inj {nr nc l r c l' r' c' : Nat} (hr : r < nr) (hc : c < nc) (hr' : r' < nr) (hc' : c' < nc) (h : slot nr nc l r c = slot nr nc l' r' c') :
    l = l' ∧ r = r' ∧ c = c' := by
  unfold slot at h
  have h1 := slot_low hr hc
  have h2 := slot_low hr' hc'
  have hS : 0 < nr * nc := by omega
  have e1 : l = l' := by
    have := congrArg (· / (nr * nc)) h
    simp only [Nat.mul_comm _ (nr * nc), Nat.mul_add_div hS, Nat.div_eq_of_lt h1, Nat.div_eq_of_lt h2, Nat.add_zero] at this
    exact this
  subst e1
  have h' : r * nc + c = r' * nc + c' := by omega
  have hC : 0 < nc := by omega
  have e2 : r = r' := by
    have := congrArg (· / nc) h'
    simp only [Nat.mul_comm _ nc, Nat.mul_add_div hC, Nat.div_eq_of_lt hc, Nat.div_eq_of_lt hc', Nat.add_zero] at this
    exact this
  subst e2
  exact ⟨rfl, rfl, by omega⟩

theorem slot_onto {nr nc nl n : Nat} (h : n < nr * nc * nl) : ∃ l < nl, ∃ r < nr, ∃ c < nc, n = slot nr nc l r c := by
  have hS : 0 < nr * nc := Nat.pos_of_ne_zero fun e => by rw [e, Nat.zero_mul] at h; omega
  have hC : 0 < nc := Nat.pos_of_ne_zero fun e => by rw [e, Nat.mul_zero] at hS; omega
  refine ⟨n / (nr * nc), (Nat.div_lt_iff_lt_mul hS).2 (by rwa [Nat.mul_comm nl]), n % (nr * nc) / nc, (Nat.div_lt_iff_lt_mul hC).2 (Nat.mod_lt _ hS),
    n % (nr * nc) % nc, Nat.mod_lt _ hC, ?_⟩
  unfold slot
  rw [Nat.div_add_mod', Nat.div_add_mod']

theorem markChange_marks {nr nc nl : Nat} (hN : nr * nc * nl < 2 ^ 32) (hnl : 0 < nl) (c : Change) :
    Marks (nr * nc * nl) (markChange nr nc nl c) fun n => ∃ l < nl, ∃ r < nr, ∃ k < nc, n = slot nr nc l r k ∧
      l < c.layno1 ∧ (c.resno0 ≤ r ∧ r < c.resno1) ∧ c.compno0 ≤ k ∧ k < c.compno1 := by
  have hS : nr * nc < 2 ^ 32 := lt_of_le_of_lt (Nat.le_mul_of_pos_right _ hnl) hN
  have key := walk_marks (N := nr * nc * nl) (step := nc)
    (body := fun ri => walk (walk mark (nr * nc % 2 ^ 32) (min c.layno1 nl)) 1 (min c.compno1 nc - c.compno0) ((ri + c.compno0) % 2 ^ 32))
    (min c.resno1 nr - c.resno0) (nc * c.resno0 % 2 ^ 32)
    (fun jr n => ∃ jc < min c.compno1 nc - c.compno0, ∃ jl < min c.layno1 nl, n = slot nr nc jl (c.resno0 + jr) (c.compno0 + jc)) ?_
  · intro a ha
    obtain ⟨a', e, hl, hm⟩ := key a ha
    refine ⟨a', e, hl, fun n hn => (hm n hn).trans (or_congr_left ?_)⟩
    constructor
    · rintro ⟨jr, h1, jc, h2, jl, h3, rfl⟩
      exact ⟨jl, by omega, c.resno0 + jr, by omega, c.compno0 + jc, by omega, rfl, by omega, ⟨by omega, by omega⟩, by omega, by omega⟩
    · rintro ⟨l, h1, r, h2, k, h3, rfl, h4, h5, h6⟩
      refine ⟨r - c.resno0, by omega, k - c.compno0, by omega, l, by omega, ?_⟩
      rw [show c.resno0 + (r - c.resno0) = r by omega, show c.compno0 + (k - c.compno0) = k by omega]
  · intro jr hjr
    have hr : c.resno0 + jr < nr := by omega
    have hidx : nc * c.resno0 % 2 ^ 32 + jr * nc = (c.resno0 + jr) * nc := by
      have : c.resno0 * nc ≤ nr * nc := Nat.mul_le_mul_right nc (by omega)
      rw [Nat.mul_comm nc, Nat.mod_eq_of_lt (by omega), Nat.add_mul]
    have hle : (c.resno0 + jr) * nc ≤ nr * nc := Nat.mul_le_mul_right nc (by omega)
    rw [hidx]
    refine ⟨by omega, ?_⟩
    refine walk_marks _ _ (fun jc n => ∃ jl < min c.layno1 nl, n = slot nr nc jl (c.resno0 + jr) (c.compno0 + jc)) fun jc hjc => ?_
    have hc : c.compno0 + jc < nc := by omega
    have hlow := slot_low hr hc
    have hi2 : ((c.resno0 + jr) * nc + c.compno0) % 2 ^ 32 + jc * 1 = (c.resno0 + jr) * nc + (c.compno0 + jc) := by
      rw [Nat.mod_eq_of_lt (by omega)]
      omega
    rw [hi2]
    refine ⟨by omega, ?_⟩
    refine walk_marks _ _ (fun jl n => n = slot nr nc jl (c.resno0 + jr) (c.compno0 + jc)) fun jl hjl => ?_
    have hlt := slot_lt (nl := nl) (show jl < nl by omega) hr hc
    have e : (c.resno0 + jr) * nc + (c.compno0 + jc) + jl * (nr * nc % 2 ^ 32) = slot nr nc jl (c.resno0 + jr) (c.compno0 + jc) := by
      rw [Nat.mod_eq_of_lt hS]
      unfold slot
      omega
    rw [e]
    exact ⟨by omega, mark_marks hlt⟩

theorem markAll_marks {tile nr nc nl : Nat} (hN : nr * nc * nl < 2 ^ 32) (hnl : 0 < nl) (ht : tile + 1 < 2 ^ 32) : ∀ l : List Change,
    Marks (nr * nc * nl) (markAll tile nr nc nl l) fun n => ∃ lay < nl, ∃ r < nr, ∃ k < nc, n = slot nr nc lay r k ∧ ∃ p ∈ l, p.Sends tile lay r k
  | [] => fun a ha => ⟨a, rfl, ha, fun n _ => by simp⟩
  | c :: l => fun a ha => by
    by_cases hc : (tile + 1) % 2 ^ 32 = c.tile
    · obtain ⟨a1, e1, l1, m1⟩ := markChange_marks hN hnl c a ha
      obtain ⟨a2, e2, l2, m2⟩ := markAll_marks hN hnl ht l a1 l1
      refine ⟨a2, ?_, l2, fun n hn => ?_⟩
      · unfold markAll
        rw [if_pos hc, e1]
        exact e2
      · rw [Nat.mod_eq_of_lt ht] at hc
        rw [m2 n hn, m1 n hn]
        constructor
        · rintro (⟨y, hy, r, hr, k, hk, e, p, hp, h⟩ | ⟨y, hy, r, hr, k, hk, e, h⟩ | h)
          · exact Or.inl ⟨y, hy, r, hr, k, hk, e, p, List.mem_cons_of_mem _ hp, h⟩
          · exact Or.inl ⟨y, hy, r, hr, k, hk, e, c, List.mem_cons_self, hc.symm, h⟩
          · exact Or.inr h
        · rintro (⟨y, hy, r, hr, k, hk, e, p, hp, h⟩ | h)
          · rcases List.mem_cons.1 hp with rfl | hp
            · exact Or.inr (Or.inl ⟨y, hy, r, hr, k, hk, e, h.2⟩)
            · exact Or.inl ⟨y, hy, r, hr, k, hk, e, p, hp, h⟩
          · exact Or.inr (Or.inr h)
    · obtain ⟨a2, e2, l2, m2⟩ := markAll_marks hN hnl ht l a ha
      refine ⟨a2, ?_, l2, fun n hn => ?_⟩
      · unfold markAll
        rw [if_neg hc]
        exact e2
      · rw [Nat.mod_eq_of_lt ht] at hc
        rw [m2 n hn]
        refine or_congr_left ⟨?_, ?_⟩
        · rintro ⟨y, hy, r, hr, k, hk, e, p, hp, h⟩
          exact ⟨y, hy, r, hr, k, hk, e, p, List.mem_cons_of_mem _ hp, h⟩
        · rintro ⟨y, hy, r, hr, k, hk, e, p, hp, h⟩
          rcases List.mem_cons.1 hp with rfl | hp
          · exact absurd h.1.symm hc
          · exact ⟨y, hy, r, hr, k, hk, e, p, hp, h⟩

theorem allMarked_ok (a : List Nat) : ∀ (k i : Nat), i + k ≤ a.length → a.length < 2 ^ 32 →
    ∃ b, allMarked a k i = .ok b ∧ (b = true ↔ ∀ n, i ≤ n → n < i + k → a[n]? = some 1)
  | 0, i, _, _ => ⟨true, rfl, by simp; intro n h1 h2; omega⟩
  | k + 1, i, h, hl => by
    obtain ⟨b, e, hb⟩ := allMarked_ok a k (i + 1) (by omega) hl
    have hi : a[i]? = some a[i] := List.getElem?_eq_getElem (by omega)
    refine ⟨a[i] == 1 && b, ?_, ?_⟩
    · unfold allMarked
      rw [hi]
      dsimp only
      rw [Nat.mod_eq_of_lt (by omega), e]
      rfl
    · rw [Bool.and_eq_true, beq_iff_eq, hb]
      constructor
      · rintro ⟨h1, h2⟩ n hn1 hn2
        by_cases e : n = i
        · subst e; rw [hi, h1]
        · exact h2 n (by omega) (by omega)
      · intro h
        refine ⟨?_, fun n h1 h2 => h n (by omega) (by omega)⟩
        have := h i (le_refl _) (by omega)
        rw [hi] at this
        exact Option.some.inj this

/-- **C76.** The check finds nothing missing exactly if every packet of the tile, by layer, resolution and component, is sent by one of the changes for
the tile; and it stays within its array. -/
theorem C76_missing_packets (tile nr nc nl : Nat) (l : List Change) (hl : l ≠ []) (hnl : 0 < nl) (hN : nr * nc * nl < 2 ^ 32) (ht : tile + 1 < 2 ^ 32) :
    checkPocs tile nr nc nl l = .ok (decide (AllSent tile nr nc nl l)) := by
  have hS : nr * nc < 2 ^ 32 := lt_of_le_of_lt (Nat.le_mul_of_pos_right _ hnl) hN
  unfold checkPocs
  rw [if_neg hl, Nat.mod_eq_of_lt hS]
  obtain ⟨a, e, hlen, hm⟩ := markAll_marks hN hnl ht l (List.replicate (nr * nc * nl) 0) (by simp)
  obtain ⟨b, eb, hb⟩ := allMarked_ok a (nl * nr * nc) 0 (by rw [hlen, Nat.zero_add, Nat.mul_assoc, Nat.mul_comm]) (by omega)
  show (markAll tile nr nc nl l _ >>= _) = _
  rw [e]
  show allMarked a (nl * nr * nc) 0 = _
  rw [eb]
  congr 1
  rw [Bool.eq_iff_iff, hb, decide_eq_true_iff]
  have hcount : nl * nr * nc = nr * nc * nl := by rw [Nat.mul_assoc, Nat.mul_comm]
  rw [hcount, Nat.zero_add]
  constructor
  · intro h lay hlay r hr c hc
    have hlt := slot_lt hlay hr hc
    rcases (hm _ hlt).1 (h _ (Nat.zero_le _) hlt) with ⟨y, hy, r', hr', k, hk, es, hp⟩ | h0
    · obtain ⟨rfl, rfl, rfl⟩ := slot_inj hr hc hr' hk es
      exact hp
    · rw [List.getElem?_replicate, if_pos hlt] at h0
      cases h0
  · intro h n _ hn
    obtain ⟨y, hy, r, hr, c, hc, rfl⟩ := slot_onto hn
    exact (hm _ hn).2 (Or.inl ⟨y, hy, r, hr, c, hc, rfl, h y hy r hr c hc⟩)

/-! ## The conditions are met -/

def exAll : List Change := [⟨1, 0, 0, 2, 1, 3, 0⟩, ⟨1, 1, 0, 2, 2, 2, 0⟩, ⟨1, 1, 2, 9, 5, 9, 1⟩]

example := C76_missing_packets 0 2 3 2 exAll (by decide) (by decide) (by decide) (by decide)
example : checkPocs 0 2 3 2 exAll = .ok true := by decide +kernel
example : checkPocs 0 2 3 2 (exAll.take 2) = .ok false := by decide +kernel

/-! ## What is not so -/

/-- **False of the code.** The check does not look at the changes the tile will have. The first of two changes is for the first tile and sends
the lowest resolution only; the second is for the second tile and sends everything. The second tile gets the first change
(`C68_changes_mixed_up`), its packets are missing, and the check finds nothing. -/
theorem C76_silent_loss : ∃ l : List Change, ∃ P : List Pi.Poc, checkPocs 1 2 1 1 l = .ok true ∧ tilePocs l 1 1 2 0 [] = .ok P ∧
    ¬ ∃ q ∈ P, q.resno0 ≤ 1 ∧ 1 < q.resno1 :=
  ⟨[⟨1, 0, 0, 1, 1, 1, 0⟩, ⟨2, 0, 0, 1, 2, 1, 0⟩], _, by decide +kernel, rfl, by decide +kernel⟩

end Jp2.Setup

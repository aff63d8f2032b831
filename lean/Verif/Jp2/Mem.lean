/-!
# Memory and counted loops

`Mem α` is an allocation as a partial function of the offset: `none` outside it. `wr` fails outside the
allocation, so an out-of-bounds load or store makes the whole run `none`.
-/
namespace Jp2

abbrev Mem (α : Type) := Nat → Option α

/-- A list as an allocation. -/
def Mem.ofList {α : Type} (l : List α) : Mem α := fun i => l[i]?

/-- Store. -/
def wr {α : Type} (m : Mem α) (i : Nat) (v : α) : Option (Mem α) :=
  if (m i).isSome then some (fun k => if k = i then some v else m k) else none

/-- `for i in i0 .. i0+n { s = body(i, s)? }`. -/
def loopM {σ : Type} (body : Nat → σ → Option σ) : Nat → Nat → σ → Option σ
  | 0, _, s => some s
  | n + 1, i, s => (body i s).bind fun s' => loopM body n (i + 1) s'

theorem wr_of_some {α : Type} (m : Mem α) (i : Nat) (v x : α) (h : m i = some x) :
    wr m i v = some (fun k => if k = i then some v else m k) := by
  unfold wr; rw [h]; rfl

theorem loopM_inv {σ : Type} (body : Nat → σ → Option σ) (n i : Nat) (s : σ) (P : Nat → σ → Prop) (h0 : P i s)
    (hstep : ∀ k s, i ≤ k → k < i + n → P k s → ∃ s', body k s = some s' ∧ P (k + 1) s') :
    ∃ s', loopM body n i s = some s' ∧ P (i + n) s' := by
  induction n generalizing i s with
  | zero => exact ⟨s, rfl, h0⟩
  | succ n ih =>
    obtain ⟨s1, h1, p1⟩ := hstep i s (by omega) (by omega) h0
    obtain ⟨s2, h2, p2⟩ := ih (i + 1) s1 p1 (fun k s hk hk' hp => hstep k s (by omega) (by omega) hp)
    refine ⟨s2, by simp only [loopM, h1, Option.bind_some, h2], ?_⟩
    rw [show i + (n + 1) = i + 1 + n by omega]; exact p2

/-- Partial correctness of a loop. -/
theorem loopM_some {σ : Type} (body : Nat → σ → Option σ) (n i : Nat) (s s' : σ) (P : Nat → σ → Prop) (h0 : P i s)
    (hstep : ∀ k s s', i ≤ k → k < i + n → P k s → body k s = some s' → P (k + 1) s')
    (h : loopM body n i s = some s') : P (i + n) s' := by
  induction n generalizing i s with
  | zero => simp only [loopM, Option.some.injEq] at h; subst h; exact h0
  | succ n ih =>
    simp only [loopM, Option.bind_eq_some_iff] at h
    obtain ⟨s1, h1, h⟩ := h
    have := ih (i + 1) s1 (hstep i s s1 (by omega) (by omega) h0 h1)
      (fun k s s' hk hk' hp => hstep k s s' (by omega) (by omega) hp) h
    rw [show i + (n + 1) = i + 1 + n by omega]; exact this

/-- A loop whose body is at least as defined is at least as defined. -/
theorem loopM_mono {σ : Type} (f g : Nat → σ → Option σ) (h : ∀ i s s', f i s = some s' → g i s = some s')
    (n i : Nat) (s s' : σ) (hf : loopM f n i s = some s') : loopM g n i s = some s' := by
  induction n generalizing i s with
  | zero => exact hf
  | succ n ih =>
    simp only [loopM, Option.bind_eq_some_iff] at hf ⊢
    obtain ⟨s1, h1, h2⟩ := hf
    exact ⟨s1, h i s s1 h1, ih (i + 1) s1 h2⟩

end Jp2

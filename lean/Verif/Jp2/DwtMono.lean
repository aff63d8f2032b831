import Verif.Jp2.Dwt
/-!
A build with overflow checks computes what unbounded arithmetic would, or panics.
-/
namespace Jp2.Dwt

def Ref {α : Type} (a b : Option α) : Prop := ∀ v, a = some v → b = some v

theorem Ref.refl {α : Type} (a : Option α) : Ref a a := fun _ h => h

theorem Ref.bind {α β : Type} {a b : Option α} {f g : α → Option β} (h : Ref a b) (hf : ∀ x, Ref (f x) (g x)) :
    Ref (a.bind f) (b.bind g) := by
  intro v hv
  rw [Option.bind_eq_some_iff] at hv ⊢
  obtain ⟨x, hx, hv⟩ := hv
  exact ⟨x, h x hx, hf x v hv⟩

theorem Ref.map {α β : Type} {a b : Option α} {f : α → β} (h : Ref a b) : Ref (a.map f) (b.map f) := by
  intro v hv
  rw [Option.map_eq_some_iff] at hv ⊢
  obtain ⟨x, hx, hv⟩ := hv
  exact ⟨x, h x hx, hv⟩

theorem Ref.ite {α : Type} {c : Prop} [Decidable c] {a b a' b' : Option α} (h : Ref a b) (h' : Ref a' b') :
    Ref (if c then a else a') (if c then b else b') := by split <;> assumption

theorem Ref.loop {σ : Type} {f g : Nat → σ → Option σ} (h : ∀ i s, Ref (f i s) (g i s)) (n i : Nat) (s : σ) :
    Ref (loopM f n i s) (loopM g n i s) := fun s' hs => loopM_mono f g h n i s s' hs

section
variable {A A' : Arith} (hA : ∀ x, Ref (A x) (A' x))
include hA

/-- Close a `Ref` goal structurally. -/
local macro "refs" hA:ident : tactic => `(tactic|
  repeat' first
    | exact $hA _
    | exact Ref.refl _
    | refine Ref.bind ?_ (fun _ => ?_)
    | refine Ref.map ?_
    | refine Ref.ite ?_ ?_
    | refine Ref.loop (fun _ _ => ?_) _ _ _)

theorem avg_mono (a b : Int) : Ref (avg A a b) (avg A' a b) := by unfold avg; refs hA
theorem upd_mono (a b : Int) : Ref (upd A a b) (upd A' a b) := by unfold upd; refs hA

local macro "refs2" hA:ident : tactic => `(tactic|
  repeat' first
    | exact $hA _
    | exact avg_mono $hA _ _
    | exact upd_mono $hA _ _
    | exact Ref.refl _
    | refine Ref.bind ?_ (fun _ => ?_)
    | refine Ref.map ?_
    | refine Ref.ite ?_ ?_
    | refine Ref.loop (fun _ _ => ?_) _ _ _)

theorem rowEven_mono (n sn dn : Nat) (s) : Ref (rowEven A n sn dn s) (rowEven A' n sn dn s) := by
  unfold rowEven rowEvenD rowEvenS; simp only []; refs2 hA
theorem rowOdd_mono (n sn dn : Nat) (s) : Ref (rowOdd A n sn dn s) (rowOdd A' n sn dn s) := by
  unfold rowOdd rowOddD rowOddS; simp only []; refs2 hA
theorem encodeRow_mono (n : Nat) (e : Bool) (s) : Ref (encodeRow A n e s) (encodeRow A' n e s) := by
  unfold encodeRow
  exact Ref.ite (rowEven_mono hA _ _ _ _) (rowOdd_mono hA _ _ _ _)
theorem liftCols_mono (n sn dn : Nat) (e : Bool) (t) : Ref (liftCols A n sn dn e t) (liftCols A' n sn dn e t) := by
  unfold liftCols cols8 subAvg subOne addUpd; refs2 hA
theorem encodeCols_mono (n : Nat) (e : Bool) (st c : Nat) (s) : Ref (encodeCols A n e st c s) (encodeCols A' n e st c s) := by
  unfold encodeCols
  exact Ref.bind (Ref.refl _) (fun _ => Ref.bind (liftCols_mono hA _ _ _ _ _) (fun _ => Ref.refl _))
theorem at_mono {f g} (h : ∀ s, Ref (f s) (g s)) (o : Nat) (s) : Ref (at_ f o s) (at_ g o s) := by
  unfold at_; exact Ref.map (h _)
theorem encodeLevel_mono (w : Nat) (r : Res) (s) : Ref (encodeLevel A w r s) (encodeLevel A' w r s) := by
  unfold encodeLevel
  refine Ref.bind (Ref.loop (fun _ _ => at_mono hA (encodeCols_mono hA _ _ _ _) _ _) _ _ _) (fun _ => ?_)
  refine Ref.bind (Ref.ite (at_mono hA (encodeCols_mono hA _ _ _ _) _ _) (Ref.refl _)) (fun _ => ?_)
  exact Ref.loop (fun _ _ => at_mono hA (encodeRow_mono hA _ _) _ _) _ _ _
theorem encodeLevels_mono (w : Nat) (rs : List Res) (s) : Ref (encodeLevels A w rs s) (encodeLevels A' w rs s) := by
  induction rs generalizing s with
  | nil => exact Ref.refl _
  | cons r rs ih => exact Ref.bind (ih s) (fun _ => encodeLevel_mono hA w r _)
theorem encodeTile_mono (junk) (tile : Res) (rs : List Res) (d) : Ref (encodeTile A junk tile rs d) (encodeTile A' junk tile rs d) :=
  Ref.map (encodeLevels_mono hA _ _ _)
theorem decode1_mono (sn dn cas : Nat) (t) : Ref (decode1 A sn dn cas t) (decode1 A' sn dn cas t) := by
  unfold decode1 subUpd addAvg; refs2 hA
theorem idwtLine_mono (x sn dn cas : Nat) (s) : Ref (idwtLine A x sn dn cas s) (idwtLine A' x sn dn cas s) := by
  unfold idwtLine
  exact Ref.bind (Ref.refl _) (fun _ => Ref.bind (decode1_mono hA _ _ _ _) (fun _ => Ref.refl _))
theorem decodeLevel_mono (w : Nat) (lo r : Res) (s) : Ref (decodeLevel A w lo r s) (decodeLevel A' w lo r s) := by
  unfold decodeLevel
  refine Ref.bind (Ref.loop (fun _ _ => at_mono hA (idwtLine_mono hA _ _ _ _) _ _) _ _ _) (fun _ => ?_)
  exact Ref.loop (fun _ _ => at_mono hA (idwtLine_mono hA _ _ _ _) _ _) _ _ _
theorem decodeLevels_mono (w : Nat) (lo : Res) (rs : List Res) (s) : Ref (decodeLevels A w lo rs s) (decodeLevels A' w lo rs s) := by
  induction rs generalizing lo s with
  | nil => exact Ref.refl _
  | cons r rs ih => exact Ref.bind (decodeLevel_mono hA w lo r s) (fun _ => ih r _)
theorem decodeTile_mono (junk) (tile r0 : Res) (rs : List Res) (d) :
    Ref (decodeTile A junk tile r0 rs d) (decodeTile A' junk tile r0 rs d) := by
  unfold decodeTile
  exact Ref.ite (Ref.refl _) (Ref.map (decodeLevels_mono hA _ _ _ _))

end
end Jp2.Dwt

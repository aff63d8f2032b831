import Verif.Jp2.PiTp
/-!
# Tile-parts divided at the outermost letter
-/
namespace Jp2.Pi
open Spec

namespace Spec

/-- The coordinate of a packet a letter stands for. -/
def _root_.Jp2.Pi.Letter.of : Letter → Pkt → Nat
  | .comp, k => k.compno
  | .res, k => k.resno
  | .prec, k => k.precno
  | .lay, k => k.layno

/-- Every resolution of every component has the same number of precincts. -/
def SamePrec (t : Tile) (cs : List CompParams) : Prop :=
  ∃ N, ∀ c cp r, cs[c]? = some cp → r < cp.prc.length → numPrec t cs c r = N

end Spec

variable {t : Tile} {cs : List CompParams}

theorem same_uniform {L : Nat} (g : Geo t cs L (maxPrec (cs.map (specComp t))) (maxRes (cs.map (specComp t))))
    (hlt : ∀ c r, numPrec t cs c r < 2 ^ 32) (h : SamePrec t cs) :
    ∀ c ∈ cs.map (specComp t), ∀ r ∈ c.res, r.pw * r.ph % 2 ^ 32 = maxPrec (cs.map (specComp t)) := by
  obtain ⟨N, hN⟩ := h
  have key : ∀ c ∈ cs.map (specComp t), ∀ r ∈ c.res, r.pw * r.ph = N ∧ r.pw * r.ph < 2 ^ 32 := by
    intro cp h1 q h2
    obtain ⟨c, hc⟩ := List.getElem?_of_mem h1
    obtain ⟨r, hr⟩ := List.getElem?_of_mem h2
    have e : numPrec t cs c r = q.pw * q.ph := by
      rw [← npOf_eq]
      unfold npOf
      rw [hc]
      simp only [hr]
    rw [specComps_get] at hc
    cases hcp : cs[c]? with
    | none => rw [hcp] at hc; cases hc
    | some cp0 =>
      rw [hcp] at hc
      cases hc
      have hr' := (List.getElem?_eq_some_iff.mp hr).1
      unfold specComp at hr'
      simp only [specRes_length] at hr'
      have := hN c cp0 r hcp hr'
      have := hlt c r
      omega
  obtain ⟨_, m2⟩ := maxPrec_spec (cs.map (specComp t))
  have hpos := g.pos
  rcases m2 with m2 | ⟨cp, hcp, q, hq, m2⟩
  · rw [m2] at hpos; simp at hpos
  · intro c hc r hr
    obtain ⟨a1, a2⟩ := key c hc r hr
    obtain ⟨b1, b2⟩ := key cp hcp q hq
    rw [m2, a1, b1]

/-- The tile-parts `i, i + 1, …` when part `i` has ranges `Q i`. -/
theorem encParts_on (m : Mode) {p : TileParams} {i : TileInfo} {K : It → Prop} (hn : BlindNext K m) (E : Nat → EncPoc)
    (Q : Nat → Poc) (V : Nat → List Pkt) (N : Nat)
    (hc : ∀ j, j < N → createEncode true (E j) j = some (Q j, E (j + 1)))
    (hK : ∀ j, j < N → K (encIt p i false (Q j)))
    (hd : ∀ j, j < N → ∃ F, ∀ fuel, F ≤ fuel → ∃ s', drain m fuel fuel (encIt p i false (Q j)) = some (V j, s')) :
    ∀ n j, j + n = N → ∃ F, ∀ fuel, F ≤ fuel →
      encParts m fuel p i true true n j (E j) = some ((List.range' j n).map V) := by
  intro n
  induction n with
  | zero => intro j _; exact ⟨0, fun _ _ => rfl⟩
  | succ n ih =>
    intro j hj
    obtain ⟨F1, k1⟩ := hd j (by omega)
    obtain ⟨F2, k2⟩ := ih (j + 1) (by omega)
    refine ⟨max F1 F2, fun fuel hfu => ?_⟩
    obtain ⟨s', e1⟩ := k1 fuel (by omega)
    rw [encParts, hc j (by omega)]
    simp only [Option.bind_eq_bind, Option.bind_some, Bool.and_self]
    rw [show encIt p i true (Q j) = (encIt p i false (Q j)).on from rfl, drain_on hn fuel fuel _ (hK j (by omega)), e1]
    simp only [Option.map_some, Option.bind_some]
    rw [k2 fuel (by omega)]
    rfl

theorem upto_one (i : Nat) : upto i (i + 1) = [i] := by
  unfold upto
  rw [show i + 1 - i = 1 by omega]
  rfl

theorem filter_part (inner : Nat → List Pkt) (key : Pkt → Nat) (hk : ∀ i, ∀ k ∈ inner i, key k = i) (a b i : Nat)
    (hi : a ≤ i ∧ i < b) : ((upto a b).flatMap inner).filter (fun k => key k = i) = inner i := by
  have hnd := nodup_upto a b
  have hm : i ∈ upto a b := by rw [mem_upto]; exact hi
  revert hm
  generalize upto a b = xs at hnd
  induction xs with
  | nil => intro h; cases h
  | cons x xs ih =>
    intro hm
    rw [List.nodup_cons] at hnd
    rw [List.flatMap_cons, List.filter_append]
    by_cases e : x = i
    · subst e
      have h1 : (inner x).filter (fun k => key k = x) = inner x := by
        rw [List.filter_eq_self]; intro k hk'; simp [hk x k hk']
      have h2 : (xs.flatMap inner).filter (fun k => key k = x) = [] := by
        rw [List.filter_eq_nil_iff]
        intro k hk'
        obtain ⟨y, hy, hy2⟩ := List.mem_flatMap.mp hk'
        have := hk y k hy2
        simp only [decide_eq_true_eq]
        rintro rfl
        exact hnd.1 (this ▸ hy)
      rw [h1, h2, List.append_nil]
    · have h1 : (inner x).filter (fun k => key k = i) = [] := by
        rw [List.filter_eq_nil_iff]
        intro k hk'
        have := hk x k hk'
        simp only [decide_eq_true_eq]
        omega
      rw [h1, List.nil_append]
      refine ih hnd.2 ?_
      rcases List.mem_cons.mp hm with h | h
      · exact absurd h.symm e
      · exact h

theorem range_eq_upto (n : Nat) : List.range n = upto 0 n := by
  unfold upto
  rw [List.range_eq_range', Nat.sub_zero]

/-- Dividing at the outermost letter: the parts and what they add up to. -/
theorem encodeParts_first (m : Mode) {p : TileParams} {n : Nat} (h : ParamsFit p n)
    (hi : IndexFits (tileRect p n) p.comps p.numlayers) (hl : 0 < p.numlayers) (hpoc : p.pocs = [])
    (ho : OrderOk (tileRect p n) p.comps p.prg) (f : Letter) (hf : (lettersOf p.prg).head? = some f) (hne : f ≠ .prec)
    (hu : p.prg = 0 ∨ p.prg = 1 → SamePrec (tileRect p n) p.comps) :
    ∃ N F, (∀ fuel, F ≤ fuel → encodeParts m fuel p (some f) n = some (some ((List.range N).map fun i =>
        (order (tileRect p n) p.comps (whole p) p.prg).filter fun k => f.of k = i))) ∧
      ((List.range N).map fun i =>
        (order (tileRect p n) p.comps (whole p) p.prg).filter fun k => f.of k = i).flatten =
        order (tileRect p n) p.comps (whole p) p.prg := by
  have hT := h.tile
  have hnl := h.nl
  have hnc := h.nc
  have e := tileInfo_max m h
  have g := geo_of h.tile hi
  have hlt : ∀ c r, numPrec (tileRect p n) p.comps c r < 2 ^ 32 := fun c r => hi.lt c r
  have hun := same_uniform g hlt
  obtain ⟨t, ht⟩ : ∃ t, t = tileRect p n := ⟨_, rfl⟩
  obtain ⟨mp, hmp⟩ : ∃ mp, mp = maxPrec (p.comps.map (specComp (tileRect p n))) := ⟨_, rfl⟩
  obtain ⟨mr, hmr⟩ : ∃ mr, mr = maxRes (p.comps.map (specComp (tileRect p n))) := ⟨_, rfl⟩
  rw [← hmp, ← hmr] at e g
  rw [← hmp] at hun
  rw [← ht] at e g hT ho hu hlt hun ⊢
  have h33 := g.mr33
  have hpos : 0 < p.comps.length ∧ 0 < mr := by
    have := g.pos
    constructor <;> by_contra hc
    · rw [show p.comps.length = 0 by omega] at this; simp at this
    · rw [show mr = 0 by omega] at this; simp at this
  have fin : ∀ {K : It → Prop} (E : Nat → EncPoc) (Q : Nat → Poc) (B : Nat → Bounds) (N : Nat), BlindNext K m →
      E 0 = encWhole p (specInfo t p.comps mp mr) →
      numTp (some f) p.prg (E 0) = some N →
      (∀ j, j < N → createEncode true (E j) j = some (Q j, E (j + 1))) →
      (∀ j, j < N → K (encIt p (specInfo t p.comps mp mr) false (Q j))) →
      (∀ j, j < N → (Q j).precno0 = 0 ∧ (Q j).layno1 ≤ p.numlayers ∧ (Q j).resno1 < 2 ^ 32 ∧
        (Q j).compno0 < p.comps.length ∧ (Q j).compno1 ≤ p.comps.length ∧ (Q j).prg = p.prg ∧
        order t p.comps (Q j).bounds p.prg = order t p.comps (B j) p.prg) →
      order t p.comps (whole p) p.prg = (upto 0 N).flatMap (fun j => order t p.comps (B j) p.prg) →
      (∀ j, ∀ k ∈ order t p.comps (B j) p.prg, f.of k = j) →
      ∃ N F, (∀ fuel, F ≤ fuel → encodeParts m fuel p (some f) n = some (some ((List.range N).map fun i =>
        (order t p.comps (whole p) p.prg).filter fun k => f.of k = i))) ∧
      ((List.range N).map fun i => (order t p.comps (whole p) p.prg).filter fun k => f.of k = i).flatten =
        order t p.comps (whole p) p.prg := by
    intro K E Q B N h1 h2 h3 h4 h5 h6 h7 h8
    have hpart : (List.range N).map (fun i => (order t p.comps (whole p) p.prg).filter fun k => f.of k = i) =
        (List.range N).map (fun i => order t p.comps (B i) p.prg) := by
      refine List.map_congr_left fun i hi => ?_
      rw [List.mem_range] at hi
      rw [h7]
      exact filter_part _ _ h8 0 N i ⟨by omega, hi⟩
    have hd : ∀ j, j < N → ∃ F, ∀ fuel, F ≤ fuel → ∃ s',
        drain m fuel fuel (encIt p (specInfo t p.comps mp mr) false (Q j)) = some (order t p.comps (B j) p.prg, s') := by
      intro j hj
      obtain ⟨a1, a2, a3, a4, a5, a6, a7⟩ := h6 j hj
      have hr := encIt_ready hT (p := p) rfl (by omega) g (q := Q j) a1 a2 a3 a4 a5
      obtain ⟨F, hF⟩ := drain_it m hT (by omega) hlt (Q j) (by rw [a6]; exact ho) (fun _ => false) _ hr rfl
      refine ⟨F, fun fuel hfu => ?_⟩
      obtain ⟨s', e1, _⟩ := hF fuel fuel hfu hfu
      refine ⟨s', ?_⟩
      rw [e1, sweep_free hT g (b := (Q j).bounds) a2, a6, a7]
    obtain ⟨F, hF⟩ := encParts_on m h1 E Q _ N h4 h5 hd N 0 (by omega)
    refine ⟨N, F, fun fuel hfu => ?_, ?_⟩
    · unfold encodeParts
      rw [e]
      simp only [Option.bind_eq_bind, Option.bind_some]
      rw [if_neg (encIt_size rfl g hl)]
      unfold encPocs
      rw [hpoc]
      simp only
      rw [encProgs, encProgs, ← h2, h3]
      simp only [Option.bind_eq_bind, Option.bind_some, Option.isSome_some]
      rw [hF fuel hfu, hpart, ← List.range_eq_range']
      simp
    · rw [hpart, ← List.flatMap_def, range_eq_upto, ← h7]
  have hcase : p.prg = 0 ∨ p.prg = 1 ∨ p.prg = 4 := by
    have := ho.1
    have := ho.2.1
    rcases (show p.prg = 0 ∨ p.prg = 1 ∨ p.prg = 2 ∨ p.prg = 3 ∨ p.prg = 4 by omega) with e | e | e | e | e
    · exact Or.inl e
    · exact Or.inr (Or.inl e)
    · rw [e] at hf; simp [lettersOf] at hf
    · rw [e] at hf; simp [lettersOf] at hf; exact absurd hf.symm hne
    · exact Or.inr (Or.inr e)
  have hinc : ∀ j, j < 70000 → inc32 j = j + 1 := by intro j hj; unfold inc32; omega
  rcases hcase with hp | hp | hp
  · -- LRCP, L
    have hfl : f = .lay := by rw [hp] at hf; simp [lettersOf] at hf; exact hf.symm
    subst hfl
    obtain ⟨w, hw⟩ : ∃ w, w = encWhole p (specInfo t p.comps mp mr) := ⟨_, rfl⟩
    have w1 : w.prg = 0 := by rw [hw]; exact hp
    have w2 : w.layE = p.numlayers := by rw [hw]; rfl
    have w3 : w.layS = 0 := by rw [hw]; rfl
    have w4 : w.resS = 0 ∧ w.resE = mr := by rw [hw]; exact ⟨rfl, rfl⟩
    have w5 : w.compS = 0 ∧ w.compE = p.comps.length := by rw [hw]; exact ⟨rfl, by simp [encWhole, EncPoc.onTile, specInfo]⟩
    have w6 : w.prcS = 0 ∧ w.prcE = mp := by rw [hw]; exact ⟨rfl, rfl⟩
    have w7 : w.layT = 0 := by rw [hw]; rfl
    refine fin (K := Uniform mp 0) (fun j => { w with layT := j })
      (fun j => { layno0 := j, layno1 := j + 1, resno0 := 0, resno1 := mr, compno0 := 0, compno1 := p.comps.length,
                  precno0 := 0, precno1 := mp, prg := 0 })
      (fun j => ⟨j, j + 1, 0, 33, 0, p.comps.length⟩) p.numlayers (next_lrcp m mp) ?_ ?_ ?_ ?_ ?_ ?_ ?_
    · show { w with layT := 0 } = _
      rw [← hw, ← w7]
    · unfold numTp
      rw [hp]
      simp [lettersOf, numTp.go, w2]
      omega
    · intro j hj
      unfold createEncode
      simp only [if_true, w1, lettersOf, rangeFirst, rangeNext, w2, w3, w4, w5, w6]
      simp [rangeRest, w1, w2, w3, w4, w5, w6]
      by_cases hj0 : j = 0
      · subst hj0; simp [hinc 0 (by omega)]
      · simp [hj0, hinc j (by omega)]; omega
    · intro j hj
      exact ⟨rfl, rfl, rfl, hun (hu (Or.inl hp))⟩
    · intro j hj
      refine ⟨rfl, ?_, ?_, hpos.1, le_refl _, hp.symm, ?_⟩
      · show j + 1 ≤ _; omega
      · show mr < _; omega
      · exact order_clip g j (j + 1) 0 0 _ _
    · rw [hp]
      unfold order whole
      simp only [if_true]
      unfold lrcp
      refine flatMap_congr' _ _ _ fun l _ => ?_
      simp only
      rw [upto_one]
      simp
    · intro j k hk
      have := isPacket_of_mem hT hk
      unfold IsPacket at this
      simp only at this
      show k.layno = j
      omega
  · -- RLCP, R
    have hfl : f = .res := by rw [hp] at hf; simp [lettersOf] at hf; exact hf.symm
    subst hfl
    obtain ⟨w, hw⟩ : ∃ w, w = encWhole p (specInfo t p.comps mp mr) := ⟨_, rfl⟩
    have w1 : w.prg = 1 := by rw [hw]; exact hp
    have w2 : w.layE = p.numlayers := by rw [hw]; rfl
    have w3 : w.layS = 0 := by rw [hw]; rfl
    have w4 : w.resS = 0 ∧ w.resE = mr := by rw [hw]; exact ⟨rfl, rfl⟩
    have w5 : w.compS = 0 ∧ w.compE = p.comps.length := by rw [hw]; exact ⟨rfl, by simp [encWhole, EncPoc.onTile, specInfo]⟩
    have w6 : w.prcS = 0 ∧ w.prcE = mp := by rw [hw]; exact ⟨rfl, rfl⟩
    have w7 : w.resT = 0 := by rw [hw]; rfl
    refine fin (K := Uniform mp 1) (fun j => { w with resT := j })
      (fun j => { layno0 := 0, layno1 := p.numlayers, resno0 := j, resno1 := j + 1, compno0 := 0,
                  compno1 := p.comps.length, precno0 := 0, precno1 := mp, prg := 1 })
      (fun j => ⟨0, p.numlayers, j, j + 1, 0, p.comps.length⟩) mr (next_rlcp m mp) ?_ ?_ ?_ ?_ ?_ ?_ ?_
    · show { w with resT := 0 } = _
      rw [← hw, ← w7]
    · unfold numTp
      rw [hp]
      simp [lettersOf, numTp.go, w4]
      omega
    · intro j hj
      unfold createEncode
      simp only [if_true, w1, lettersOf, rangeFirst, rangeNext, w2, w3, w4, w5, w6]
      simp [rangeRest, w1, w2, w3, w4, w5, w6]
      by_cases hj0 : j = 0
      · subst hj0; simp [hinc 0 (by omega)]
      · simp [hj0, hinc j (by omega)]; omega
    · intro j hj
      exact ⟨rfl, rfl, rfl, hun (hu (Or.inr hp))⟩
    · intro j hj
      refine ⟨rfl, le_refl _, ?_, hpos.1, le_refl _, hp.symm, rfl⟩
      show j + 1 < _; omega
    · rw [hp]
      show order _ _ ⟨0, p.numlayers, 0, 33, 0, p.comps.length⟩ 1 = _
      rw [← order_clip g 0 p.numlayers 0 0 p.comps.length 1]
      unfold order
      simp only [show ¬ ((1 : Int) = 0) by decide, if_true, if_false]
      unfold rlcp
      refine flatMap_congr' _ _ _ fun l _ => ?_
      simp only
      rw [upto_one]
      simp
    · intro j k hk
      have := isPacket_of_mem hT hk
      unfold IsPacket at this
      simp only at this
      show k.resno = j
      omega
  · -- CPRL, C
    have hfl : f = .comp := by rw [hp] at hf; simp [lettersOf] at hf; exact hf.symm
    subst hfl
    obtain ⟨w, hw⟩ : ∃ w, w = encWhole p (specInfo t p.comps mp mr) := ⟨_, rfl⟩
    have w1 : w.prg = 4 := by rw [hw]; exact hp
    have w2 : w.layE = p.numlayers := by rw [hw]; rfl
    have w3 : w.layS = 0 := by rw [hw]; rfl
    have w4 : w.resS = 0 ∧ w.resE = mr := by rw [hw]; exact ⟨rfl, rfl⟩
    have w5 : w.compS = 0 ∧ w.compE = p.comps.length := by rw [hw]; exact ⟨rfl, by simp [encWhole, EncPoc.onTile, specInfo]⟩
    have w6 : w.txS = t.tx0 ∧ w.tyS = t.ty0 ∧ w.txE = t.tx1 ∧ w.tyE = t.ty1 := by rw [hw]; exact ⟨rfl, rfl, rfl, rfl⟩
    have w7 : w.compT = 0 := by rw [hw]; rfl
    refine fin (K := Whole) (fun j => { w with compT := j })
      (fun j => { layno0 := 0, layno1 := p.numlayers, resno0 := 0, resno1 := mr, compno0 := j, compno1 := j + 1,
                  tx0 := t.tx0, ty0 := t.ty0, tx1 := t.tx1, ty1 := t.ty1, prg := 4 })
      (fun j => ⟨0, p.numlayers, 0, 33, j, j + 1⟩) p.comps.length (next_cprl m) ?_ ?_ ?_ ?_ ?_ ?_ ?_
    · show { w with compT := 0 } = _
      rw [← hw, ← w7]
    · unfold numTp
      rw [hp]
      simp [lettersOf, numTp.go, w5]
      omega
    · intro j hj
      unfold createEncode
      simp only [if_true, w1, lettersOf, rangeFirst, rangeNext, w2, w3, w4, w5, w6]
      simp [rangeRest, w1, w2, w3, w4, w5, w6]
      by_cases hj0 : j = 0
      · subst hj0; simp [hinc 0 (by omega)]
      · simp [hj0, hinc j (by omega)]; omega
    · intro j hj
      exact ⟨rfl, rfl, rfl, rfl, rfl, rfl⟩
    · intro j hj
      refine ⟨rfl, le_refl _, ?_, hj, ?_, hp.symm, ?_⟩
      · show mr < _; omega
      · show j + 1 ≤ _; omega
      · exact order_clip g 0 _ 0 j _ _
    · rw [hp]
      unfold order whole
      simp only [show ¬ ((4 : Int) = 0) by decide, show ¬ ((4 : Int) = 1) by decide, show ¬ ((4 : Int) = 2) by decide,
        show ¬ ((4 : Int) = 3) by decide, if_true, if_false]
      unfold cprl
      refine flatMap_congr' _ _ _ fun l _ => ?_
      simp only
      rw [upto_one]
      simp
    · intro j k hk
      have := isPacket_of_mem hT hk
      unfold IsPacket at this
      simp only at this
      show k.compno = j
      omega

end Jp2.Pi

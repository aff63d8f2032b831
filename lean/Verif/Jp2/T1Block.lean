import Verif.Jp2.T1Clean
import Verif.Jp2.T1Run
/-!
# Whole code blocks: encoder passes grouped into segments, decoded segment by segment
-/
namespace Jp2.T1
open Jp2.Mqc (Mqc startCtxs RE0 bytes)

/-! ## All decisions are bits -/

/-- Everything emitted is 0 or 1. -/
def Bits (e : Enc) : Prop := ∀ F tr F', e F = some (tr, F') → ∀ p ∈ tr, p.2 ≤ 1

theorem Bits.skip : Bits Enc.skip := by
  intro F tr F' h p hp
  injection h with h
  injection h with h1 h2
  subst h1
  simp at hp

theorem Bits.seq {a b : Enc} (ha : Bits a) (hb : Bits b) : Bits (Enc.seq a b) := by
  intro F tr F' h p hp
  unfold Enc.seq at h
  rw [Option.bind_eq_some_iff] at h
  obtain ⟨⟨t1, F1⟩, h1, h⟩ := h
  rw [Option.map_eq_some_iff] at h
  obtain ⟨⟨t2, F2⟩, h2, h⟩ := h
  injection h with e1 e2
  subst e1
  rcases List.mem_append.mp hp with hp | hp
  · exact ha _ _ _ h1 p hp
  · exact hb _ _ _ h2 p hp

theorem Bits.emit {l : List Sym} {a : Enc} (hl : ∀ p ∈ l, p.2 ≤ 1) (ha : Bits a) : Bits (Enc.emit l a) := by
  intro F tr F' h p hp
  unfold Enc.emit at h
  rw [Option.map_eq_some_iff] at h
  obtain ⟨⟨t, F1⟩, h1, h⟩ := h
  injection h with e1 e2
  subst e1
  rcases List.mem_append.mp hp with hp | hp
  · exact hl p hp
  · exact ha _ _ _ h1 p hp

theorem Bits.get {f : Nat} {k : Word → Enc} (h : ∀ x, Bits (k x)) : Bits (Enc.get f k) := by
  intro F tr F' he p hp
  unfold Enc.get at he
  rw [Option.bind_eq_some_iff] at he
  obtain ⟨x, _, he⟩ := he
  exact h x F tr F' he p hp

theorem Bits.upd {u : List Word → Option (List Word)} : Bits (Enc.upd u) := by
  intro F tr F' h p hp
  unfold Enc.upd at h
  rw [Option.map_eq_some_iff] at h
  obtain ⟨F1, _, h⟩ := h
  injection h with h1 h2
  subst h1
  simp at hp

theorem Bits.ite {c : Prop} [Decidable c] {a b : Enc} (ha : Bits a) (hb : Bits b) : Bits (if c then a else b) := by
  split <;> assumption

theorem bitOf_le (one x : Nat) : bitOf one x ≤ 1 := by unfold bitOf; split <;> omega

theorem spb_le {i spb : Nat} (h : lutSpb[i]? = some spb) : spb < 2 := by
  have h1 : ∀ x ∈ lutSpb, x < 2 := by decide +kernel
  exact h1 spb (List.mem_of_getElem? h)

theorem bits_encSign {w v f ci : Nat} {raw vsc : Bool} {x : Word} (hv : v < 2 ^ 32) : Bits (encSign w raw v f ci vsc x) := by
  intro F tr F' he p hp
  unfold encSign at he
  split at he
  · simp at he
  rw [Option.bind_eq_some_iff] at he
  obtain ⟨p1, hp1, he⟩ := he
  rw [Option.bind_eq_some_iff] at he
  obtain ⟨n, hn1, he⟩ := he
  rw [Option.bind_eq_some_iff] at he
  obtain ⟨c2, hc2, he⟩ := he
  rw [Option.bind_eq_some_iff] at he
  obtain ⟨spb, hspb, he⟩ := he
  rw [Option.map_eq_some_iff] at he
  obtain ⟨F1, hu, he⟩ := he
  injection he with e1 e2
  subst e1
  have h1 := signOf_le hv
  have h2 := spb_le hspb
  simp only [List.mem_singleton] at hp
  subst hp
  split
  · show signOf v ≤ 1; omega
  · show signOf v ^^^ spb ≤ 1
    have := Nat.xor_lt_two_pow (n := 1) (by omega : signOf v < 2 ^ 1) (by omega : spb < 2 ^ 1)
    omega

theorem get_lt {data : List Nat} (hd : ∀ i, data.getD i 0 < 2 ^ 32) {i v : Nat} (h : data[i]? = some v) : v < 2 ^ 32 := by
  have := hd i; rw [getElem_getD h] at this; exact this

theorem bits_sigStep {o w one f dp ci : Nat} {raw vsc : Bool} {data : List Nat} (hd : ∀ i, data.getD i 0 < 2 ^ 32) :
    Bits (encSigStep o w raw one data f dp ci vsc) := by
  apply Bits.get
  intro x F tr F' he p hp
  dsimp only at he
  split at he
  · rw [Option.bind_eq_some_iff] at he
    obtain ⟨c1, hc1, he⟩ := he
    rw [Option.bind_eq_some_iff] at he
    obtain ⟨v, hv, he⟩ := he
    exact Bits.emit (by intro q hq; simp only [List.mem_singleton] at hq; subst hq; exact bitOf_le _ _)
      (Bits.seq (Bits.ite (bits_encSign (get_lt hd hv)) Bits.skip) Bits.upd) F tr F' he p hp
  · injection he with he
    injection he with e1 e2
    subst e1
    simp at hp

theorem bits_rowsE {s : Nat → Nat → Enc} (h : ∀ a b, Bits (s a b)) : ∀ n ci dp, Bits (rowsE s n ci dp) := by
  intro n
  induction n with
  | zero => intro ci dp; exact Bits.skip
  | succ n ih => intro ci dp; exact Bits.seq (h _ _) (ih _ _)

theorem bits_colsE {s : Nat → Nat → Enc} {d : Nat} (h : ∀ a b, Bits (s a b)) : ∀ n ci dp, Bits (colsE s d n ci dp) := by
  intro n
  induction n with
  | zero => intro ci dp; exact Bits.skip
  | succ n ih => intro ci dp; exact Bits.seq (h _ _) (ih _ _)

theorem bits_stripesE {s : Nat → Nat → Enc} {w : Nat} (h : ∀ a b, Bits (s a b)) : ∀ n ci dp, Bits (stripesE s w n ci dp) := by
  intro n
  induction n with
  | zero => intro ci dp; exact Bits.skip
  | succ n ih => intro ci dp; exact Bits.seq (bits_colsE h _ _ _) (ih _ _)

theorem bits_passE {w h : Nat} {a b : Nat → Nat → Enc} (ha : ∀ i j, Bits (a i j)) (hb : ∀ i j, Bits (b i j)) : Bits (passE w h a b) :=
  Bits.seq (bits_stripesE ha _ _ _) (Bits.ite Bits.skip (bits_colsE hb _ _ _))

theorem bits_refStep {one f dp ci : Nat} {data : List Nat} : Bits (encRefStep one data f dp ci) := by
  apply Bits.get
  intro x F tr F' he p hp
  dsimp only at he
  split at he
  · rw [Option.bind_eq_some_iff] at he
    obtain ⟨v, hv, he⟩ := he
    rw [Option.map_eq_some_iff] at he
    obtain ⟨F1, _, he⟩ := he
    injection he with e1 e2
    subst e1
    simp only [List.mem_singleton] at hp
    subst hp
    exact bitOf_le _ _
  · injection he with he
    injection he with e1 e2
    subst e1
    simp at hp

theorem bits_clnStep {o w one f dp ci : Nat} {vsc part : Bool} {data : List Nat} (hd : ∀ i, data.getD i 0 < 2 ^ 32) :
    Bits (encClnStep o w one data f vsc part dp ci) := by
  refine Bits.seq (Bits.get fun x => ?_) Bits.upd
  intro F tr F' he p hp
  dsimp only at he
  split at he
  · rw [Option.bind_eq_some_iff] at he
    obtain ⟨v, hv, he⟩ := he
    exact bits_encSign (get_lt hd hv) F tr F' he p hp
  · split at he
    · rw [Option.bind_eq_some_iff] at he
      obtain ⟨c1, hc1, he⟩ := he
      rw [Option.bind_eq_some_iff] at he
      obtain ⟨v, hv, he⟩ := he
      exact Bits.emit (by intro q hq; simp only [List.mem_singleton] at hq; subst hq; exact bitOf_le _ _)
        (Bits.ite (bits_encSign (get_lt hd hv)) Bits.skip) F tr F' he p hp
    · injection he with he
      injection he with e1 e2
      subst e1
      simp at hp

theorem bits_clnRows {o w one f : Nat} {vsc : Bool} {data : List Nat} (hd : ∀ i, data.getD i 0 < 2 ^ 32) :
    ∀ n part ci dp, Bits (encClnRows o w one data f vsc n part ci dp) := by
  intro n
  induction n with
  | zero => intro part ci dp; exact Bits.skip
  | succ n ih => intro part ci dp; exact Bits.seq (bits_clnStep hd) (ih _ _ _)

theorem bits_clnMacro {o w one f r lim dp : Nat} {vsc agg : Bool} {data : List Nat} (hd : ∀ i, data.getD i 0 < 2 ^ 32) :
    Bits (encClnMacro o w one data f vsc agg r lim dp) :=
  Bits.get fun _ => Bits.ite Bits.upd (bits_clnRows hd _ _ _ _)

theorem bits_clnCol {o w one f dp : Nat} {vsc : Bool} {data : List Nat} (hd : ∀ i, data.getD i 0 < 2 ^ 32) :
    Bits (encClnCol o w one data vsc f dp) := by
  refine Bits.get fun x => ?_
  intro F tr F' he p hp
  dsimp only at he
  split at he
  · rw [Option.bind_eq_some_iff] at he
    obtain ⟨r, hr, he⟩ := he
    have hr4 := (runLen_spec 4 dp r hr).1
    refine Bits.emit ?_ (bits_clnMacro hd) F tr F' he p hp
    intro q hq
    rcases List.mem_cons.mp hq with hq | hq
    · subst hq
      show (if r ≠ 4 then 1 else 0) ≤ 1
      split <;> omega
    · split at hq
      · rename_i h4
        simp only [List.mem_cons, List.not_mem_nil, or_false] at hq
        rcases hq with hq | hq
        · subst hq; show r >>> 1 ≤ 1; rw [Nat.shiftRight_eq_div_pow]; omega
        · subst hq; show r &&& 1 ≤ 1; rw [Nat.and_one_is_mod]; omega
      · simp at hq
  · exact bits_clnMacro hd F tr F' he p hp

theorem bits_passTrace {o w h n b t : Nat} {st : Style} {data : List Nat} (hd : ∀ i, data.getD i 0 < 2 ^ 32) :
    Bits (passTrace o w h n st data b t) := by
  unfold passTrace
  refine Bits.ite ?_ (Bits.ite ?_ (Bits.seq ?_ (Bits.ite ?_ Bits.skip)))
  · exact bits_passE (fun _ _ => Bits.get fun _ => Bits.ite Bits.skip (bits_rowsE (fun _ _ => bits_sigStep hd) _ _ _))
      (fun _ _ => Bits.get fun _ => Bits.ite Bits.skip (bits_rowsE (fun _ _ => bits_sigStep hd) _ _ _))
  · exact bits_passE (fun _ _ => Bits.get fun _ => Bits.ite Bits.skip (Bits.ite Bits.skip (bits_rowsE (fun _ _ => bits_refStep) _ _ _)))
      (fun _ _ => Bits.get fun _ => Bits.ite Bits.skip (bits_rowsE (fun _ _ => bits_refStep) _ _ _))
  · exact bits_passE (fun _ _ => bits_clnCol hd) (fun _ _ => bits_clnMacro hd)
  · exact Bits.emit (by decide) Bits.skip

/-! ## The encoder's passes, apart from the coder -/

/-- A pass: is it raw, is it terminated, and its decisions. -/
structure PI where
  raw : Bool
  term : Bool
  tr : List Sym

/-- `encLoop` without the coder. -/
def traceLoop (o w h n : Nat) (st : Style) (data : List Nat) : Nat → Nat → Nat → List Word → Option (List PI × List Word)
  | _, 0, _, F => some ([], F)
  | 0, _ + 1, _, _ => none
  | fuel + 1, b + 1, t, F =>
    (passTrace o w h n st data b t F).bind fun (tr, F) =>
    (if t + 1 = 3 then traceLoop o w h n st data fuel b 0 F else traceLoop o w h n st data fuel (b + 1) (t + 1) F).map fun (l, F) =>
      (⟨rawE st n b t, isTerm st n b t, tr⟩ :: l, F)

/-- The coder's part of a pass. -/
def codeItem (st : Style) (prev : Bool) (s : Mqc) (p : PI) : Option (Mqc × Pass) :=
  (if prev then if p.raw then Mqc.bypassInitEnc s else Mqc.restartInitEnc s else some s).bind fun s =>
  (codeTr p.raw s p.tr).bind fun s =>
  (if p.term then
    (finTr p.raw st.pterm s).map fun s => (s, { term := true, rate := numbytes32 s : Pass })
  else
    (if p.raw then bypassExtra s st.pterm else some 3).map fun x =>
      (s, { term := false, rate := (numbytes32 s + x) % 2 ^ 32 : Pass })).map fun (s, q) => (rst st.reset s, q)

def codeLoop (st : Style) : Bool → Mqc → List PI → Option (Mqc × List Pass)
  | _, s, [] => some (s, [])
  | prev, s, p :: l => (codeItem st prev s p).bind fun (s, q) => (codeLoop st p.term s l).map fun (s, qs) => (s, q :: qs)

theorem codeItem_term {st : Style} {prev : Bool} {s s' : Mqc} {p : PI} {q : Pass} (h : codeItem st prev s p = some (s', q)) : q.term = p.term := by
  unfold codeItem at h
  rw [Option.bind_eq_some_iff] at h
  obtain ⟨s1, _, h⟩ := h
  rw [Option.bind_eq_some_iff] at h
  obtain ⟨s2, _, h⟩ := h
  rw [Option.map_eq_some_iff] at h
  obtain ⟨⟨s3, q'⟩, h, h2⟩ := h
  injection h2 with _ h2
  subst h2
  split at h
  · rename_i hp
    rw [Option.map_eq_some_iff] at h
    obtain ⟨_, _, h⟩ := h
    injection h with _ h
    subst h
    exact hp.symm
  · rename_i hp
    rw [Option.map_eq_some_iff] at h
    obtain ⟨_, _, h⟩ := h
    injection h with _ h
    subst h
    simp at hp
    exact hp.symm

theorem encPass_split {o w h n b t : Nat} {st : Style} {data : List Nat} {e e' : ES} (he : encPass o w h n st data b t e = some e') :
    ∃ tr q, passTrace o w h n st data b t e.F = some (tr, e'.F) ∧
      codeItem st ((e.passes.getLast?.map Pass.term) == some true) e.s ⟨rawE st n b t, isTerm st n b t, tr⟩ = some (e'.s, q) ∧
      e'.passes = e.passes ++ [q] := by
  unfold encPass at he
  dsimp only at he
  rw [Option.bind_eq_some_iff] at he
  obtain ⟨s1, h1, he⟩ := he
  rw [Option.bind_eq_some_iff] at he
  obtain ⟨⟨tr, F⟩, h2, he⟩ := he
  rw [Option.bind_eq_some_iff] at he
  obtain ⟨s2, h3, he⟩ := he
  rw [Option.map_eq_some_iff] at he
  obtain ⟨⟨s3, q⟩, h4, he⟩ := he
  subst he
  refine ⟨tr, q, h2, ?_, rfl⟩
  unfold codeItem
  have h1' : (if ((e.passes.getLast?.map Pass.term) == some true) = true then
      if rawE st n b t then Mqc.bypassInitEnc e.s else Mqc.restartInitEnc e.s else some e.s) = some s1 := by
    rw [← h1]
    simp only [beq_iff_eq]
  have h3' : codeTr (rawE st n b t) s1 tr = some s2 := h3
  dsimp only
  rw [h1', Option.bind_some, h3', Option.bind_some]
  have h4' : (if isTerm st n b t = true then
      (finTr (rawE st n b t) st.pterm s2).map fun s => (s, { term := true, rate := numbytes32 s : Pass })
    else
      (if rawE st n b t = true then bypassExtra s2 st.pterm else some 3).map fun x =>
        (s2, { term := false, rate := (numbytes32 s2 + x) % 2 ^ 32 : Pass })) = some (s3, q) := h4
  rw [h4', Option.map_some]
  rfl

theorem encLoop_split {o w h n : Nat} {st : Style} {data : List Nat} : ∀ (fuel b1 t : Nat) {e e' : ES}, encLoop o w h n st data fuel b1 t e = some e' →
    ∃ items ps, traceLoop o w h n st data fuel b1 t e.F = some (items, e'.F) ∧
      codeLoop st ((e.passes.getLast?.map Pass.term) == some true) e.s items = some (e'.s, ps) ∧ e'.passes = e.passes ++ ps := by
  intro fuel
  induction fuel with
  | zero =>
    intro b1 t e e' he
    cases b1 with
    | zero => injection he with he; subst he; exact ⟨[], [], rfl, rfl, by simp⟩
    | succ b => simp [encLoop] at he
  | succ fuel ih =>
    intro b1 t e e' he
    cases b1 with
    | zero => injection he with he; subst he; exact ⟨[], [], rfl, rfl, by simp⟩
    | succ b =>
      unfold encLoop at he
      rw [Option.bind_eq_some_iff] at he
      obtain ⟨e1, h1, he⟩ := he
      obtain ⟨tr, q, g1, g2, g3⟩ := encPass_split h1
      have hlast : ((e1.passes.getLast?.map Pass.term) == some true) = isTerm st n b t := by
        rw [g3, List.getLast?_concat, Option.map_some, codeItem_term g2]
        simp
      obtain ⟨items, ps, k1, k2, k3⟩ : ∃ items ps, (if t + 1 = 3 then traceLoop o w h n st data fuel b 0 e1.F else
          traceLoop o w h n st data fuel (b + 1) (t + 1) e1.F) = some (items, e'.F) ∧
          codeLoop st (isTerm st n b t) e1.s items = some (e'.s, ps) ∧ e'.passes = e1.passes ++ ps := by
        split at he
        · rename_i ht
          obtain ⟨items, ps, k1, k2, k3⟩ := ih _ _ he
          rw [hlast] at k2
          exact ⟨items, ps, by rw [if_pos ht]; exact k1, k2, k3⟩
        · rename_i ht
          obtain ⟨items, ps, k1, k2, k3⟩ := ih _ _ he
          rw [hlast] at k2
          exact ⟨items, ps, by rw [if_neg ht]; exact k1, k2, k3⟩
      refine ⟨⟨rawE st n b t, isTerm st n b t, tr⟩ :: items, q :: ps, ?_, ?_, ?_⟩
      · unfold traceLoop
        rw [g1, Option.bind_some]
        simp only [k1, Option.map_some]
      · unfold codeLoop
        rw [g2, Option.bind_some]
        simp only [k2, Option.map_some]
      · rw [k3, g3, List.append_assoc]
        rfl

/-! ## Segments -/

/-- A pass that is not terminated is followed by one of the same kind; the last one is terminated. -/
def Chain : List PI → Prop
  | [] => True
  | [p] => p.term = true
  | p :: q :: l => (p.term = false → q.raw = p.raw) ∧ Chain (q :: l)

theorem chain_split : ∀ (items : List PI), items ≠ [] → Chain items → ∃ init last rest, items = init ++ last :: rest ∧
    (∀ p ∈ init, p.term = false ∧ p.raw = last.raw) ∧ last.term = true ∧ Chain rest ∧ (∀ p, items.head? = some p → p.raw = last.raw) := by
  intro items
  induction items with
  | nil => intro h; exact absurd rfl h
  | cons p l ih =>
    intro _ hc
    by_cases hp : p.term = true
    · refine ⟨[], p, l, rfl, by simp, hp, ?_, by simp⟩
      cases l with
      | nil => trivial
      | cons q l => exact hc.2
    · cases l with
      | nil => exact absurd hc hp
      | cons q l =>
        obtain ⟨init, last, rest, h1, h2, h3, h4, h5⟩ := ih (by simp) hc.2
        have hq := h5 q rfl
        have hpq := hc.1 (by simpa using hp)
        refine ⟨p :: init, last, rest, by rw [h1]; rfl, ?_, h3, h4, ?_⟩
        · intro x hx
          rcases List.mem_cons.mp hx with rfl | hx
          · exact ⟨by simpa using hp, by rw [← hpq, hq]⟩
          · exact h2 x hx
        · intro x hx
          injection hx with hx
          subst hx
          rw [← hpq, hq]

theorem raw_next {st : Style} {n b t : Nat} (ht : t < 3) (h : isTerm st n b t = false) :
    (t + 1 ≠ 3 → rawE st n b (t + 1) = rawE st n b t) ∧ (t + 1 = 3 → 1 ≤ b ∧ rawE st n (b - 1) 0 = rawE st n b t) := by
  unfold isTerm at h
  unfold rawE
  simp only [Bool.or_eq_false_iff, Bool.and_eq_false_iff, beq_eq_false_iff_ne, decide_eq_false_iff_not] at h
  obtain ⟨⟨h1, h2⟩, h3⟩ := h
  cases hby : st.bypass with
  | false => simp; omega
  | true =>
    rw [hby] at h3
    simp only [Bool.true_eq_false, false_or, Bool.and_true] at h3 ⊢
    constructor
    · intro h4
      rw [← Bool.decide_and, ← Bool.decide_and]
      apply decide_eq_decide.mpr
      omega
    · intro h4
      refine ⟨by omega, ?_⟩
      rw [← Bool.decide_and, ← Bool.decide_and]
      apply decide_eq_decide.mpr
      omega

theorem trace_head {o w h n : Nat} {st : Style} {data : List Nat} {fuel b1 t : Nat} {F F' : List Word} {items : List PI}
    (he : traceLoop o w h n st data fuel b1 t F = some (items, F')) :
    (b1 = 0 ∧ items = []) ∨ ∃ b p l, b1 = b + 1 ∧ items = p :: l ∧ p.raw = rawE st n b t ∧ p.term = isTerm st n b t := by
  cases b1 with
  | zero =>
    left
    cases fuel <;> (injection he with he; injection he with h1 h2; exact ⟨rfl, h1.symm⟩)
  | succ b =>
    right
    cases fuel with
    | zero => simp [traceLoop] at he
    | succ fuel =>
      unfold traceLoop at he
      rw [Option.bind_eq_some_iff] at he
      obtain ⟨⟨tr, F1⟩, h1, he⟩ := he
      rw [Option.map_eq_some_iff] at he
      obtain ⟨⟨l, F2⟩, _, he⟩ := he
      injection he with h1 h2
      exact ⟨b, _, l, rfl, h1.symm, rfl, rfl⟩

theorem trace_chain {o w h n : Nat} {st : Style} {data : List Nat} (hd : ∀ i, data.getD i 0 < 2 ^ 32) : ∀ (fuel b1 t : Nat) {F F' : List Word} {items : List PI}, t < 3 →
    traceLoop o w h n st data fuel b1 t F = some (items, F') → Chain items ∧ ∀ p ∈ items, ∀ q ∈ p.tr, q.2 ≤ 1 := by
  intro fuel
  induction fuel with
  | zero =>
    intro b1 t F F' items ht he
    cases b1 with
    | zero => injection he with he; injection he with h1 h2; subst h1; exact ⟨trivial, by simp⟩
    | succ b => simp [traceLoop] at he
  | succ fuel ih =>
    intro b1 t F F' items ht he
    cases b1 with
    | zero => injection he with he; injection he with h1 h2; subst h1; exact ⟨trivial, by simp⟩
    | succ b =>
      unfold traceLoop at he
      rw [Option.bind_eq_some_iff] at he
      obtain ⟨⟨tr, F1⟩, h1, he⟩ := he
      rw [Option.map_eq_some_iff] at he
      obtain ⟨⟨l, F2⟩, h2, he⟩ := he
      injection he with e1 e2
      subst e1
      obtain ⟨hch, hbt, hnext⟩ : Chain l ∧ (∀ p ∈ l, ∀ q ∈ p.tr, q.2 ≤ 1) ∧
          ((l = [] ∧ t + 1 = 3 ∧ b = 0) ∨ ∃ p l', l = p :: l' ∧ ((t + 1 = 3 ∧ 1 ≤ b ∧ p.raw = rawE st n (b - 1) 0) ∨ (t + 1 ≠ 3 ∧ p.raw = rawE st n b (t + 1)))) := by
        split at h2
        · rename_i h3
          obtain ⟨k1, k2⟩ := ih b 0 (by omega) h2
          refine ⟨k1, k2, ?_⟩
          rcases trace_head h2 with ⟨g1, g2⟩ | ⟨b', p, l', g1, g2, g3, g4⟩
          · exact Or.inl ⟨g2, h3, g1⟩
          · subst g1
            exact Or.inr ⟨p, l', g2, Or.inl ⟨h3, by omega, g3⟩⟩
        · rename_i h3
          obtain ⟨k1, k2⟩ := ih (b + 1) (t + 1) (by omega) h2
          refine ⟨k1, k2, ?_⟩
          rcases trace_head h2 with ⟨g1, g2⟩ | ⟨b', p, l', g1, g2, g3, g4⟩
          · omega
          · have : b' = b := by omega
            subst this
            exact Or.inr ⟨p, l', g2, Or.inr ⟨h3, g3⟩⟩
      constructor
      · rcases hnext with ⟨g1, g2, g3⟩ | ⟨p, l', g1, g2⟩
        · subst g1
          show isTerm st n b t = true
          unfold isTerm
          have ht2 : t = 2 := by omega
          subst ht2 g3
          simp
        · subst g1
          refine ⟨fun hterm => ?_, hch⟩
          have := raw_next ht hterm
          rcases g2 with ⟨g2, g3, g4⟩ | ⟨g2, g3⟩
          · rw [g4]; exact (this.2 g2).2
          · rw [g3]; exact this.1 g2
      · intro p hp
        rcases List.mem_cons.mp hp with rfl | hp
        · exact bits_passTrace hd _ _ _ h1
        · exact hbt p hp

/-! ## Decoding the passes of a segment -/

/-- Between passes: `b1` planes left, the next pass being `t`. -/
def Inv (w h : Nat) (data : List Nat) (b1 t : Nat) : Rel3 :=
  if t = 0 ∨ b1 = 0 then St w h data (maskOf w h) b1 (fun _ _ => true) (fun _ _ => true)
  else if t = 2 then St w h data (maskOf w h) (b1 - 1) (fun _ _ => true) (fun _ _ => false)
  else St w h data (maskOf w h) (b1 - 1) (fun _ _ => false) (fun _ _ => false)

theorem plane_start {w h : Nat} {data : List Nat} {b : Nat} {F G : List Word} {D : List Int}
    (hs : St w h data (maskOf w h) (b + 1) (fun _ _ => true) (fun _ _ => true) F G D) :
    St w h data (maskOf w h) b (fun _ _ => false) (fun _ _ => false) F G D := by
  refine ⟨hs.eqv, hs.dl, fun y hy x hx => ?_⟩
  have h1 := hs.ok y hy x hx
  unfold Ok at h1 ⊢
  have h2 := h1.2 rfl
  rw [h2] at h1 ⊢
  simpa using h1.1

theorem segsym_sim {C : Coder Mqc} {P : Rel3} : Sim C false P P (Enc.emit [(18, 1), (18, 0), (18, 1), (18, 0)] Enc.skip) (decSegsym C) := by
  intro F G D tr F' c c' hP he hp
  simp only [Enc.emit, Enc.skip, Option.map_some, List.append_nil] at he
  injection he with he
  injection he with e1 e2
  subst e1 e2
  simp only [Plays, Bool.false_eq_true, if_false] at hp
  obtain ⟨u1, q1, u2, q2, u3, q3, u4, q4, hp⟩ := hp
  subst hp
  refine ⟨G, D, ?_, hP⟩
  unfold decSegsym
  simp only [Dec.bit, Bool.false_eq_true, if_false, Option.bind_some, q1, q2, q3, q4]
  rfl

theorem pass_inv {o w h n b t : Nat} {st : Style} {data : List Nat} (hd : ∀ i, data.getD i 0 < 2 ^ 32) (ht : t < 3) (hb : b < 25) :
    Sim mqcCoder (rawE st n b t) (Inv w h data (b + 1) t) (if t + 1 = 3 then Inv w h data b 0 else Inv w h data (b + 1) (t + 1))
      (passTrace o w h n st data b t) (decPass mqcCoder o w h st (rawE st n b t) (b + 1) t) := by
  unfold passTrace decPass
  dsimp only
  interval_cases t
  · simp only [if_true]
    exact (sigPass_sim hd).mono (fun _ _ _ h => plane_start (by simpa [Inv] using h)) (fun _ _ _ h => by simpa [Inv] using h)
  · simp only [if_true, Nat.reduceAdd, Nat.reduceEqDiff, if_false, one_ne_zero]
    exact (refPass_sim hb).mono (fun _ _ _ h => by simpa [Inv] using h) (fun _ _ _ h => by simpa [Inv] using h)
  · have hraw : rawE st n b 2 = false := by unfold rawE; simp
    rw [hraw]
    simp only [OfNat.ofNat_ne_zero, if_false, OfNat.ofNat_ne_one, Nat.reduceAdd, if_true]
    have h1 : Sim mqcCoder false (Inv w h data (b + 1) 2) (Inv w h data b 0) (encClnPass o w h (2 ^ (b + 6)) st.vsc data)
        (decClnPass mqcCoder o w h (((2 ^ (b + 1) ||| 2 ^ (b + 1) >>> 1 : Nat) : Int)) st.vsc) :=
      (clnPass_sim hd).mono (fun _ _ _ h => by simpa [Inv] using h) (fun _ _ _ h => by simpa [Inv] using h)
    refine h1.seq ?_
    cases st.segsym with
    | true => exact segsym_sim
    | false => exact Sim.skip (fun _ _ _ h => h)

theorem decPasses_sim {o w h n : Nat} {st : Style} {data : List Nat} (hd : ∀ i, data.getD i 0 < 2 ^ 32) {raw : Bool} : ∀ (k fuel b1 t : Nat) {F F' : List Word}
    {items : List PI} {G : List Word} {D : List Int} {c c' : Mqc}, t < 3 → b1 ≤ 25 →
    traceLoop o w h n st data fuel b1 t F = some (items, F') → k ≤ items.length → (∀ p ∈ items.take k, p.raw = raw) →
    PlaysR raw st.reset c ((items.take k).map PI.tr) c' → Inv w h data b1 t F G D →
    ∃ fuel' b1' t' F'' G' D', decPasses o w h st raw k b1 t ⟨c, G, D⟩ = some (b1', t', ⟨c', G', D'⟩) ∧ t' < 3 ∧ b1' ≤ 25 ∧
      traceLoop o w h n st data fuel' b1' t' F'' = some (items.drop k, F') ∧ Inv w h data b1' t' F'' G' D' := by
  intro k
  induction k with
  | zero =>
    intro fuel b1 t F F' items G D c c' ht hb he _ _ hp hI
    rw [List.take_zero, List.map_nil] at hp
    simp only [PlaysR] at hp
    subst hp
    exact ⟨fuel, b1, t, F, G, D, by unfold decPasses; rfl, ht, hb, he, hI⟩
  | succ k ih =>
    intro fuel b1 t F F' items G D c c' ht hb he hk hr hp hI
    cases b1 with
    | zero =>
      rcases trace_head he with ⟨_, g2⟩ | ⟨b', p, l', g1, g2, g3, g4⟩
      · subst g2; simp at hk
      · omega
    | succ b =>
      cases fuel with
      | zero => simp [traceLoop] at he
      | succ fuel =>
        unfold traceLoop at he
        rw [Option.bind_eq_some_iff] at he
        obtain ⟨⟨tr, F1⟩, h1, he⟩ := he
        rw [Option.map_eq_some_iff] at he
        obtain ⟨⟨l, F2⟩, h2, he⟩ := he
        injection he with e1 e2
        subst e1 e2
        rw [List.take_succ_cons] at hr hp
        have hraw : rawE st n b t = raw := hr _ List.mem_cons_self
        obtain ⟨u, hp1, hp2⟩ := hp
        obtain ⟨G1, D1, k1, k2⟩ := pass_inv (o := o) (n := n) (st := st) hd ht (by omega) F G D tr F1 c u hI h1 (by rw [hraw]; exact hp1)
        rw [hraw] at k1
        have hrest : ∃ fuel' b1' t' F'' G' D', (if t + 1 = 3 then decPasses o w h st raw k b 0 ⟨rst (st.reset && !raw) u, G1, D1⟩ else
            decPasses o w h st raw k (b + 1) (t + 1) ⟨rst (st.reset && !raw) u, G1, D1⟩) = some (b1', t', ⟨c', G', D'⟩) ∧ t' < 3 ∧ b1' ≤ 25 ∧
            traceLoop o w h n st data fuel' b1' t' F'' = some (l.drop k, F2) ∧ Inv w h data b1' t' F'' G' D' := by
          split at h2
          · rename_i h3
            rw [if_pos h3] at k2 ⊢
            exact ih fuel b 0 (by omega) (by omega) h2 (by simpa using hk) (fun p hp => hr p (List.mem_cons_of_mem _ hp)) hp2 k2
          · rename_i h3
            rw [if_neg h3] at k2 ⊢
            exact ih fuel (b + 1) (t + 1) (by omega) hb h2 (by simpa using hk) (fun p hp => hr p (List.mem_cons_of_mem _ hp)) hp2 k2
        obtain ⟨fuel', b1', t', F'', G', D', g1, g2, g3, g4, g5⟩ := hrest
        refine ⟨fuel', b1', t', F'', G', D', ?_, g2, g3, by rw [List.drop_succ_cons]; exact g4, g5⟩
        unfold decPasses
        rw [k1, Option.bind_some]
        have hreset : (if st.reset = true ∧ raw = false then ({ c := { u with ctxs := startCtxs }, g := G1, d := D1 } : DS Mqc) else ⟨u, G1, D1⟩) =
            ⟨rst (st.reset && !raw) u, G1, D1⟩ := by
          unfold rst
          cases st.reset <;> cases raw <;> rfl
        dsimp only
        rw [hreset]
        exact g1

end Jp2.T1

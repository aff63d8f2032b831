import Verif.Jp2.BoxColorSafe
import Mathlib.Data.List.Nodup
/-!
# Channel definitions: helper lemmas
-/
namespace Jp2.Box
open Hdr (Fail R refuseIf ok_bind refuse_bind)

/-- Exchange of two numbers. -/
def swapNat (i k c : Nat) : Nat := if c = i then k else if c = k then i else c

theorem swapNat_swapNat (i k c : Nat) : swapNat i k (swapNat i k c) = c := by
  unfold swapNat; split_ifs <;> omega

theorem swapCn_cn (i k : Nat) (d : Def) : (swapCn i k d).cn = swapNat i k d.cn := by
  unfold swapCn swapNat; split_ifs <;> rfl

theorem swapCn_typ (i k : Nat) (d : Def) : (swapCn i k d).typ = d.typ := by
  unfold swapCn; split_ifs <;> rfl

theorem swapCn_asoc (i k : Nat) (d : Def) : (swapCn i k d).asoc = d.asoc := by
  unfold swapCn; split_ifs <;> rfl

theorem swapComps_eq {comps : List Comp} {i k : Nat} (hi : i < comps.length) (hk : k < comps.length) :
    swapComps comps i k = (comps.set i comps[k]).set k comps[i] := by
  unfold swapComps
  rw [List.getElem?_eq_getElem hi, List.getElem?_eq_getElem hk]

theorem swapComps_perm (comps : List Comp) (i k : Nat) : (swapComps comps i k).Perm comps := by
  unfold swapComps
  cases hi : comps[i]? with
  | none => exact List.Perm.refl _
  | some a =>
    cases hk : comps[k]? with
    | none => exact List.Perm.refl _
    | some b =>
      obtain ⟨h1, rfl⟩ := List.getElem?_eq_some_iff.1 hi
      obtain ⟨h2, rfl⟩ := List.getElem?_eq_some_iff.1 hk
      exact List.set_set_perm h1 h2

theorem swapComps_len (comps : List Comp) (i k : Nat) : (swapComps comps i k).length = comps.length :=
  (swapComps_perm comps i k).length_eq

theorem swapComps_get {comps : List Comp} {i k : Nat} (hi : i < comps.length) (hk : k < comps.length) (c : Nat) :
    (swapComps comps i k)[c]? = comps[swapNat i k c]? := by
  rw [swapComps_eq hi hk, List.getElem?_set, List.getElem?_set]
  unfold swapNat
  rw [List.length_set]
  by_cases hck : k = c
  · subst hck
    rw [if_pos rfl, if_pos hk]
    by_cases h : k = i
    · subst h
      rw [if_pos rfl, List.getElem?_eq_getElem hi]
    · rw [if_neg h, if_pos rfl, List.getElem?_eq_getElem hi]
  · rw [if_neg hck]
    by_cases h : i = c
    · subst h
      rw [if_pos rfl, if_pos hi, if_pos rfl, List.getElem?_eq_getElem hk]
    · rw [if_neg h, if_neg (Ne.symm h), if_neg (Ne.symm hck)]

theorem setAlpha_len (comps : List Comp) (i v : Nat) : (setAlpha comps i v).length = comps.length := by
  unfold setAlpha; rw [List.length_modify]

theorem setAlpha_get (comps : List Comp) (i v c : Nat) :
    (setAlpha comps i v)[c]? = comps[c]?.map fun x => if c = i then { x with alpha := v } else x := by
  unfold setAlpha
  rw [List.getElem?_modify]
  by_cases h : i = c
  · simp [h]
  · simp [h, Ne.symm h]

theorem setAlpha_body (comps : List Comp) (i v : Nat) : (setAlpha comps i v).map Comp.body = comps.map Comp.body := by
  apply List.ext_getElem?
  intro c
  rw [List.getElem?_map, List.getElem?_map, setAlpha_get, Option.map_map]
  congr 1
  funext x
  show Comp.body (if c = i then { x with alpha := v } else x) = x.body
  split <;> rfl

theorem setAlpha_get_body (comps : List Comp) (i v c : Nat) :
    (setAlpha comps i v)[c]?.map Comp.body = comps[c]?.map Comp.body := by
  have := congrArg (fun l => l[c]?) (setAlpha_body comps i v)
  simpa only [List.getElem?_map] using this

/-! ## No component is lost, and lengths -/

theorem applyCdef_perm (ds : List Def) (comps : List Comp) :
    ((applyCdef ds comps).map Comp.body).Perm (comps.map Comp.body) := by
  fun_induction applyCdef ds comps with
  | case1 => exact List.Perm.refl _
  | case2 d ds comps h ih => exact ih
  | case3 d ds comps h1 h2 ih => rw [setAlpha_body] at ih; exact ih
  | case4 d ds comps h1 h2 h3 ih => exact ih
  | case5 d ds comps h1 h2 h3 h4 ih =>
    rw [setAlpha_body] at ih
    exact ih.trans ((swapComps_perm _ _ _).map _)
  | case6 d ds comps h1 h2 h3 h4 ih => rw [setAlpha_body] at ih; exact ih

theorem applyCdef_len (ds : List Def) (comps : List Comp) : (applyCdef ds comps).length = comps.length := by
  have := (applyCdef_perm ds comps).length_eq
  simpa using this

/-! ## Placement -/

/-- What is used of `DefsOk` and kept along the way. -/
structure DefsIn (n : Nat) (ds : List Def) : Prop where
  cn : ∀ d ∈ ds, d.cn < n
  asoc : ∀ d ∈ ds, d.asoc = 65535 ∨ d.asoc ≤ n
  own : (ds.map Def.cn).Nodup
  colors : ((ds.filter fun d => decide (IsColor d)).map Def.asoc).Nodup

theorem DefsOk.in {n : Nat} {ds : List Def} (h : DefsOk n ds) : DefsIn n ds := ⟨h.cn, h.asoc, h.own, h.colors⟩

theorem DefsIn.tail {n : Nat} {d : Def} {ds : List Def} (h : DefsIn n (d :: ds)) : DefsIn n ds := by
  refine ⟨fun e he => h.cn e (List.mem_cons_of_mem _ he), fun e he => h.asoc e (List.mem_cons_of_mem _ he), ?_, ?_⟩
  · have := h.own
    rw [List.map_cons, List.nodup_cons] at this
    exact this.2
  · have := h.colors
    rw [List.filter_cons] at this
    split at this
    · rw [List.map_cons, List.nodup_cons] at this
      exact this.2
    · exact this

theorem isColor_swap (i k : Nat) (d : Def) : IsColor (swapCn i k d) ↔ IsColor d := by
  unfold IsColor; rw [swapCn_typ, swapCn_asoc]

theorem DefsIn.swap {n : Nat} {ds : List Def} (h : DefsIn n ds) {i k : Nat} (hi : i < n) (hk : k < n) : DefsIn n (ds.map (swapCn i k)) := by
  refine ⟨?_, ?_, ?_, ?_⟩
  · intro e he
    obtain ⟨d, hd, rfl⟩ := List.mem_map.1 he
    rw [swapCn_cn]
    have := h.cn d hd
    unfold swapNat; split_ifs <;> omega
  · intro e he
    obtain ⟨d, hd, rfl⟩ := List.mem_map.1 he
    rw [swapCn_asoc]
    exact h.asoc d hd
  · have : (ds.map (swapCn i k)).map Def.cn = (ds.map Def.cn).map (swapNat i k) := by
      rw [List.map_map, List.map_map]
      congr 1
      funext d
      exact swapCn_cn i k d
    rw [this]
    apply List.Nodup.map _ h.own
    intro a b hab
    rw [← swapNat_swapNat i k a, hab, swapNat_swapNat]
  · have : ((ds.map (swapCn i k)).filter fun d => decide (IsColor d)).map Def.asoc
        = (ds.filter fun d => decide (IsColor d)).map Def.asoc := by
      rw [List.filter_map, List.map_map]
      have e1 : ((fun d => decide (IsColor d)) ∘ swapCn i k) = fun d => decide (IsColor d) := by
        funext d
        exact decide_eq_decide.2 (isColor_swap i k d)
      rw [e1]
      congr 1
      funext d
      exact swapCn_asoc i k d
    rw [this]
    exact h.colors

theorem DefsIn.head_cn {n : Nat} {d : Def} {ds : List Def} (h : DefsIn n (d :: ds)) {e : Def} (he : e ∈ ds) : e.cn ≠ d.cn := by
  have := h.own
  rw [List.map_cons, List.nodup_cons] at this
  intro heq
  exact this.1 (by rw [← heq]; exact List.mem_map_of_mem he)

theorem DefsIn.head_color {n : Nat} {d : Def} {ds : List Def} (h : DefsIn n (d :: ds)) (hd : IsColor d) {e : Def} (he : e ∈ ds)
    (hc : IsColor e) : e.asoc ≠ d.asoc := by
  have := h.colors
  rw [List.filter_cons, if_pos (by simpa using hd), List.map_cons, List.nodup_cons] at this
  intro heq
  exact this.1 (by rw [← heq]; exact List.mem_map_of_mem (List.mem_filter.2 ⟨he, by simpa using hc⟩))

/-- Positions no remaining definition speaks of keep their component. -/
theorem applyCdef_fix (ds : List Def) (comps : List Comp) : ∀ p, (∀ d ∈ ds, d.cn ≠ p) →
    (∀ d ∈ ds, IsColor d → d.asoc - 1 ≠ p) → (applyCdef ds comps)[p]? = comps[p]? := by
  fun_induction applyCdef ds comps with
  | case1 => intros; rfl
  | case2 d ds comps h ih =>
    intro p h1 h2
    exact ih p (fun e he => h1 e (List.mem_cons_of_mem _ he)) (fun e he => h2 e (List.mem_cons_of_mem _ he))
  | case3 d ds comps _ _ ih =>
    intro p h1 h2
    rw [ih p (fun e he => h1 e (List.mem_cons_of_mem _ he)) (fun e he => h2 e (List.mem_cons_of_mem _ he)), setAlpha_get]
    have := h1 d (List.mem_cons_self ..)
    simp [Ne.symm this]
  | case4 d ds comps _ _ _ ih =>
    intro p h1 h2
    exact ih p (fun e he => h1 e (List.mem_cons_of_mem _ he)) (fun e he => h2 e (List.mem_cons_of_mem _ he))
  | case5 d ds comps g1 g2 g3 g4 ih =>
    intro p h1 h2
    have hc : IsColor d := ⟨g4.2, fun h => g2 (Or.inl h), fun h => g2 (Or.inr h)⟩
    have hp1 := h1 d (List.mem_cons_self ..)
    have hp2 := h2 d (List.mem_cons_self ..) hc
    rw [ih p ?_ ?_, setAlpha_get, swapComps_get (by omega) (by omega)]
    · have : swapNat d.cn (d.asoc - 1) p = p := by
        unfold swapNat; rw [if_neg (Ne.symm hp1), if_neg (Ne.symm hp2)]
      rw [this]
      simp [Ne.symm hp1]
    · intro e he
      obtain ⟨e, he2, rfl⟩ := List.mem_map.1 he
      replace he := he2
      rw [swapCn_cn]
      have := h1 e (List.mem_cons_of_mem _ he)
      unfold swapNat; split_ifs <;> assumption
    · intro e he hce
      obtain ⟨e, he2, rfl⟩ := List.mem_map.1 he
      replace he := he2
      rw [swapCn_asoc]
      exact h2 e (List.mem_cons_of_mem _ he) ((isColor_swap _ _ _).1 hce)
  | case6 d ds comps _ _ _ _ ih =>
    intro p h1 h2
    rw [ih p (fun e he => h1 e (List.mem_cons_of_mem _ he)) (fun e he => h2 e (List.mem_cons_of_mem _ he)), setAlpha_get]
    have := h1 d (List.mem_cons_self ..)
    simp [Ne.symm this]

/-- Every colour channel ends where its colour is. -/
theorem applyCdef_place (ds : List Def) (comps : List Comp) : DefsIn comps.length ds → ∀ d ∈ ds, IsColor d →
    (applyCdef ds comps)[d.asoc - 1]?.map Comp.body = comps[d.cn]?.map Comp.body := by
  fun_induction applyCdef ds comps with
  | case1 => intro _ d hd; cases hd
  | case2 d ds comps h ih =>
    intro hd
    have := hd.cn d (List.mem_cons_self ..)
    omega
  | case3 d ds comps g1 g2 ih =>
    intro hd e he hc
    rw [setAlpha_len] at ih
    rcases List.mem_cons.1 he with rfl | he
    · exact absurd g2 (by rintro (h | h); exacts [hc.2.1 h, hc.2.2 h])
    · rw [ih hd.tail e he hc, setAlpha_get_body]
  | case4 d ds comps g1 g2 g3 ih =>
    intro hd
    have := hd.asoc d (List.mem_cons_self ..)
    rcases this with h | h
    · exact absurd (Or.inr h) g2
    · have : d.asoc ≠ 0 := fun h => g2 (Or.inl h)
      omega
  | case5 d ds comps g1 g2 g3 g4 ih =>
    intro hd e he hc
    rw [setAlpha_len, swapComps_len] at ih
    have hdc : IsColor d := ⟨g4.2, fun h => g2 (Or.inl h), fun h => g2 (Or.inr h)⟩
    have hin := hd.tail.swap (i := d.cn) (k := d.asoc - 1) (by omega) (by omega)
    rcases List.mem_cons.1 he with rfl | he
    · rw [applyCdef_fix]
      · rw [setAlpha_get_body, swapComps_get (by omega) (by omega)]
        congr 2
        unfold swapNat
        rw [if_neg (Ne.symm g4.1), if_pos rfl]
      · intro x hx
        obtain ⟨x, hx2, rfl⟩ := List.mem_map.1 hx
        replace hx := hx2
        rw [swapCn_cn]
        have := hd.head_cn hx
        unfold swapNat
        rw [if_neg this]
        split_ifs with h
        · exact g4.1
        · exact h
      · intro x hx hxc
        obtain ⟨x, hx2, rfl⟩ := List.mem_map.1 hx
        replace hx := hx2
        rw [swapCn_asoc]
        have hxc' := (isColor_swap _ _ _).1 hxc
        have h1 := hd.head_color hdc hx hxc'
        have h2 := hxc'.2.1
        have h3 := hdc.2.1
        omega
    · have := ih hin (swapCn d.cn (d.asoc - 1) e) (List.mem_map_of_mem he) ((isColor_swap _ _ _).2 hc)
      rw [swapCn_asoc, swapCn_cn, setAlpha_get_body, swapComps_get (by omega) (by omega), swapNat_swapNat] at this
      exact this
  | case6 d ds comps g1 g2 g3 g4 ih =>
    intro hd e he hc
    rw [setAlpha_len] at ih
    rcases List.mem_cons.1 he with rfl | he
    · have hcn : e.cn = e.asoc - 1 := by
        by_contra h
        exact g4 ⟨h, hc.1⟩
      rw [applyCdef_fix]
      · rw [setAlpha_get_body, hcn]
      · intro x hx
        rw [← hcn]
        exact hd.head_cn hx
      · intro x hx hxc
        have h1 := hd.head_color hc hx hxc
        have h2 := hxc.2.1
        have h3 := hc.2.1
        omega
    · rw [ih hd.tail e he hc, setAlpha_get_body]

/-! ## Kinds -/

/-- The definition a channel has, if any, gives its kind; else it is left. -/
def markDef (ds : List Def) (c : Nat) (x : Comp) : Comp :=
  match ds.find? (fun d => d.cn == c) with
  | some d => { x with alpha := d.typ }
  | none => x

theorem mark_nil (c : Nat) (x : Comp) : markDef [] c x = x := rfl

theorem mark_none {ds : List Def} {c : Nat} (h : ∀ d ∈ ds, d.cn ≠ c) (x : Comp) : markDef ds c x = x := by
  unfold markDef
  rw [List.find?_eq_none.2 (fun d hd => by simpa using h d hd)]

theorem mark_cons (d : Def) (ds : List Def) (c : Nat) (x : Comp) :
    markDef (d :: ds) c x = if d.cn = c then { x with alpha := d.typ } else markDef ds c x := by
  unfold markDef
  rw [List.find?_cons]
  by_cases h : d.cn = c
  · simp [h]
  · have hb : (d.cn == c) = false := by simpa using h
    rw [hb, if_neg h]

/-- Definitions of no colour only markDef. -/
theorem applyCdef_marks (ds : List Def) (comps : List Comp) : DefsIn comps.length ds → (∀ d ∈ ds, ¬ IsColor d) →
    applyCdef ds comps = comps.mapIdx (markDef ds) := by
  have step : ∀ (comps : List Comp) (d : Def) (ds : List Def), DefsIn comps.length (d :: ds) →
      (setAlpha comps d.cn d.typ).mapIdx (markDef ds) = comps.mapIdx (markDef (d :: ds)) := by
    intro comps d ds hd
    apply List.ext_getElem?
    intro c
    rw [List.getElem?_mapIdx, List.getElem?_mapIdx, setAlpha_get, Option.map_map]
    congr 1
    funext x
    rw [mark_cons]
    show markDef ds c (if c = d.cn then _ else x) = _
    by_cases h : d.cn = c
    · rw [if_pos h.symm, if_pos h, mark_none]
      intro e he
      rw [← h]
      exact hd.head_cn he
    · rw [if_neg (Ne.symm h), if_neg h]
  fun_induction applyCdef ds comps with
  | case1 comps =>
    intro _ _
    apply List.ext_getElem?
    intro c
    rw [List.getElem?_mapIdx]
    cases comps[c]? <;> rfl
  | case2 d ds comps h ih =>
    intro hd
    have := hd.cn d (List.mem_cons_self ..)
    omega
  | case3 d ds comps g1 g2 ih =>
    intro hd hn
    rw [setAlpha_len] at ih
    rw [ih hd.tail fun e he => hn e (List.mem_cons_of_mem _ he), step comps d ds hd]
  | case4 d ds comps g1 g2 g3 ih =>
    intro hd
    have := hd.asoc d (List.mem_cons_self ..)
    rcases this with h | h
    · exact absurd (Or.inr h) g2
    · have : d.asoc ≠ 0 := fun h => g2 (Or.inl h)
      omega
  | case5 d ds comps g1 g2 g3 g4 ih =>
    intro hd hn
    exact absurd ⟨g4.2, fun h => g2 (Or.inl h), fun h => g2 (Or.inr h)⟩ (hn d (List.mem_cons_self ..))
  | case6 d ds comps g1 g2 g3 g4 ih =>
    intro hd hn
    rw [setAlpha_len] at ih
    rw [ih hd.tail fun e he => hn e (List.mem_cons_of_mem _ he), step comps d ds hd]

theorem mark_swap (i k : Nat) (ds : List Def) (c : Nat) (x : Comp) : markDef (ds.map (swapCn i k)) c x = markDef ds (swapNat i k c) x := by
  induction ds with
  | nil => rfl
  | cons d ds ih =>
    rw [List.map_cons, mark_cons, mark_cons, swapCn_cn, swapCn_typ, ih]
    have : swapNat i k d.cn = c ↔ d.cn = swapNat i k c := by
      constructor
      · intro h; rw [← h, swapNat_swapNat]
      · intro h; rw [h, swapNat_swapNat]
    by_cases h : d.cn = swapNat i k c
    · rw [if_pos h, if_pos (this.2 h)]
    · rw [if_neg h, if_neg (fun g => h (this.1 g))]

theorem setAlpha_zero {comps : List Comp} (h : ∀ c ∈ comps, c.alpha = 0) (i : Nat) : setAlpha comps i 0 = comps := by
  apply List.ext_getElem?
  intro c
  rw [setAlpha_get]
  cases hc : comps[c]? with
  | none => rfl
  | some x =>
    have := h x (List.mem_of_getElem? hc)
    show some (if c = i then { x with alpha := 0 } else x) = some x
    split
    · congr 1
      cases x
      simp only at this
      rw [this]
    · rfl

theorem swapComps_mapIdx {comps : List Comp} {i k : Nat} (hi : i < comps.length) (hk : k < comps.length) (f : Nat → Comp → Comp) :
    (swapComps comps i k).mapIdx (fun c => f (swapNat i k c)) = swapComps (comps.mapIdx f) i k := by
  apply List.ext_getElem?
  intro c
  rw [List.getElem?_mapIdx, swapComps_get hi hk, swapComps_get (by rw [List.length_mapIdx]; exact hi) (by rw [List.length_mapIdx]; exact hk),
    List.getElem?_mapIdx]

theorem mapIdx_mark_tail {comps : List Comp} {d : Def} {ds : List Def} (hd : DefsIn comps.length (d :: ds)) (ht : d.typ = 0)
    (ha : ∀ c ∈ comps, c.alpha = 0) : comps.mapIdx (markDef (d :: ds)) = comps.mapIdx (markDef ds) := by
  apply List.ext_getElem?
  intro c
  rw [List.getElem?_mapIdx, List.getElem?_mapIdx]
  cases hc : comps[c]? with
  | none => rfl
  | some x =>
    have hx := ha x (List.mem_of_getElem? hc)
    show some (markDef (d :: ds) c x) = some (markDef ds c x)
    rw [mark_cons]
    split
    · rename_i h
      rw [mark_none (fun e he => by rw [← h]; exact hd.head_cn he), ht]
      congr 1
      cases x
      simp only at hx
      rw [hx]
    · rfl

/-- Colours first: the result is the marked components in another order, each colour in its place. -/
theorem applyCdef_full (n : Nat) : ∀ (cs os : List Def) (comps : List Comp), cs.length = n → DefsIn comps.length (cs ++ os) →
    (∀ d ∈ cs, IsColor d) → (∀ d ∈ os, ¬ IsColor d) → (∀ c ∈ comps, c.alpha = 0) →
    (applyCdef (cs ++ os) comps).Perm (comps.mapIdx (markDef (cs ++ os))) ∧
    ∀ d ∈ cs, (applyCdef (cs ++ os) comps)[d.asoc - 1]? = comps[d.cn]? := by
  induction n with
  | zero =>
    intro cs os comps hn hd _ ho _
    have : cs = [] := List.length_eq_zero_iff.1 hn
    subst this
    refine ⟨?_, fun d h => nomatch h⟩
    rw [List.nil_append] at hd ⊢
    rw [applyCdef_marks os comps hd ho]
  | succ n ih =>
    intro cs os comps hn hd hc ho ha
    cases cs with
    | nil => cases hn
    | cons d cs =>
      have hdc := hc d (List.mem_cons_self ..)
      have hcn := hd.cn d (List.mem_cons_self ..)
      have has := hd.asoc d (List.mem_cons_self ..)
      rw [List.cons_append] at hd ⊢
      have hasoc : d.asoc - 1 < comps.length := by
        rcases has with h | h
        · exact absurd h hdc.2.2
        · have := hdc.2.1; omega
      have hne : ¬ (d.asoc = 0 ∨ d.asoc = 65535) := by
        rintro (h | h)
        exacts [hdc.2.1 h, hdc.2.2 h]
      rw [mapIdx_mark_tail hd hdc.1 ha, applyCdef, if_neg (by omega), if_neg hne, if_neg (by omega)]
      split
      · rename_i g
        have hsa : ∀ c ∈ swapComps comps d.cn (d.asoc - 1), c.alpha = 0 := fun c h => ha c ((swapComps_perm _ _ _).mem_iff.1 h)
        rw [hdc.1, setAlpha_zero hsa]
        have hin := hd.tail.swap (i := d.cn) (k := d.asoc - 1) hcn hasoc
        rw [← swapComps_len comps d.cn (d.asoc - 1)] at hin
        have hmap : (cs ++ os).map (swapCn d.cn (d.asoc - 1)) = cs.map (swapCn d.cn (d.asoc - 1)) ++ os.map (swapCn d.cn (d.asoc - 1)) :=
          List.map_append
        obtain ⟨i1, i2⟩ := ih (cs.map (swapCn d.cn (d.asoc - 1))) (os.map (swapCn d.cn (d.asoc - 1))) _
          (by rw [List.length_map]; simpa using hn) (by rw [← hmap]; exact hin)
          (by
            intro e he
            obtain ⟨e, he2, rfl⟩ := List.mem_map.1 he
            replace he := he2
            exact (isColor_swap _ _ _).2 (hc e (List.mem_cons_of_mem _ he)))
          (by
            intro e he
            obtain ⟨e, he2, rfl⟩ := List.mem_map.1 he
            replace he := he2
            exact fun h => ho e he ((isColor_swap _ _ _).1 h)) hsa
        rw [← hmap] at i1 i2
        refine ⟨?_, ?_⟩
        · refine i1.trans ?_
          have : markDef ((cs ++ os).map (swapCn d.cn (d.asoc - 1))) = fun c => markDef (cs ++ os) (swapNat d.cn (d.asoc - 1) c) := by
            funext c x
            exact mark_swap _ _ _ _ _
          rw [this, swapComps_mapIdx hcn hasoc]
          exact swapComps_perm _ _ _
        · intro e he
          rcases List.mem_cons.1 he with rfl | he
          · rw [applyCdef_fix]
            · rw [swapComps_get hcn hasoc]
              congr 1
              unfold swapNat
              rw [if_neg (Ne.symm g.1), if_pos rfl]
            · intro x hx
              obtain ⟨x, hx2, rfl⟩ := List.mem_map.1 hx
              replace hx := hx2
              rw [swapCn_cn]
              have := hd.head_cn hx
              unfold swapNat
              rw [if_neg this]
              split_ifs with h
              · exact g.1
              · exact h
            · intro x hx hxc
              obtain ⟨x, hx2, rfl⟩ := List.mem_map.1 hx
              replace hx := hx2
              rw [swapCn_asoc]
              have hxc' := (isColor_swap _ _ _).1 hxc
              have h1 := hd.head_color hdc hx hxc'
              have h2 := hxc'.2.1
              have h3 := hdc.2.1
              omega
          · have := i2 (swapCn d.cn (d.asoc - 1) e) (List.mem_map_of_mem he)
            rw [swapCn_asoc, swapCn_cn, swapComps_get hcn hasoc, swapNat_swapNat] at this
            exact this
      · rename_i g
        have hcnq : d.cn = d.asoc - 1 := by
          by_contra h
          exact g ⟨h, hdc.1⟩
        rw [hdc.1, setAlpha_zero ha]
        obtain ⟨i1, i2⟩ := ih cs os comps (by simpa using hn) hd.tail (fun e he => hc e (List.mem_cons_of_mem _ he)) ho ha
        refine ⟨i1, ?_⟩
        intro e he
        rcases List.mem_cons.1 he with rfl | he
        · rw [applyCdef_fix]
          · rw [hcnq]
          · intro x hx
            rw [← hcnq]
            exact hd.head_cn hx
          · intro x hx hxc
            have h1 := hd.head_color hdc hx hxc
            have h2 := hxc.2.1
            have h3 := hdc.2.1
            omega
        · exact i2 e he

theorem typed_eq {n : Nat} {ds : List Def} (h : DefsOk n ds) {comps : List Comp} (hl : comps.length = n) :
    comps.mapIdx (markDef ds) = typed ds comps := by
  unfold typed
  apply List.ext_getElem?
  intro c
  rw [List.getElem?_mapIdx, List.getElem?_mapIdx]
  cases hc : comps[c]? with
  | none => rfl
  | some x =>
    have hlt : c < n := by rw [← hl]; exact (List.getElem?_eq_some_iff.1 hc).1
    obtain ⟨d, hd, he⟩ := h.all c hlt
    show some (markDef ds c x) = some { x with alpha := kind ds c }
    unfold markDef kind
    cases hf : ds.find? (fun d => d.cn == c) with
    | none =>
      have := List.find?_eq_none.1 hf d hd
      simp [he] at this
    | some e => rfl

theorem checkDefs_iff (n : Nat) (ds : List Def) : checkDefs n ds = true ↔
    (∀ d ∈ ds, d.cn < n ∧ (d.asoc = 65535 ∨ d.asoc ≤ n)) ∧ ∀ c, 1 ≤ c → c < n → ∃ d ∈ ds, d.cn = c := by
  unfold checkDefs
  rw [Bool.and_eq_true, List.all_eq_true, List.all_eq_true]
  have e1 : ∀ d : Def, (decide (d.cn < n) && !(decide (d.asoc ≠ 65535) && decide (0 < d.asoc) && decide (n ≤ d.asoc - 1))) = true ↔
      d.cn < n ∧ (d.asoc = 65535 ∨ d.asoc ≤ n) := by
    intro d
    simp only [Bool.and_eq_true, decide_eq_true_eq, Bool.not_eq_true', Bool.and_eq_false_iff, decide_eq_false_iff_not]
    omega
  have e2 : ∀ c, c ∈ (List.range n).drop 1 ↔ 1 ≤ c ∧ c < n := by
    intro c
    cases n with
    | zero => simp
    | succ n =>
      rw [List.range_succ_eq_map, List.drop_succ_cons, List.drop_zero, List.mem_map]
      constructor
      · rintro ⟨a, ha, rfl⟩
        have := List.mem_range.1 ha
        show 1 ≤ a + 1 ∧ a + 1 < n + 1
        omega
      · rintro ⟨h1, h2⟩
        exact ⟨c - 1, List.mem_range.2 (by omega), by show c - 1 + 1 = c; omega⟩
  constructor
  · rintro ⟨h1, h2⟩
    refine ⟨fun d hd => (e1 d).1 (h1 d hd), fun c hc1 hc2 => ?_⟩
    have := h2 c ((e2 c).2 ⟨hc1, hc2⟩)
    obtain ⟨d, hd, he⟩ := List.any_eq_true.1 this
    exact ⟨d, hd, by simpa using he⟩
  · rintro ⟨h1, h2⟩
    refine ⟨fun d hd => (e1 d).2 (h1 d hd), fun c hc => ?_⟩
    obtain ⟨hc1, hc2⟩ := (e2 c).1 hc
    obtain ⟨d, hd, he⟩ := h2 c hc1 hc2
    exact List.any_eq_true.2 ⟨d, hd, by simpa using he⟩

end Jp2.Box

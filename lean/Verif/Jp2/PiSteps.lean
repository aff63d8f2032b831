import Verif.Jp2.PiMake
/-!
# The minimal steps of the position-driven iterators, and the `include` index
-/
namespace Jp2.Pi
open Spec

/-- `acc` is the least element of `S`, or 0 when `S` is empty. -/
def MinOf (S : Nat → Prop) (acc : Nat) : Prop :=
  (acc = 0 ∧ ∀ v, ¬ S v) ∨ (S acc ∧ 0 < acc ∧ ∀ v, S v → acc ≤ v)

theorem MinOf.congr {S S' : Nat → Prop} {acc : Nat} (h : ∀ v, S v ↔ S' v) (hm : MinOf S acc) : MinOf S' acc := by
  have : S = S' := funext fun v => propext (h v)
  rw [← this]; exact hm

theorem minStep_minOf {S : Nat → Prop} {acc : Nat} (o : Option Nat) (ho : ∀ v, o = some v → 0 < v)
    (hm : MinOf S acc) : MinOf (fun v => S v ∨ o = some v) (minStep acc o) := by
  cases o with
  | none => simpa [minStep] using hm
  | some d =>
    have hd := ho d rfl
    rcases hm with ⟨rfl, hn⟩ | ⟨h1, h2, h3⟩
    · right
      simp only [minStep, if_true]
      refine ⟨Or.inr trivial, hd, ?_⟩
      rintro v (h | h)
      · exact absurd h (hn v)
      · simp only [Option.some.injEq] at h; omega
    · right
      simp only [minStep]
      rw [if_neg (by omega)]
      unfold Math.uintMin
      split
      · rename_i hle
        refine ⟨Or.inl h1, h2, ?_⟩
        rintro v (h | h)
        · exact h3 v h
        · simp only [Option.some.injEq] at h; omega
      · rename_i hle
        refine ⟨Or.inr rfl, hd, ?_⟩
        rintro v (h | h)
        · have := h3 v h; omega
        · simp only [Option.some.injEq] at h; omega

theorem resStep_iff (d pd numres r v : Nat) (hr : r < numres) (hn : numres < 2 ^ 16) (hp : pd < 2 ^ 16) (hd : 0 < d) :
    resStep d pd numres r = some v ↔ v = d * 2 ^ (pd + (numres - 1 - r)) ∧ v < 2 ^ 32 := by
  unfold resStep
  have e : (2 ^ 32 + (2 ^ 32 + (pd + numres) - 1) - r) % 2 ^ 32 = pd + (numres - 1 - r) := by omega
  rw [e]
  simp only
  obtain ⟨k, hk⟩ : ∃ k, k = pd + (numres - 1 - r) := ⟨_, rfl⟩
  rw [← hk]
  have hp2 := Nat.two_pow_pos k
  have hiff : (k < 32 ∧ d ≤ (2 ^ 32 - 1) / 2 ^ k) ↔ d * 2 ^ k < 2 ^ 32 := by
    rw [Nat.le_div_iff_mul_le hp2]
    constructor
    · intro h; omega
    · intro h
      refine ⟨?_, by omega⟩
      by_contra hc
      have h1 : 2 ^ 32 ≤ 2 ^ k := Nat.pow_le_pow_right (by omega) (by omega)
      have h2 := Nat.le_mul_of_pos_left (2 ^ k) hd
      omega
  by_cases hc : d * 2 ^ k < 2 ^ 32
  · rw [if_pos (hiff.mpr hc), Nat.mod_eq_of_lt hc]
    simp only [Option.some.injEq]
    constructor
    · rintro rfl; exact ⟨rfl, hc⟩
    · rintro ⟨rfl, _⟩; rfl
  · rw [if_neg (fun h => hc (hiff.mp h))]
    constructor
    · intro h; simp at h
    · rintro ⟨rfl, h⟩; exact absurd h hc

/-- The steps of a list of resolutions numbered from `n`. -/
def stepsFrom (d : Nat) (pd : Res → Nat) (numres n : Nat) (rs : List Res) (v : Nat) : Prop :=
  ∃ i q, rs[i]? = some q ∧ resStep d (pd q) numres (n + i) = some v

theorem stepsFrom_cons (d : Nat) (pd : Res → Nat) (numres n : Nat) (q : Res) (rs : List Res) (v : Nat) :
    stepsFrom d pd numres n (q :: rs) v ↔
      resStep d (pd q) numres n = some v ∨ stepsFrom d pd numres (n + 1) rs v := by
  unfold stepsFrom
  constructor
  · rintro ⟨i, z, hz, h⟩
    cases i with
    | zero =>
      simp only [List.getElem?_cons_zero, Option.some.injEq] at hz
      subst hz; exact Or.inl h
    | succ i =>
      simp only [List.getElem?_cons_succ] at hz
      exact Or.inr ⟨i, z, hz, by rw [show n + 1 + i = n + (i + 1) by omega]; exact h⟩
  · rintro (h | ⟨i, z, hz, h⟩)
    · exact ⟨0, q, rfl, h⟩
    · exact ⟨i + 1, z, by simpa using hz, by rw [show n + (i + 1) = n + 1 + i by omega]; exact h⟩

theorem foldRes_cons (c : Comp) (numres n : Nat) (q : Res) (rs : List Res) (acc : Nat × Nat) :
    foldRes c numres n (q :: rs) acc = foldRes c numres (n + 1) rs
      (minStep acc.1 (resStep c.dx q.pdx numres n), minStep acc.2 (resStep c.dy q.pdy numres n)) := by
  rw [foldRes]

theorem foldRes_min (c : Comp) (numres : Nat) (hdx : 0 < c.dx) (hdy : 0 < c.dy)
    (hpos : ∀ d pd n v, 0 < d → resStep d pd numres n = some v → 0 < v) : ∀ (rs : List Res) (n : Nat)
    (acc : Nat × Nat) (Sx Sy : Nat → Prop), MinOf Sx acc.1 → MinOf Sy acc.2 →
    MinOf (fun v => Sx v ∨ stepsFrom c.dx Res.pdx numres n rs v) (foldRes c numres n rs acc).1 ∧
    MinOf (fun v => Sy v ∨ stepsFrom c.dy Res.pdy numres n rs v) (foldRes c numres n rs acc).2 := by
  intro rs
  induction rs with
  | nil =>
    intro n acc Sx Sy hx hy
    have : ∀ d pd v, ¬ stepsFrom d pd numres n [] v := by
      rintro d pd v ⟨i, q, h, _⟩; simp at h
    exact ⟨hx.congr fun v => by simp [this], hy.congr fun v => by simp [this]⟩
  | cons q rs ih =>
    intro n acc Sx Sy hx hy
    rw [foldRes_cons]
    have h := ih (n + 1) (minStep acc.1 (resStep c.dx q.pdx numres n), minStep acc.2 (resStep c.dy q.pdy numres n))
      _ _ (minStep_minOf _ (fun v h => hpos _ _ _ _ hdx h) hx) (minStep_minOf _ (fun v h => hpos _ _ _ _ hdy h) hy)
    refine ⟨h.1.congr fun v => ?_, h.2.congr fun v => ?_⟩ <;> rw [stepsFrom_cons, or_assoc]

theorem resStep_pos (numres d pd n v : Nat) (hd : 0 < d) (h : resStep d pd numres n = some v) : 0 < v := by
  unfold resStep at h
  simp only at h
  generalize (2 ^ 32 + (2 ^ 32 + (pd + numres) - 1) - n) % 2 ^ 32 = k at h
  split at h
  · rename_i hc
    simp only [Option.some.injEq] at h
    have hp := Nat.two_pow_pos k
    have := (Nat.le_div_iff_mul_le hp).mp hc.2
    rw [Nat.mod_eq_of_lt (by omega)] at h
    rw [← h]; exact Nat.mul_pos hd hp
  · simp at h

/-- The steps of a list of components. -/
def stepsOf (d : Comp → Nat) (pd : Res → Nat) (cs : List Comp) (v : Nat) : Prop :=
  ∃ (i : Nat) (c : Comp), cs[i]? = some c ∧ stepsFrom (d c) pd c.res.length 0 c.res v

theorem stepsOf_cons (d : Comp → Nat) (pd : Res → Nat) (c : Comp) (cs : List Comp) (v : Nat) :
    stepsOf d pd (c :: cs) v ↔ stepsFrom (d c) pd c.res.length 0 c.res v ∨ stepsOf d pd cs v := by
  unfold stepsOf
  constructor
  · rintro ⟨i, z, hz, h⟩
    cases i with
    | zero =>
      simp only [List.getElem?_cons_zero, Option.some.injEq] at hz
      subst hz; exact Or.inl h
    | succ i => exact Or.inr ⟨i, z, by simpa using hz, h⟩
  · rintro (h | ⟨i, z, hz, h⟩)
    · exact ⟨0, c, rfl, h⟩
    · exact ⟨i + 1, z, by simpa using hz, h⟩

theorem foldComps_min : ∀ (cs : List Comp), (∀ c ∈ cs, 0 < c.dx ∧ 0 < c.dy) →
    ∀ (acc : Nat × Nat) (Sx Sy : Nat → Prop), MinOf Sx acc.1 → MinOf Sy acc.2 →
    MinOf (fun v => Sx v ∨ stepsOf Comp.dx Res.pdx cs v) (foldComps cs acc).1 ∧
    MinOf (fun v => Sy v ∨ stepsOf Comp.dy Res.pdy cs v) (foldComps cs acc).2 := by
  intro cs
  induction cs with
  | nil =>
    intro _ acc Sx Sy hx hy
    have : ∀ d pd v, ¬ stepsOf d pd [] v := by
      rintro d pd v ⟨i, q, h, _⟩; simp at h
    exact ⟨hx.congr fun v => by simp [this], hy.congr fun v => by simp [this]⟩
  | cons c cs ih =>
    intro hd acc Sx Sy hx hy
    have hc := hd c (by simp)
    have h0 := foldRes_min c c.res.length hc.1 hc.2 (fun d pd n v => resStep_pos _ d pd n v) c.res 0 acc Sx Sy hx hy
    have h := ih (fun z hz => hd z (by simp [hz])) _ _ _ h0.1 h0.2
    refine ⟨h.1.congr fun v => ?_, h.2.congr fun v => ?_⟩ <;> rw [stepsOf_cons, or_assoc]

variable {t : Tile} {cs : List CompParams}

/-- Steps of the tables and steps of the standard. -/
theorem stepsFrom_specComp (h : TileFit t cs) {c : Nat} {cp : Comp} (hcp : (cs.map (specComp t))[c]? = some cp)
    (v : Nat) :
    (stepsFrom cp.dx Res.pdx cp.res.length 0 cp.res v ↔
      ∃ r ax ay, axes t cs c r = some (ax, ay) ∧ v = ax.step ∧ v < 2 ^ 32) ∧
    (stepsFrom cp.dy Res.pdy cp.res.length 0 cp.res v ↔
      ∃ r ax ay, axes t cs c r = some (ax, ay) ∧ v = ay.step ∧ v < 2 ^ 32) := by
  have hlen : cp.res.length ≤ 33 ∧ 0 < cp.dx ∧ 0 < cp.dy := by
    rw [specComps_get] at hcp
    cases hc : cs[c]? with
    | none => rw [hc] at hcp; simp at hcp
    | some p =>
      rw [hc] at hcp
      simp only [Option.map_some, Option.some.injEq] at hcp
      have hf := h.comps p (List.mem_of_getElem? hc)
      rw [← hcp]
      unfold specComp
      simp only [specRes_length]
      exact ⟨hf.res.2, hf.dx.1, hf.dy.1⟩
  have back : ∀ r ax ay, axes t cs c r = some (ax, ay) → ∃ q, cp.res[r]? = some q := by
    intro r ax ay e
    by_contra hc
    have : cp.res.length ≤ r := by
      by_contra hlt
      exact hc ⟨_, List.getElem?_eq_getElem (by omega)⟩
    rw [axes_none_of_res hcp this] at e
    simp at e
  unfold stepsFrom
  constructor
  · constructor
    · rintro ⟨i, q, hq, hs⟩
      obtain ⟨ax, ay, e, e1, e2, e3, e4, e5⟩ := table_axes hcp hq
      obtain ⟨fx, fy⟩ := axes_fit h e
      have hi := (List.getElem?_eq_some_iff.mp hq).1
      have hp := fx.pp
      rw [Nat.zero_add, e5] at hs
      rw [resStep_iff _ _ _ _ _ hi (by omega) (by simp only; omega) hlen.2.1, e3, e1] at hs
      exact ⟨i, ax, ay, e, hs.1, hs.2⟩
    · rintro ⟨r, ax, ay, e, rfl, hv⟩
      obtain ⟨q, hq⟩ := back r ax ay e
      obtain ⟨ax', ay', e', e1, e2, e3, e4, e5⟩ := table_axes hcp hq
      rw [e] at e'
      simp only [Option.some.injEq, Prod.mk.injEq] at e'
      obtain ⟨rfl, rfl⟩ := e'
      obtain ⟨fx, fy⟩ := axes_fit h e
      have hi := (List.getElem?_eq_some_iff.mp hq).1
      have hp := fx.pp
      refine ⟨r, q, hq, ?_⟩
      rw [Nat.zero_add, e5, resStep_iff _ _ _ _ _ hi (by omega) (by simp only; omega) hlen.2.1, e3, e1]
      exact ⟨rfl, hv⟩
  · constructor
    · rintro ⟨i, q, hq, hs⟩
      obtain ⟨ax, ay, e, e1, e2, e3, e4, e5⟩ := table_axes hcp hq
      obtain ⟨fx, fy⟩ := axes_fit h e
      have hi := (List.getElem?_eq_some_iff.mp hq).1
      have hp := fy.pp
      rw [Nat.zero_add, e5] at hs
      rw [resStep_iff _ _ _ _ _ hi (by omega) (by simp only; omega) hlen.2.2, e3, e2, ← e4] at hs
      exact ⟨i, ax, ay, e, hs.1, hs.2⟩
    · rintro ⟨r, ax, ay, e, rfl, hv⟩
      obtain ⟨q, hq⟩ := back r ax ay e
      obtain ⟨ax', ay', e', e1, e2, e3, e4, e5⟩ := table_axes hcp hq
      rw [e] at e'
      simp only [Option.some.injEq, Prod.mk.injEq] at e'
      obtain ⟨rfl, rfl⟩ := e'
      obtain ⟨fx, fy⟩ := axes_fit h e
      have hi := (List.getElem?_eq_some_iff.mp hq).1
      have hp := fy.pp
      refine ⟨r, q, hq, ?_⟩
      rw [Nat.zero_add, e5, resStep_iff _ _ _ _ _ hi (by omega) (by simp only; omega) hlen.2.2, e3, e2, ← e4]
      exact ⟨rfl, hv⟩

/-- The full-resolution step of a component always fits. -/
theorem top_step (h : TileFit t cs) {c : Nat} (hc : c < cs.length) :
    ∃ r ax ay, axes t cs c r = some (ax, ay) ∧ ax.step < 2 ^ 32 ∧ ay.step < 2 ^ 32 := by
  have hcp := List.getElem?_eq_getElem hc
  have hf := h.comps _ (List.getElem_mem hc)
  obtain ⟨n, hn⟩ : ∃ n, cs[c].prc.length = n + 1 := ⟨cs[c].prc.length - 1, by have := hf.res.1; omega⟩
  have hq := List.getElem?_eq_getElem (l := cs[c].prc) (i := n) (by omega)
  have hp := hf.pp _ (List.getElem_mem (l := cs[c].prc) (n := n) (by omega))
  refine ⟨n, ⟨t.tx0, t.tx1, cs[c].dx, 0, cs[c].prc[n].1⟩, ⟨t.ty0, t.ty1, cs[c].dy, 0, cs[c].prc[n].2⟩, ?_, ?_, ?_⟩
  · unfold axes
    simp only [hcp, hq, hn, show n + 1 - 1 - n = 0 by omega]
  · unfold Axis.step
    simp only
    calc cs[c].dx * 2 ^ (cs[c].prc[n].1 + 0) ≤ 255 * 2 ^ 15 :=
          Nat.mul_le_mul hf.dx.2 (Nat.pow_le_pow_right (by omega) (by omega))
      _ < 2 ^ 32 := by omega
  · unfold Axis.step
    simp only
    calc cs[c].dy * 2 ^ (cs[c].prc[n].2 + 0) ≤ 255 * 2 ^ 15 :=
          Nat.mul_le_mul hf.dy.2 (Nat.pow_le_pow_right (by omega) (by omega))
      _ < 2 ^ 32 := by omega

/-- The steps RPCL and PCRL use: the smallest of all components and resolutions. -/
theorem foldComps_spec (h : TileFit t cs) (hne : cs ≠ []) :
    let d := foldComps (cs.map (specComp t)) (0, 0)
    (0 < d.1 ∧ d.1 < 2 ^ 32 ∧ (∃ c r ax ay, axes t cs c r = some (ax, ay) ∧ d.1 = ax.step) ∧
      ∀ c r ax ay, axes t cs c r = some (ax, ay) → ax.step < 2 ^ 32 → d.1 ≤ ax.step) ∧
    (0 < d.2 ∧ d.2 < 2 ^ 32 ∧ (∃ c r ax ay, axes t cs c r = some (ax, ay) ∧ d.2 = ay.step) ∧
      ∀ c r ax ay, axes t cs c r = some (ax, ay) → ay.step < 2 ^ 32 → d.2 ≤ ay.step) := by
  intro d
  have hmin := foldComps_min (cs.map (specComp t)) (by
    intro c hc
    obtain ⟨p, hp, rfl⟩ := List.mem_map.mp hc
    exact ⟨(h.comps p hp).dx.1, (h.comps p hp).dy.1⟩) (0, 0) (fun _ => False) (fun _ => False)
    (Or.inl ⟨rfl, fun _ => id⟩) (Or.inl ⟨rfl, fun _ => id⟩)
  have hxs : ∀ v, stepsOf Comp.dx Res.pdx (cs.map (specComp t)) v ↔
      ∃ c r ax ay, axes t cs c r = some (ax, ay) ∧ v = ax.step ∧ v < 2 ^ 32 := by
    intro v
    unfold stepsOf
    constructor
    · rintro ⟨c, cp, hcp, hs⟩
      exact ⟨c, ((stepsFrom_specComp h hcp v).1).mp hs⟩
    · rintro ⟨c, r, ax, ay, e, e1⟩
      have hc : ∃ cp, (cs.map (specComp t))[c]? = some cp := by
        rw [specComps_get]
        unfold axes at e
        split at e
        · simp at e
        · rename_i p hp; exact ⟨_, by rw [hp]; rfl⟩
      obtain ⟨cp, hcp⟩ := hc
      exact ⟨c, cp, hcp, ((stepsFrom_specComp h hcp v).1).mpr ⟨r, ax, ay, e, e1⟩⟩
  have hys : ∀ v, stepsOf Comp.dy Res.pdy (cs.map (specComp t)) v ↔
      ∃ c r ax ay, axes t cs c r = some (ax, ay) ∧ v = ay.step ∧ v < 2 ^ 32 := by
    intro v
    unfold stepsOf
    constructor
    · rintro ⟨c, cp, hcp, hs⟩
      exact ⟨c, ((stepsFrom_specComp h hcp v).2).mp hs⟩
    · rintro ⟨c, r, ax, ay, e, e1⟩
      have hc : ∃ cp, (cs.map (specComp t))[c]? = some cp := by
        rw [specComps_get]
        unfold axes at e
        split at e
        · simp at e
        · rename_i p hp; exact ⟨_, by rw [hp]; rfl⟩
      obtain ⟨cp, hcp⟩ := hc
      exact ⟨c, cp, hcp, ((stepsFrom_specComp h hcp v).2).mpr ⟨r, ax, ay, e, e1⟩⟩
  have h0 : 0 < cs.length := List.length_pos_iff.mpr hne
  obtain ⟨r, ax, ay, e, sx, sy⟩ := top_step h h0
  constructor
  · rcases hmin.1 with ⟨_, hn⟩ | ⟨h1, h2, h3⟩
    · exact absurd (Or.inr ((hxs _).mpr ⟨0, r, ax, ay, e, rfl, sx⟩)) (hn _)
    · obtain ⟨c', r', ax', ay', e', e1, e2⟩ := (hxs _).mp (h1.resolve_left id)
      refine ⟨h2, e2, ⟨c', r', ax', ay', e', e1⟩, ?_⟩
      intro c r ax ay e hs
      exact h3 _ (Or.inr ((hxs _).mpr ⟨c, r, ax, ay, e, rfl, hs⟩))
  · rcases hmin.2 with ⟨_, hn⟩ | ⟨h1, h2, h3⟩
    · exact absurd (Or.inr ((hys _).mpr ⟨0, r, ax, ay, e, rfl, sy⟩)) (hn _)
    · obtain ⟨c', r', ax', ay', e', e1, e2⟩ := (hys _).mp (h1.resolve_left id)
      refine ⟨h2, e2, ⟨c', r', ax', ay', e', e1⟩, ?_⟩
      intro c r ax ay e hs
      exact h3 _ (Or.inr ((hys _).mpr ⟨c, r, ax, ay, e, rfl, hs⟩))

/-- The steps CPRL uses for a component: the smallest of its resolutions, which divides the others. -/
theorem foldRes_spec (h : TileFit t cs) {c : Nat} {cp : Comp} (hcp : (cs.map (specComp t))[c]? = some cp) :
    let d := foldRes cp cp.res.length 0 cp.res (0, 0)
    (0 < d.1 ∧ d.1 < 2 ^ 32 ∧ ∀ r ax ay, axes t cs c r = some (ax, ay) → ax.step < 2 ^ 32 → d.1 ∣ ax.step) ∧
    (0 < d.2 ∧ d.2 < 2 ^ 32 ∧ ∀ r ax ay, axes t cs c r = some (ax, ay) → ay.step < 2 ^ 32 → d.2 ∣ ay.step) := by
  intro d
  have hc : c < cs.length := by
    have := (List.getElem?_eq_some_iff.mp hcp).1
    simpa using this
  have hpos : 0 < cp.dx ∧ 0 < cp.dy := by
    obtain ⟨p, hp, rfl⟩ := List.mem_map.mp (List.mem_of_getElem? hcp)
    exact ⟨(h.comps p hp).dx.1, (h.comps p hp).dy.1⟩
  have hmin := foldRes_min cp cp.res.length hpos.1 hpos.2 (fun d pd n v => resStep_pos _ d pd n v) cp.res 0 (0, 0)
    (fun _ => False) (fun _ => False) (Or.inl ⟨rfl, fun _ => id⟩) (Or.inl ⟨rfl, fun _ => id⟩)
  obtain ⟨r, ax, ay, e, sx, sy⟩ := top_step h hc
  have dd : ∀ r ax ay, axes t cs c r = some (ax, ay) → ax.d = cp.dx ∧ ay.d = cp.dy := by
    intro r ax ay e
    unfold axes at e
    rw [specComps_get] at hcp
    cases hq : cs[c]? with
    | none => rw [hq] at e; simp at e
    | some p =>
      rw [hq] at e hcp
      simp only [Option.map_some, Option.some.injEq] at hcp
      simp only at e
      split at e
      · simp at e
      · simp only [Option.some.injEq, Prod.mk.injEq] at e
        rw [← e.1, ← e.2, ← hcp]
        exact ⟨rfl, rfl⟩
  have dvd : ∀ d k k', 0 < d → d * 2 ^ k ≤ d * 2 ^ k' → d * 2 ^ k ∣ d * 2 ^ k' := by
    intro d k k' hd hle
    apply Nat.mul_dvd_mul_left
    apply Nat.pow_dvd_pow
    exact (Nat.pow_le_pow_iff_right (by omega)).mp (Nat.le_of_mul_le_mul_left hle hd)
  constructor
  · rcases hmin.1 with ⟨_, hn⟩ | ⟨h1, h2, h3⟩
    · exact absurd (Or.inr (((stepsFrom_specComp h hcp _).1).mpr ⟨r, ax, ay, e, rfl, sx⟩)) (hn _)
    · obtain ⟨r', ax', ay', e', e1, e2⟩ := ((stepsFrom_specComp h hcp _).1).mp (h1.resolve_left id)
      refine ⟨h2, e2, ?_⟩
      intro r ax ay e hs
      have hle := h3 _ (Or.inr (((stepsFrom_specComp h hcp _).1).mpr ⟨r, ax, ay, e, rfl, hs⟩))
      change d.1 ≤ _ at hle
      change d.1 = _ at e1
      rw [e1] at hle ⊢
      unfold Axis.step at hle ⊢
      rw [(dd _ _ _ e).1, (dd _ _ _ e').1] at *
      exact dvd _ _ _ hpos.1 hle
  · rcases hmin.2 with ⟨_, hn⟩ | ⟨h1, h2, h3⟩
    · exact absurd (Or.inr (((stepsFrom_specComp h hcp _).2).mpr ⟨r, ax, ay, e, rfl, sy⟩)) (hn _)
    · obtain ⟨r', ax', ay', e', e1, e2⟩ := ((stepsFrom_specComp h hcp _).2).mp (h1.resolve_left id)
      refine ⟨h2, e2, ?_⟩
      intro r ax ay e hs
      have hle := h3 _ (Or.inr (((stepsFrom_specComp h hcp _).2).mpr ⟨r, ax, ay, e, rfl, hs⟩))
      change d.2 ≤ _ at hle
      change d.2 = _ at e1
      rw [e1] at hle ⊢
      unfold Axis.step at hle ⊢
      rw [(dd _ _ _ e).2, (dd _ _ _ e').2] at *
      exact dvd _ _ _ hpos.2 hle

/-! ## Positions that are not visited hold no packet -/

/-- A position loop with step `d` over `[t0, t1)` misses nothing, when outside its positions `V` is empty. -/
theorem flatMap_positions {α : Type} (t0 t1 d : Nat) (V : Nat → List α)
    (h : ∀ v, t0 ≤ v → v < t1 → v ≠ t0 → v % d ≠ 0 → V v = []) :
    (positions t0 t1 d).flatMap V = (upto t0 t1).flatMap V := by
  unfold positions
  have : ∀ l : List Nat, (∀ v ∈ l, t0 ≤ v ∧ v < t1) →
      (l.filter fun v => v = t0 || v % d = 0).flatMap V = l.flatMap V := by
    intro l
    induction l with
    | nil => intro _; rfl
    | cons v l ih =>
      intro hl
      rw [List.filter_cons, List.flatMap_cons]
      have hv := hl v (by simp)
      have ih' := ih (fun z hz => hl z (by simp [hz]))
      by_cases hc : (decide (v = t0) || decide (v % d = 0)) = true
      · rw [if_pos hc, List.flatMap_cons, ih']
      · rw [if_neg hc, ih']
        simp only [Bool.or_eq_true, decide_eq_true_eq, not_or] at hc
        rw [h v hv.1 hv.2 hc.1 hc.2]; rfl
  exact this _ fun v hv => (mem_upto _ _ _).mp hv

/-- Where a packet belongs, the loop stops. -/
theorem here_visited {a : Axis} (h : AxFit a) {d v : Nat} (hd : a.step < 2 ^ 32 → d ∣ a.step)
    (h0 : a.t0 ≤ v) (h1 : v < a.t1) (hh : a.here v = true) : v = a.t0 ∨ v % d = 0 := by
  rcases (here_iff h.toAxOk v).mp hh with hv | ⟨rfl, _⟩
  · by_cases hs : a.step < 2 ^ 32
    · exact Or.inr (Nat.mod_eq_zero_of_dvd ((hd hs).trans hv))
    · left
      have := h.t1
      have : v = 0 := Nat.eq_zero_of_dvd_of_lt hv (by omega)
      omega
  · exact Or.inl rfl

theorem precAt_nil_x (h : TileFit t cs) {c r x y d : Nat}
    (hd : ∀ ax ay, axes t cs c r = some (ax, ay) → ax.step < 2 ^ 32 → d ∣ ax.step)
    (h0 : t.tx0 ≤ x) (h1 : x < t.tx1) (hne : x ≠ t.tx0) (hm : x % d ≠ 0) : precAt t cs c r x y = [] := by
  apply List.eq_nil_iff_forall_not_mem.mpr
  intro k hk
  obtain ⟨ax, ay, e, _, _, _, h4, _⟩ := mem_precAt.mp hk
  obtain ⟨_, _, e1, e2, _, _⟩ := axes_ok h.ok e
  rcases here_visited (axes_fit h e).1 (hd ax ay e) (by omega) (by omega) h4 with h5 | h5
  · exact hne (by omega)
  · exact hm h5

theorem precAt_nil_y (h : TileFit t cs) {c r x y d : Nat}
    (hd : ∀ ax ay, axes t cs c r = some (ax, ay) → ay.step < 2 ^ 32 → d ∣ ay.step)
    (h0 : t.ty0 ≤ y) (h1 : y < t.ty1) (hne : y ≠ t.ty0) (hm : y % d ≠ 0) : precAt t cs c r x y = [] := by
  apply List.eq_nil_iff_forall_not_mem.mpr
  intro k hk
  obtain ⟨ax, ay, e, _, _, h3, _, _⟩ := mem_precAt.mp hk
  obtain ⟨_, _, _, _, e1, e2⟩ := axes_ok h.ok e
  rcases here_visited (axes_fit h e).2 (hd ax ay e) (by omega) (by omega) h3 with h5 | h5
  · exact hne (by omega)
  · exact hm h5

end Jp2.Pi

import Verif.Jp2.PiSteps
/-!
# From the machines to the packets of a tile
-/
namespace Jp2.Pi
open Spec

/-! ## Maxima -/

theorem foldl_max {α : Type} (f : α → Nat) : ∀ (l : List α) (a : Nat),
    a ≤ l.foldl (fun a r => if a < f r then f r else a) a ∧
    (∀ r ∈ l, f r ≤ l.foldl (fun a r => if a < f r then f r else a) a) ∧
    (l.foldl (fun a r => if a < f r then f r else a) a = a ∨
      ∃ r ∈ l, l.foldl (fun a r => if a < f r then f r else a) a = f r) := by
  intro l
  induction l with
  | nil => intro a; simp
  | cons x l ih =>
    intro a
    rw [List.foldl_cons]
    obtain ⟨h1, h2, h3⟩ := ih (if a < f x then f x else a)
    have hx : f x ≤ (if a < f x then f x else a) := by split <;> omega
    have ha : a ≤ (if a < f x then f x else a) := by split <;> omega
    refine ⟨by omega, ?_, ?_⟩
    · intro r hr
      rcases List.mem_cons.mp hr with rfl | hr
      · omega
      · exact h2 r hr
    · rcases h3 with h3 | ⟨r, hr, h3⟩
      · rw [h3]
        split
        · exact Or.inr ⟨x, by simp, rfl⟩
        · exact Or.inl rfl
      · exact Or.inr ⟨r, by simp [hr], h3⟩

theorem maxPrec_spec (cs : List Comp) :
    (∀ c ∈ cs, ∀ r ∈ c.res, r.pw * r.ph % 2 ^ 32 ≤ maxPrec cs) ∧
    (maxPrec cs = 0 ∨ ∃ c ∈ cs, ∃ r ∈ c.res, maxPrec cs = r.pw * r.ph % 2 ^ 32) := by
  unfold maxPrec
  have key : ∀ (cs : List Comp) (a : Nat),
      a ≤ cs.foldl (fun a c => c.res.foldl (fun a r => if a < r.pw * r.ph % 2 ^ 32 then r.pw * r.ph % 2 ^ 32 else a) a) a ∧
      (∀ c ∈ cs, ∀ r ∈ c.res, r.pw * r.ph % 2 ^ 32 ≤
        cs.foldl (fun a c => c.res.foldl (fun a r => if a < r.pw * r.ph % 2 ^ 32 then r.pw * r.ph % 2 ^ 32 else a) a) a) ∧
      (cs.foldl (fun a c => c.res.foldl (fun a r => if a < r.pw * r.ph % 2 ^ 32 then r.pw * r.ph % 2 ^ 32 else a) a) a = a ∨
        ∃ c ∈ cs, ∃ r ∈ c.res,
        cs.foldl (fun a c => c.res.foldl (fun a r => if a < r.pw * r.ph % 2 ^ 32 then r.pw * r.ph % 2 ^ 32 else a) a) a =
          r.pw * r.ph % 2 ^ 32) := by
    intro cs
    induction cs with
    | nil => intro a; simp
    | cons c cs ih =>
      intro a
      rw [List.foldl_cons]
      obtain ⟨g1, g2, g3⟩ := foldl_max (fun r : Res => r.pw * r.ph % 2 ^ 32) c.res a
      generalize c.res.foldl (fun a r => if a < r.pw * r.ph % 2 ^ 32 then r.pw * r.ph % 2 ^ 32 else a) a = a' at *
      obtain ⟨h1, h2, h3⟩ := ih a'
      refine ⟨by omega, ?_, ?_⟩
      · intro z hz r hr
        rcases List.mem_cons.mp hz with rfl | hz
        · exact Nat.le_trans (g2 r hr) h1
        · exact h2 z hz r hr
      · rcases h3 with h3 | ⟨z, hz, r, hr, h3⟩
        · rw [h3]
          rcases g3 with g3 | ⟨r, hr, g3⟩
          · exact Or.inl g3
          · exact Or.inr ⟨c, by simp, r, hr, g3⟩
        · exact Or.inr ⟨z, by simp [hz], r, hr, h3⟩
  exact (key cs 0).2

theorem maxRes_spec (cs : List Comp) :
    (∀ c ∈ cs, c.res.length ≤ maxRes cs) ∧ (maxRes cs = 0 ∨ ∃ c ∈ cs, maxRes cs = c.res.length) := by
  unfold maxRes
  exact (foldl_max (fun c : Comp => c.res.length) cs 0).2

variable {t : Tile} {cs : List CompParams}

/-- Facts about the tables that make the `include` index injective. -/
structure Geo (t : Tile) (cs : List CompParams) (L mp mr : Nat) : Prop where
  hmp : ∀ c r, numPrec t cs c r ≤ mp
  hmr : ∀ c r, numPrec t cs c r ≠ 0 → r < mr
  mr33 : mr ≤ 33
  nc : ∀ c r, numPrec t cs c r ≠ 0 → c < cs.length
  size : (L + 1) * (mr * (cs.length * mp)) < 2 ^ 32
  pos : 0 < mr * (cs.length * mp)

theorem numPrec_bounds {c r : Nat} (h : numPrec t cs c r ≠ 0) :
    ∃ cp, cs[c]? = some cp ∧ r < cp.prc.length := by
  unfold numPrec axes at h
  cases hc : cs[c]? with
  | none => rw [hc] at h; simp at h
  | some cp =>
    rw [hc] at h
    simp only at h
    by_cases hr : r < cp.prc.length
    · exact ⟨cp, rfl, hr⟩
    · rw [List.getElem?_eq_none (by omega)] at h; simp at h

theorem numPrec_table {c r : Nat} (h : numPrec t cs c r ≠ 0) : ∃ cp ∈ cs.map (specComp t), ∃ q ∈ cp.res,
    q.pw * q.ph = numPrec t cs c r := by
  obtain ⟨cp, hcp, hr⟩ := numPrec_bounds h
  have hc' : (cs.map (specComp t))[c]? = some (specComp t cp) := by rw [specComps_get, hcp]; rfl
  obtain ⟨q, hq⟩ : ∃ q, (specComp t cp).res[r]? = some q :=
    ⟨_, List.getElem?_eq_getElem (by unfold specComp; simp only [specRes_length]; exact hr)⟩
  refine ⟨_, List.mem_of_getElem? hc', q, List.mem_of_getElem? hq, ?_⟩
  rw [← npOf_eq]
  unfold npOf
  rw [hc']
  simp only [hq]

theorem table_numPrec {cp : Comp} {q : Res} (h1 : cp ∈ cs.map (specComp t)) (h2 : q ∈ cp.res) :
    ∃ c r, numPrec t cs c r = q.pw * q.ph := by
  obtain ⟨c, hc⟩ := List.getElem?_of_mem h1
  obtain ⟨r, hr⟩ := List.getElem?_of_mem h2
  refine ⟨c, r, ?_⟩
  rw [← npOf_eq]
  unfold npOf
  rw [hc]
  simp only [hr]

theorem IndexFits.lt {L : Nat} (h : IndexFits t cs L) (c r : Nat) : numPrec t cs c r < 2 ^ 32 := by
  obtain ⟨R, h1, h2⟩ := h.fits
  by_cases hz : numPrec t cs c r = 0
  · omega
  obtain ⟨cp, hcp, hr⟩ := numPrec_bounds hz
  have hR := h1 cp (List.mem_of_getElem? hcp)
  have hc := (List.getElem?_eq_some_iff.mp hcp).1
  have a1 : numPrec t cs c r ≤ cs.length * numPrec t cs c r := Nat.le_mul_of_pos_left _ (by omega)
  have a2 : cs.length * numPrec t cs c r ≤ R * (cs.length * numPrec t cs c r) := Nat.le_mul_of_pos_left _ (by omega)
  have a3 : R * (cs.length * numPrec t cs c r) ≤ (L + 1) * (R * (cs.length * numPrec t cs c r)) :=
    Nat.le_mul_of_pos_left _ (by omega)
  have := h2 c r
  omega

theorem geo_of (hf : TileFit t cs) {L : Nat} (h : IndexFits t cs L) :
    Geo t cs L (maxPrec (cs.map (specComp t))) (maxRes (cs.map (specComp t))) := by
  obtain ⟨R, h1, h2⟩ := h.fits
  obtain ⟨m1, m2⟩ := maxPrec_spec (cs.map (specComp t))
  obtain ⟨r1, r2⟩ := maxRes_spec (cs.map (specComp t))
  have hlen : ∀ cp ∈ cs, (specComp t cp).res.length = cp.prc.length := by
    intro cp _; unfold specComp; simp only [specRes_length]
  have hmp : ∀ c r, numPrec t cs c r ≤ maxPrec (cs.map (specComp t)) := by
    intro c r
    by_cases hz : numPrec t cs c r = 0
    · omega
    · obtain ⟨cp, hcp, q, hq, e⟩ := numPrec_table hz
      have := m1 cp hcp q hq
      rw [e, Nat.mod_eq_of_lt (h.lt c r)] at this
      exact this
  have hmr : ∀ c r, numPrec t cs c r ≠ 0 → r < maxRes (cs.map (specComp t)) := by
    intro c r hz
    obtain ⟨cp, hcp, hr⟩ := numPrec_bounds hz
    have := r1 _ (List.mem_map_of_mem (f := specComp t) (List.mem_of_getElem? hcp))
    rw [hlen cp (List.mem_of_getElem? hcp)] at this
    omega
  have hnc : ∀ c r, numPrec t cs c r ≠ 0 → c < cs.length := by
    intro c r hz
    obtain ⟨cp, hcp, hr⟩ := numPrec_bounds hz
    exact (List.getElem?_eq_some_iff.mp hcp).1
  have hmR : ∀ B, (∀ cp ∈ cs, cp.prc.length ≤ B) → maxRes (cs.map (specComp t)) ≤ B := by
    intro B hB
    rcases r2 with r2 | ⟨c, hc, r2⟩
    · omega
    · obtain ⟨cp, hcp, rfl⟩ := List.mem_map.mp hc
      rw [r2, hlen cp hcp]; exact hB cp hcp
  refine ⟨hmp, hmr, hmR 33 fun cp hc => (hf.comps cp hc).res.2, hnc, ?_, ?_⟩
  · have hR := hmR R h1
    rcases m2 with m2 | ⟨cp, hcp, q, hq, m2⟩
    · rw [m2]; simp
    · obtain ⟨c, r, e⟩ := table_numPrec hcp hq
      rw [← e, Nat.mod_eq_of_lt (h.lt c r)] at m2
      rw [m2]
      refine Nat.lt_of_le_of_lt ?_ (h2 c r)
      exact Nat.mul_le_mul_left _ (Nat.mul_le_mul_right _ hR)
  · obtain ⟨c, r, hz⟩ := h.ne
    have a1 := hmp c r
    have a2 := hmr c r hz
    have a3 := hnc c r hz
    exact Nat.mul_pos (by omega) (Nat.mul_pos (by omega) (by omega))

/-! ## The index -/

/-- A new iterator for a tile. -/
def fresh (t : Tile) (cs : List CompParams) (L mp mr : Nat) (p : Poc) : It :=
  { inc := fun _ => false, incSize := (L + 1) * (mr * (cs.length * mp)), stepL := mr * (cs.length * mp),
    stepR := cs.length * mp, stepC := mp, stepP := 1, poc := p, comps := cs.map (specComp t),
    tx0 := t.tx0, ty0 := t.ty0, tx1 := t.tx1, ty1 := t.ty1 }

/-- Index of a packet. -/
def pidx (N mp mr : Nat) (p : Pkt) : Nat :=
  (p.layno * (mr * (N * mp)) + p.resno * (N * mp) + p.compno * mp + p.precno * 1) % 2 ^ 32

theorem digit2 {a b a' b' n : Nat} (hb : b < n) (hb' : b' < n) (e : a * n + b = a' * n + b') : a = a' ∧ b = b' := by
  have h1 : (a * n + b) % n = b := by rw [Nat.mul_comm, Nat.mul_add_mod, Nat.mod_eq_of_lt hb]
  have h2 : (a' * n + b') % n = b' := by rw [Nat.mul_comm, Nat.mul_add_mod, Nat.mod_eq_of_lt hb']
  have hbb : b = b' := by rw [← h1, ← h2, e]
  refine ⟨?_, hbb⟩
  subst hbb
  exact Nat.eq_of_mul_eq_mul_right (by omega) (by omega : a * n = a' * n)

theorem pidx_lt {L mp mr : Nat} (g : Geo t cs L mp mr) {p : Pkt} (hl : p.layno < L)
    (hp : p.precno < numPrec t cs p.compno p.resno) :
    pidx cs.length mp mr p = p.layno * (mr * (cs.length * mp)) + (p.resno * (cs.length * mp) +
      (p.compno * mp + p.precno)) ∧ p.precno < mp ∧ p.compno * mp + p.precno < cs.length * mp ∧
      p.resno * (cs.length * mp) + (p.compno * mp + p.precno) < mr * (cs.length * mp) ∧
      pidx cs.length mp mr p < (L + 1) * (mr * (cs.length * mp)) := by
  have hz : numPrec t cs p.compno p.resno ≠ 0 := by omega
  have a1 := g.hmp p.compno p.resno
  have a2 := g.hmr _ _ hz
  have a3 := g.nc _ _ hz
  have hsz := g.size
  have b1 : p.precno < mp := by omega
  have b2 : p.compno * mp + p.precno < cs.length * mp := by
    have : (p.compno + 1) * mp ≤ cs.length * mp := Nat.mul_le_mul_right _ (by omega)
    rw [Nat.add_mul] at this; omega
  have b3 : p.resno * (cs.length * mp) + (p.compno * mp + p.precno) < mr * (cs.length * mp) := by
    have : (p.resno + 1) * (cs.length * mp) ≤ mr * (cs.length * mp) := Nat.mul_le_mul_right _ (by omega)
    rw [Nat.add_mul] at this; omega
  have b4 : p.layno * (mr * (cs.length * mp)) + (p.resno * (cs.length * mp) + (p.compno * mp + p.precno)) <
      (L + 1) * (mr * (cs.length * mp)) := by
    have : (p.layno + 1) * (mr * (cs.length * mp)) ≤ (L + 1) * (mr * (cs.length * mp)) :=
      Nat.mul_le_mul_right _ (by omega)
    rw [Nat.add_mul p.layno] at this; omega
  have e : pidx cs.length mp mr p = p.layno * (mr * (cs.length * mp)) + (p.resno * (cs.length * mp) +
      (p.compno * mp + p.precno)) := by
    unfold pidx
    rw [Nat.mul_one, Nat.mod_eq_of_lt (by omega)]
    omega
  exact ⟨e, b1, b2, b3, by omega⟩

theorem pidx_inj {L mp mr : Nat} (g : Geo t cs L mp mr) {p q : Pkt} (hl : p.layno < L)
    (hp : p.precno < numPrec t cs p.compno p.resno) (hl' : q.layno < L)
    (hq : q.precno < numPrec t cs q.compno q.resno) (e : pidx cs.length mp mr p = pidx cs.length mp mr q) :
    p = q := by
  obtain ⟨e1, a1, a2, a3, _⟩ := pidx_lt g hl hp
  obtain ⟨e2, b1, b2, b3, _⟩ := pidx_lt g hl' hq
  rw [e1, e2] at e
  obtain ⟨c1, c2⟩ := digit2 a3 b3 e
  obtain ⟨c3, c4⟩ := digit2 a2 b2 c2
  obtain ⟨c5, c6⟩ := digit2 a1 b1 c4
  cases p; cases q
  simp only at c1 c3 c5 c6
  simp [c1, c3, c5, c6]

/-! ## Visit lists are the specification lists -/

theorem visAt_eq (b : It) (c r x y : Nat) : visAt (at? t cs) b c r x y =
    (precAt t cs c r x y).flatMap fun k => (upto b.poc.layno0 b.poc.layno1).map fun l => ⟨l, r, c, k⟩ := by
  unfold visAt visLayers
  rw [at?_toList]

/-- Ranges of an iterator. -/
def Poc.bounds (p : Poc) : Bounds := ⟨p.layno0, p.layno1, p.resno0, p.resno1, p.compno0, p.compno1⟩

theorem visLrcp_eq {s0 : It} (hc : s0.comps = cs.map (specComp t)) :
    visLrcp s0 = lrcp t cs s0.poc.bounds := by
  unfold visLrcp visL visLR visLRC lrcp Poc.bounds
  rw [hc]
  simp only [npOf_eq]

theorem visRlcp_eq {s0 : It} (hc : s0.comps = cs.map (specComp t)) :
    visRlcp s0 = rlcp t cs s0.poc.bounds := by
  unfold visRlcp visR visLR visLRC rlcp Poc.bounds
  rw [hc]
  simp only [npOf_eq]

theorem flatMap_nil' {α β : Type} (l : List α) (f : α → List β) (h : ∀ a ∈ l, f a = []) : l.flatMap f = [] := by
  induction l with
  | nil => rfl
  | cons a l ih =>
    rw [List.flatMap_cons, h a (by simp), ih (fun z hz => h z (by simp [hz]))]; rfl

theorem flatMap_congr' {α β : Type} (l : List α) (f g : α → List β) (h : ∀ a ∈ l, f a = g a) :
    l.flatMap f = l.flatMap g := by
  induction l with
  | nil => rfl
  | cons a l ih =>
    rw [List.flatMap_cons, List.flatMap_cons, h a (by simp), ih (fun z hz => h z (by simp [hz]))]

theorem visRpcl_eq (hf : TileFit t cs) {s0 : It} (hm : Matches t cs s0)
    (hx : ∀ c r ax ay, axes t cs c r = some (ax, ay) → ax.step < 2 ^ 32 → s0.dx ∣ ax.step)
    (hy : ∀ c r ax ay, axes t cs c r = some (ax, ay) → ay.step < 2 ^ 32 → s0.dy ∣ ay.step) :
    visRpcl (at? t cs) s0 = rpcl t cs s0.poc.bounds := by
  unfold visRpcl visPR visRY visRXY rpcl Poc.bounds
  simp only [visAt_eq, hm.ptx0, hm.ptx1, hm.pty0, hm.pty1]
  refine flatMap_congr' _ _ _ fun r _ => ?_
  rw [flatMap_positions]
  · refine flatMap_congr' _ _ _ fun y _ => ?_
    rw [flatMap_positions]
    intro x h0 h1 hne hmod
    refine flatMap_nil' _ _ fun c _ => ?_
    rw [precAt_nil_x hf (hx c r) h0 h1 hne hmod]; rfl
  · intro y h0 h1 hne hmod
    refine flatMap_nil' _ _ fun x _ => flatMap_nil' _ _ fun c _ => ?_
    rw [precAt_nil_y hf (hy c r) h0 h1 hne hmod]; rfl

theorem visPcrl_eq (hf : TileFit t cs) {s0 : It} (hm : Matches t cs s0)
    (hx : ∀ c r ax ay, axes t cs c r = some (ax, ay) → ax.step < 2 ^ 32 → s0.dx ∣ ax.step)
    (hy : ∀ c r ax ay, axes t cs c r = some (ax, ay) → ay.step < 2 ^ 32 → s0.dy ∣ ay.step) :
    visPcrl (at? t cs) s0 = pcrl t cs s0.poc.bounds := by
  unfold visPcrl visY visXY visCXY pcrl Poc.bounds
  simp only [visAt_eq, hm.ptx0, hm.ptx1, hm.pty0, hm.pty1]
  rw [flatMap_positions]
  · refine flatMap_congr' _ _ _ fun y _ => ?_
    rw [flatMap_positions]
    intro x h0 h1 hne hmod
    refine flatMap_nil' _ _ fun c _ => flatMap_nil' _ _ fun r _ => ?_
    rw [precAt_nil_x hf (hx c r) h0 h1 hne hmod]; rfl
  · intro y h0 h1 hne hmod
    refine flatMap_nil' _ _ fun x _ => flatMap_nil' _ _ fun c _ => flatMap_nil' _ _ fun r _ => ?_
    rw [precAt_nil_y hf (hy c r) h0 h1 hne hmod]; rfl

theorem visC_eq (hf : TileFit t cs) {s0 : It} (hm : Matches t cs s0) (c : Nat)
    (hx : ∀ r ax ay, axes t cs c r = some (ax, ay) → ax.step < 2 ^ 32 → s0.dx ∣ ax.step)
    (hy : ∀ r ax ay, axes t cs c r = some (ax, ay) → ay.step < 2 ^ 32 → s0.dy ∣ ay.step) :
    visC (at? t cs) s0 c = (upto t.ty0 t.ty1).flatMap fun y => (upto t.tx0 t.tx1).flatMap fun x =>
      (upto s0.poc.resno0 s0.poc.resno1).flatMap fun r => (precAt t cs c r x y).flatMap fun k =>
        (upto s0.poc.layno0 s0.poc.layno1).map fun l => ⟨l, r, c, k⟩ := by
  unfold visC visCY visCXY
  simp only [visAt_eq, hm.ptx0, hm.ptx1, hm.pty0, hm.pty1]
  rw [flatMap_positions]
  · refine flatMap_congr' _ _ _ fun y _ => ?_
    rw [flatMap_positions]
    intro x h0 h1 hne hmod
    refine flatMap_nil' _ _ fun r _ => ?_
    rw [precAt_nil_x hf (hx r) h0 h1 hne hmod]; rfl
  · intro y h0 h1 hne hmod
    refine flatMap_nil' _ _ fun x _ => flatMap_nil' _ _ fun r _ => ?_
    rw [precAt_nil_y hf (hy r) h0 h1 hne hmod]; rfl

end Jp2.Pi

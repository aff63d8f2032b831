import Verif.Jp2.MqcSeg
/-!
# What one decision does to the contexts
-/
namespace Jp2.Mqc

theorem byteout_ctxs {s s' : Mqc} (h : byteout s = some s') : s'.ctxs = s.ctxs := by
  have hput : ∀ (t u : Mqc) (a b : Nat), put t a b = some u → u.ctxs = t.ctxs := by
    intro t u a b h
    unfold put at h
    rw [Option.map_eq_some_iff] at h
    obtain ⟨_, _, h⟩ := h
    rw [← h]
  unfold byteout at h
  split at h
  · simp at h
  · rw [Option.bind_eq_some_iff] at h
    obtain ⟨b, _, h⟩ := h
    split at h
    · exact hput _ _ _ _ h
    · split at h
      · exact hput _ _ _ _ h
      · rw [Option.bind_eq_some_iff] at h
        obtain ⟨m, _, h⟩ := h
        split at h
        · exact hput { s with mem := m, c := s.c &&& 0x7FFFFFF } _ _ _ h
        · exact hput { s with mem := m } _ _ _ h

theorem renorme_ctxs : ∀ (fuel : Nat) {s s' : Mqc}, renorme fuel s = some s' → s'.ctxs = s.ctxs := by
  intro fuel
  induction fuel with
  | zero => intro s s' h; simp [renorme] at h
  | succ fuel ih =>
    intro s s' h
    unfold renorme at h
    dsimp only at h
    generalize shl s.a 1 = a1 at h
    generalize shl s.c 1 = c1 at h
    generalize wsub s.ct 1 = t1 at h
    rw [Option.bind_eq_some_iff] at h
    obtain ⟨u, hu, h⟩ := h
    have hum : u.ctxs = s.ctxs := by
      split at hu
      · have := byteout_ctxs hu
        exact this
      · injection hu with hu; subst hu; rfl
    split at h
    · injection h with h
      subst h
      exact hum
    · exact (ih h).trans hum

theorem renormd_ctxs : ∀ (fuel : Nat) {s s' : Mqc}, renormd fuel s = some s' → s'.ctxs = s.ctxs := by
  intro fuel
  induction fuel with
  | zero => intro s s' h; simp [renormd] at h
  | succ fuel ih =>
    intro s s' h
    unfold renormd at h
    rw [Option.bind_eq_some_iff] at h
    obtain ⟨u, hu, h⟩ := h
    have hum : u.ctxs = s.ctxs := by
      split at hu
      · exact (bytein_mem hu).2.2
      · injection hu with hu; subst hu; rfl
    dsimp only at h
    generalize shl u.a 1 = a1 at h
    generalize shl u.c 1 = c1 at h
    generalize wsub u.ct 1 = t1 at h
    split at h
    · injection h with h
      subst h
      exact hum
    · exact (ih h).trans hum

/-- The contexts after a decision. -/
def Moved (st : State) (c c' : List Nat) (cx d : Nat) : Prop :=
  (d = st.mps ∧ c' = c) ∨ (d = st.mps ∧ c' = c.set cx st.nmps) ∨ (d = (if st.mps = 0 then 1 else 0) ∧ c' = c.set cx st.nlps)

theorem decode_moved {s s' : Mqc} {cx d : Nat} (h : decode s cx = some (d, s')) :
    ∃ st, ctxState s cx = some st ∧ Moved st s.ctxs s'.ctxs cx d := by
  have hR : ∀ s s' : Mqc, renormd 32 s = some s' → s'.ctxs = s.ctxs := fun s s' h => renormd_ctxs 32 h
  unfold decode at h
  generalize renormd 32 = R at h hR
  rw [Option.bind_eq_some_iff] at h
  obtain ⟨st, hst, h⟩ := h
  refine ⟨st, hst, ?_⟩
  dsimp only at h
  generalize wsub s.a st.qe = a1 at h
  generalize wsub s.c (shl st.qe 16) = c1 at h
  have key : ∀ (t : Mqc) (v : Nat) (dd : Nat), t.ctxs = s.ctxs →
      (R (setCtx t cx v)).map (fun s => (dd, s)) = some (d, s') → d = dd ∧ s'.ctxs = s.ctxs.set cx v := by
    intro t v dd h1 h3
    rw [Option.map_eq_some_iff] at h3
    obtain ⟨u, hu, h3⟩ := h3
    injection h3 with h3a h3
    subst h3
    refine ⟨h3a.symm, ?_⟩
    rw [hR _ _ hu]
    show (t.ctxs).set cx v = _
    rw [h1]
  split at h
  · split at h
    · exact Or.inr (Or.inl (key { s with a := st.qe } _ _ rfl h))
    · exact Or.inr (Or.inr (key { s with a := st.qe } _ _ rfl h))
  · split at h
    · split at h
      · exact Or.inr (Or.inr (key { s with a := a1, c := c1 } _ _ rfl h))
      · exact Or.inr (Or.inl (key { s with a := a1, c := c1 } _ _ rfl h))
    · injection h with h
      injection h with h1 h
      subst h
      exact Or.inl ⟨h1.symm, rfl⟩

theorem codemps_moved {s s' : Mqc} {cx : Nat} {st : State} (hst : ctxState s cx = some st) (h : codemps s cx = some s') :
    s'.ctxs = s.ctxs ∨ s'.ctxs = s.ctxs.set cx st.nmps := by
  have hR : ∀ s s' : Mqc, renorme 32 s = some s' → s'.ctxs = s.ctxs := fun s s' h => renorme_ctxs 32 h
  unfold codemps at h
  rw [hst, Option.bind_some] at h
  generalize renorme 32 = R at h hR
  dsimp only at h
  generalize wsub s.a st.qe = a1 at h
  generalize wadd s.c st.qe = c1 at h
  split at h
  · right
    rw [hR _ _ h]
    by_cases hc : a1 < st.qe
    · rw [if_pos hc]; rfl
    · rw [if_neg hc]; rfl
  · injection h with h
    left
    rw [← h]

theorem codelps_moved {s s' : Mqc} {cx : Nat} {st : State} (hst : ctxState s cx = some st) (h : codelps s cx = some s') :
    s'.ctxs = s.ctxs.set cx st.nlps := by
  have hR : ∀ s s' : Mqc, renorme 32 s = some s' → s'.ctxs = s.ctxs := fun s s' h => renorme_ctxs 32 h
  unfold codelps at h
  rw [hst, Option.bind_some] at h
  generalize renorme 32 = R at h hR
  dsimp only at h
  generalize wsub s.a st.qe = a1 at h
  generalize wadd s.c st.qe = c1 at h
  rw [hR _ _ h]
  by_cases hc : a1 < st.qe
  · rw [if_pos hc]; rfl
  · rw [if_neg hc]; rfl

theorem encode_moved {s s' : Mqc} {cx d : Nat} (hd : d ≤ 1) (h : encode s cx d = some s') :
    ∃ st, ctxState s cx = some st ∧ Moved st s.ctxs s'.ctxs cx d := by
  unfold encode at h
  rw [Option.bind_eq_some_iff] at h
  obtain ⟨st, hst, h⟩ := h
  refine ⟨st, hst, ?_⟩
  have hm := (ctx_ok hst).m
  split at h
  · rename_i hmd
    rcases codemps_moved hst h with h | h
    · exact Or.inl ⟨hmd.symm, h⟩
    · exact Or.inr (Or.inl ⟨hmd.symm, h⟩)
  · rename_i hmd
    exact Or.inr (Or.inr ⟨by split <;> omega, codelps_moved hst h⟩)

end Jp2.Mqc

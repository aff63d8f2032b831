import Verif.Jp2.HdrSafe
/-!
# Reading any bytes as a header: component transforms, `SIZ`, the marker loop
-/
namespace Jp2.Hdr

/-! ## Component transforms -/

theorem findMct_lt {i : Nat} : ∀ (l : List MctRec) (k0 k : Nat), findMct i l k0 = some k → k < k0 + l.length
  | [], _, _, h => by simp [findMct] at h
  | r :: l, k0, k, h => by
    unfold findMct at h
    split at h
    · injection h with h; simp; omega
    · have := findMct_lt l (k0 + 1) k h
      simp; omega

theorem findMcc_lt {i : Nat} : ∀ (l : List MccRec) (k0 k : Nat), findMcc i l k0 = some k → k < k0 + l.length
  | [], _, _, h => by simp [findMcc] at h
  | r :: l, k0, k, h => by
    unfold findMcc at h
    split at h
    · injection h with h; simp; omega
    · have := findMcc_lt l (k0 + 1) k h
      simp; omega

/-- The arrays of a record are there. -/
def RecOk (n : Nat) (r : MccRec) : Prop := (∀ k, r.deco = some k → k < n) ∧ ∀ k, r.offs = some k → k < n

theorem RecOk.mono {n m : Nat} {r : MccRec} (h : RecOk n r) (hm : n ≤ m) : RecOk m r :=
  ⟨fun k hk => Nat.lt_of_lt_of_le (h.1 k hk) hm, fun k hk => Nat.lt_of_lt_of_le (h.2 k hk) hm⟩

/-- New MCT records. -/
theorem fine_mcts {u : User} {d : Dec} {ms : List MctRec} (h : Inv u d) (hl : d.tcp.mcts.length ≤ ms.length) :
    Fine u d { d with tcp := { d.tcp with mcts := ms } } := by
  refine h.withTcp ⟨h.tcp.len, h.tcp.tccps, h.tcp.pocs_len, h.tcp.pocs, h.tcp.layers, ?_, ?_, h.tcp.matrix⟩ ?_
  · intro r hr
    exact RecOk.mono (h.tcp.mccs r hr) hl
  · exact RecOk.mono h.tcp.spare hl
  · exact fun hd => ⟨hd.csty, hd.prg, hd.layers, hd.mct, hd.style⟩

theorem readMct_post {u : User} {d : Dec} {p : List UInt8} {size : Nat} (h : Inv u d) (hp : size ≤ p.length) :
    Post (readMct d p size) (Fine u d) := by
  unfold readMct
  refine Post.bind (refuseIf_post _) fun _ h1 => ?_
  refine Post.bind (next_post (by omega) (by omega)) fun ⟨z, p1⟩ ⟨_, hp1⟩ => ?_
  dsimp only at hp1 ⊢
  split
  · exact Post.pure h.fine
  refine Post.bind (refuseIf_post _) fun _ h2 => ?_
  refine Post.bind (next_post (by omega) (by omega)) fun ⟨v, p2⟩ ⟨_, hp2⟩ => ?_
  dsimp only at hp2 ⊢
  obtain ⟨kr, hkr⟩ : ∃ kr, kr = mctSlot d.tcp.mcts (v % 256) := ⟨_, rfl⟩
  rw [← hkr]
  have hlen : d.tcp.mcts.length ≤ kr.2.length := by
    rw [hkr]; unfold mctSlot; split <;> simp
  obtain ⟨k, recs⟩ := kr
  dsimp only at hlen ⊢
  refine Post.bind (next_post (by omega) (by omega)) fun ⟨y, p3⟩ ⟨_, hp3⟩ => ?_
  dsimp only at hp3 ⊢
  split
  · exact Post.pure (fine_mcts h (by simpa using hlen))
  refine Post.bind (bytesAt_post (by omega)) fun data _ => ?_
  exact Post.pure (fine_mcts h (by simpa using hlen))

theorem readIdx_post {nb : Nat} (hnb : 1 ≤ nb ∧ nb ≤ 4) : ∀ (n j : Nat) (p : List UInt8), nb * n ≤ p.length →
    Post (readIdx nb n j p) (fun o => ∀ p', o = some p' → p'.length = p.length - nb * n)
  | 0, _, p, _ => by
    unfold readIdx
    refine Post.ok ?_
    intro p' hp
    injection hp with hp
    subst hp; simp
  | n + 1, j, p, h => by
    unfold readIdx
    rw [Nat.mul_succ] at h ⊢
    refine Post.bind (next_post (by omega) (by omega)) fun ⟨v, p1⟩ ⟨_, hp1⟩ => ?_
    dsimp only at hp1 ⊢
    split
    · refine Post.pure ?_
      intro p' hp; cases hp
    refine Post.mono (readIdx_post hnb n (j + 1) p1 (by omega)) fun o ho p' hp' => ?_
    rw [ho p' hp']
    omega

theorem mccArrays_post {d : Dec} {r : MccRec} {v : Nat} :
    Post (mccArrays d r v) (RecOk d.tcp.mcts.length) := by
  unfold mccArrays
  have find : ∀ i, Post (mccArray d.tcp.mcts i) (fun o => ∀ k, o = some k → k < d.tcp.mcts.length) := by
    intro i
    unfold mccArray
    split
    · cases hf : findMct i d.tcp.mcts 0 with
      | none => exact Post.refused
      | some k =>
        refine Post.ok ?_
        intro k' hk
        injection hk with hk
        have := findMct_lt _ _ _ hf
        omega
    · refine Post.ok ?_
      intro k hk; cases hk
  refine Post.bind (find _) fun deco hd => ?_
  refine Post.bind (find _) fun offs ho => ?_
  exact Post.pure ⟨hd, ho⟩

theorem readCollection_post {d : Dec} {r : MccRec} {p : List UInt8} {size : Nat} (hp : size ≤ p.length)
    (hr : RecOk d.tcp.mcts.length r) :
    Post (readCollection d r p size) (fun o => RecOk d.tcp.mcts.length o.1) := by
  unfold readCollection
  refine Post.bind (refuseIf_post _) fun _ h1 => ?_
  refine Post.bind (next_post (by omega) (by omega)) fun ⟨x, p1⟩ ⟨_, hp1⟩ => ?_
  dsimp only at hp1 ⊢
  split
  · exact Post.pure hr
  refine Post.bind (next_post (by omega) (by omega)) fun ⟨nc, p2⟩ ⟨hnc, hp2⟩ => ?_
  dsimp only at hnc hp2 ⊢
  refine Post.bind (refuseIf_post _) fun _ h2 => ?_
  have hnb : 1 ≤ 1 + nc / 32768 ∧ 1 + nc / 32768 ≤ 4 := by omega
  obtain ⟨nb, hnbe⟩ : ∃ nb, nb = 1 + nc / 32768 := ⟨_, rfl⟩
  rw [← hnbe] at hnb h2 ⊢
  obtain ⟨q, hq⟩ : ∃ q, q = nb * (nc % 32768) := ⟨_, rfl⟩
  rw [← hq] at h2 ⊢
  refine Post.bind (readIdx_post hnb (nc % 32768) 0 p2 (by omega)) fun o ho => ?_
  cases o with
  | none => exact Post.pure hr
  | some p3 =>
    have hp3 := ho p3 rfl
    dsimp only
    refine Post.bind (next_post (by omega) (by omega)) fun ⟨nc2, p4⟩ ⟨hnc2, hp4⟩ => ?_
    dsimp only at hnc2 hp4 ⊢
    split
    · exact Post.pure hr
    rename_i hsame
    have hsame : nc2 % 32768 = nc % 32768 := by
      by_contra hc; exact hsame hc
    refine Post.bind (refuseIf_post _) fun _ h3 => ?_
    have hnb2 : 1 ≤ 1 + nc2 / 32768 ∧ 1 + nc2 / 32768 ≤ 4 := by omega
    obtain ⟨nb2, hnbe2⟩ : ∃ nb2, nb2 = 1 + nc2 / 32768 := ⟨_, rfl⟩
    rw [← hnbe2] at hnb2 h3 ⊢
    obtain ⟨q2, hq2⟩ : ∃ q2, q2 = nb2 * (nc % 32768) := ⟨_, rfl⟩
    rw [← hq2] at h3 ⊢
    refine Post.bind (readIdx_post hnb2 (nc % 32768) 0 p4 (by omega)) fun o2 ho2 => ?_
    cases o2 with
    | none => exact Post.pure hr
    | some p5 =>
      have hp5 := ho2 p5 rfl
      dsimp only
      refine Post.bind (next_post (by omega) (by omega)) fun ⟨v, p6⟩ _ => ?_
      refine Post.bind mccArrays_post fun r' hr' => ?_
      exact Post.pure hr'

theorem readMccBody_post {d : Dec} {r : MccRec} {p : List UInt8} {size : Nat} (hp : size - 3 ≤ p.length)
    (h7 : 7 ≤ size) (hr : RecOk d.tcp.mcts.length r) :
    Post (readMccBody d r p size) (fun o => RecOk d.tcp.mcts.length o.rcd) := by
  unfold readMccBody
  refine Post.bind (next_post (by omega) (by omega)) fun ⟨y, p1⟩ ⟨_, hp1⟩ => ?_
  dsimp only at hp1 ⊢
  split
  · exact Post.pure hr
  refine Post.bind (next_post (by omega) (by omega)) fun ⟨q, p2⟩ ⟨_, hp2⟩ => ?_
  dsimp only at hp2 ⊢
  split
  · exact Post.pure hr
  split
  · refine Post.bind (refuseIf_post _) fun _ h2 => ?_
    exact Post.pure hr
  refine Post.bind (readCollection_post (by omega) hr) fun ⟨r', left⟩ hr' => ?_
  cases left with
  | none => exact Post.pure hr'
  | some left =>
    refine Post.bind (refuseIf_post _) fun _ h2 => ?_
    exact Post.pure hr'

theorem readMcc_post {u : User} {d : Dec} {p : List UInt8} {size : Nat} (h : Inv u d) (hp : size ≤ p.length) :
    Post (readMcc d p size) (Fine u d) := by
  unfold readMcc
  refine Post.bind (refuseIf_post _) fun _ h1 => ?_
  refine Post.bind (next_post (by omega) (by omega)) fun ⟨z, p1⟩ ⟨_, hp1⟩ => ?_
  dsimp only at hp1 ⊢
  split
  · exact Post.pure h.fine
  refine Post.bind (refuseIf_post _) fun _ h2 => ?_
  refine Post.bind (next_post (by omega) (by omega)) fun ⟨i, p2⟩ ⟨_, hp2⟩ => ?_
  dsimp only at hp2 ⊢
  cases hf : findMcc i d.tcp.mccs 0 with
  | some k =>
    dsimp only
    have hk := findMcc_lt _ _ _ hf
    rw [List.getElem?_eq_getElem (by omega)]
    dsimp only
    have hm := h.tcp.mccs _ (List.getElem_mem (show k < d.tcp.mccs.length by omega))
    refine Post.bind (readMccBody_post (by omega) (by omega) (show RecOk _ _ from hm)) fun o ho => ?_
    refine Post.pure (h.withTcp ⟨h.tcp.len, h.tcp.tccps, h.tcp.pocs_len, h.tcp.pocs, h.tcp.layers, ?_, h.tcp.spare,
      h.tcp.matrix⟩ ?_)
    · intro r hr
      rcases List.mem_or_eq_of_mem_set hr with e | e
      · exact h.tcp.mccs r e
      · subst e; exact ho
    · exact fun hd => ⟨hd.csty, hd.prg, hd.layers, hd.mct, hd.style⟩
  | none =>
    dsimp only
    refine Post.bind (readMccBody_post (by omega) (by omega) (show RecOk _ _ from h.tcp.spare)) fun o ho => ?_
    split
    · refine Post.pure (h.withTcp ⟨h.tcp.len, h.tcp.tccps, h.tcp.pocs_len, h.tcp.pocs, h.tcp.layers, ?_, ?_,
        h.tcp.matrix⟩ ?_)
      · intro r hr
        rcases List.mem_append.1 hr with e | e
        · exact h.tcp.mccs r e
        · simp at e; subst e; exact ho
      · exact ⟨fun k hk => by simp at hk, fun k hk => by simp at hk⟩
      · exact fun hd => ⟨hd.csty, hd.prg, hd.layers, hd.mct, hd.style⟩
    · refine Post.pure (h.withTcp ⟨h.tcp.len, h.tcp.tccps, h.tcp.pocs_len, h.tcp.pocs, h.tcp.layers, h.tcp.mccs, ho,
        h.tcp.matrix⟩ ?_)
      exact fun hd => ⟨hd.csty, hd.prg, hd.layers, hd.mct, hd.style⟩

theorem readElems_post {sz : Nat} : ∀ (n : Nat) (p : List UInt8), sz * n ≤ p.length →
    Post (readElems sz n p) (fun l => l.length = n)
  | 0, p, _ => by unfold readElems; exact Post.ok rfl
  | n + 1, p, h => by
    unfold readElems
    rw [Nat.mul_succ] at h
    refine Post.bind (bytesAt_post (by omega)) fun b _ => ?_
    refine Post.bind (readElems_post n (p.drop sz) (by simp; omega)) fun l hl => ?_
    exact Post.pure (by simp [hl])

theorem elemSize_le (t : Nat) : elemSize t ≤ 8 := by unfold elemSize; split <;> (try split) <;> (try split) <;> omega

/-- What `opj_j2k_add_mct` may change: it is not seen by anything else. -/
theorem Fine.trans {u : User} {a b c : Dec} (h : Fine u a b) (h' : Fine u b c) : Fine u a c :=
  ⟨⟨h'.1.buf.trans h.1.buf, h'.1.hasSiz.trans h.1.hasSiz, h'.1.hasCod.trans h.1.hasCod, h'.1.hasQcd.trans h.1.hasQcd⟩,
    h'.2.1, fun x => h'.2.2 (h.2.2 x)⟩

theorem addMatrix_post {u : User} {d : Dec} {o : Option Nat} (h : Inv u d) (hk : ∀ k, o = some k → k < d.tcp.mcts.length) :
    Post (addMatrix d o) (fun d' => Fine u d d' ∧ d'.tcp.mcts = d.tcp.mcts) := by
  cases o with
  | none => exact Post.ok ⟨h.fine, rfl⟩
  | some k =>
  have hk := hk k rfl
  unfold addMatrix
  dsimp only
  rw [List.getElem?_eq_getElem hk]
  dsimp only
  refine Post.bind (refuseIf_post _) fun _ h1 => ?_
  have hn := h.geom.comps_len.2
  obtain ⟨n, hn'⟩ : ∃ n, n = d.comps.length := ⟨_, rfl⟩
  have hnn : n * n ≤ 16384 * 16384 := Nat.mul_le_mul (by omega) (by omega)
  have hmod : d.comps.length * d.comps.length % 2 ^ 32 = d.comps.length * d.comps.length := by
    rw [← hn']; exact Nat.mod_eq_of_lt (by omega)
  have hmod2 : elemSize (d.tcp.mcts[k]).etype * d.comps.length * d.comps.length % 2 ^ 32 =
      elemSize (d.tcp.mcts[k]).etype * (d.comps.length * d.comps.length) := by
    rw [← hn', Nat.mul_assoc]
    apply Nat.mod_eq_of_lt
    have := Nat.mul_le_mul (elemSize_le (d.tcp.mcts[k]).etype) hnn
    omega
  rw [hmod2] at h1
  rw [hmod]
  refine Post.bind (readElems_post _ _ (by omega)) fun vs hvs => ?_
  refine Post.pure ⟨h.withTcp ⟨h.tcp.len, h.tcp.tccps, h.tcp.pocs_len, h.tcp.pocs, h.tcp.layers, h.tcp.mccs, h.tcp.spare,
      ?_⟩ ?_, rfl⟩
  · intro e vs' he
    injection he with he
    injection he with _ he
    subst he; exact hvs
  · exact fun hd => ⟨hd.csty, hd.prg, hd.layers, hd.mct, hd.style⟩

/-- New level shifts. -/
theorem fine_shift {u : User} {d : Dec} {ts : List Tccp} {mx : Option (Nat × List Nat)} (h : Inv u d)
    (hl : ts.length = d.comps.length)
    (ht : ∀ c ∈ ts, ∃ t ∈ d.tcp.tccps, ∃ z, c = { t with dcShift := z })
    (hm : mx = d.tcp.matrix ∨ mx = none) :
    Fine u d { d with tcp := { d.tcp with tccps := ts, matrix := mx } } := by
  refine h.withTcp ⟨hl, ?_, h.tcp.pocs_len, h.tcp.pocs, h.tcp.layers, h.tcp.mccs, h.tcp.spare, ?_⟩ ?_
  · intro c hc
    obtain ⟨t, ht, z, rfl⟩ := ht c hc
    have := h.tcp.tccps t ht
    refine ⟨?_, this.prcs_len, ⟨this.quant.qntsty, this.quant.numgbits, this.quant.steps_len, this.quant.steps⟩, this.csty, this.roi⟩
    rcases this.style with a | a
    · exact Or.inl a
    · exact Or.inr ⟨a.numres, a.reduce, a.cblkw, a.cblkh, a.cblk, a.cblksty, a.qmfbid, a.prcs⟩
  · rcases hm with e | e
    · rw [e]; exact h.tcp.matrix
    · rw [e]; intro e vs hx; cases hx
  · intro hd
    refine ⟨hd.csty, hd.prg, hd.layers, hd.mct, ?_⟩
    intro c hc
    obtain ⟨t, ht, z, rfl⟩ := ht c hc
    have a := hd.style t ht
    exact ⟨a.numres, a.reduce, a.cblkw, a.cblkh, a.cblk, a.cblksty, a.qmfbid, a.prcs⟩

theorem mem_zipWith {α β γ : Type} {f : α → β → γ} : ∀ {l : List α} {m : List β} {c : γ}, c ∈ List.zipWith f l m →
    ∃ a ∈ l, ∃ b ∈ m, c = f a b
  | [], _, _, h => by simp at h
  | _ :: _, [], _, h => by simp at h
  | a :: l, b :: m, c, h => by
    simp only [List.zipWith_cons_cons, List.mem_cons] at h
    rcases h with h | h
    · exact ⟨a, by simp, b, by simp, h⟩
    · obtain ⟨a', ha, b', hb, e⟩ := mem_zipWith h
      exact ⟨a', by simp [ha], b', by simp [hb], e⟩

theorem addOffsets_post {u : User} {d : Dec} {o : Option Nat} (h : Inv u d) (hk : ∀ k, o = some k → k < d.tcp.mcts.length) :
    Post (addOffsets u d o) (Fine u d) := by
  cases o with
  | none => exact Post.ok h.fine
  | some k =>
  have hk := hk k rfl
  unfold addOffsets
  dsimp only
  rw [List.getElem?_eq_getElem hk]
  dsimp only
  refine Post.bind (refuseIf_post _) fun _ h1 => ?_
  have hn := h.geom.comps_len.2
  have hmod : elemSize (d.tcp.mcts[k]).etype * d.comps.length % 2 ^ 32 =
      elemSize (d.tcp.mcts[k]).etype * d.comps.length := by
    apply Nat.mod_eq_of_lt
    have := Nat.mul_le_mul (elemSize_le (d.tcp.mcts[k]).etype) hn
    omega
  rw [hmod] at h1
  refine Post.bind (readElems_post _ _ (by omega)) fun vs hvs => ?_
  refine Post.pure (fine_shift h ?_ ?_ (Or.inl rfl))
  · simp [hvs, h.tcp.len]
  · intro c hc
    obtain ⟨t, ht, v, _, e⟩ := mem_zipWith hc
    exact ⟨t, ht, _, e⟩

theorem addMct_post {u : User} {d : Dec} {i : Nat} (h : Inv u d) : Post (addMct u d i) (Fine u d) := by
  unfold addMct
  have hm := h.tcp.mccs
  cases hr : d.tcp.mccs with
  | nil => exact Post.pure h.fine
  | cons r l =>
    rw [hr] at hm
    have hr := hm r (by simp)
    dsimp only
    split
    · exact Post.pure h.fine
    split
    · exact Post.pure h.fine
    refine Post.bind (addMatrix_post h hr.1) fun d' ⟨hd', hmc⟩ => ?_
    refine Post.mono (addOffsets_post hd'.2.1 (by rw [hmc]; exact hr.2)) fun x hx => ?_
    exact hd'.trans hx

theorem readMco_post {u : User} {d : Dec} {p : List UInt8} {size : Nat} (h : Inv u d) (hp : size ≤ p.length) :
    Post (readMco u d p size) (Fine u d) := by
  unfold readMco
  refine Post.bind (refuseIf_post _) fun _ h1 => ?_
  refine Post.bind (next_post (by omega) (by omega)) fun ⟨n, p1⟩ ⟨_, hp1⟩ => ?_
  dsimp only at hp1 ⊢
  split
  · exact Post.pure h.fine
  refine Post.bind (refuseIf_post _) fun _ h2 => ?_
  have F : Fine u d { d with tcp := { d.tcp with
    tccps := d.tcp.tccps.map fun t => { t with dcShift := 0 }, matrix := none } } := by
    refine fine_shift h ?_ ?_ (Or.inr rfl)
    · rw [List.length_map]; exact h.tcp.len
    · intro c hc
      obtain ⟨t, ht, e⟩ := List.mem_map.1 hc
      exact ⟨t, ht, 0, e.symm⟩
  split
  · exact Post.pure F
  refine Post.bind (next_post (by omega) (by omega)) fun ⟨i, p2⟩ ⟨_, hp2⟩ => ?_
  exact Post.mono (addMct_post F.2.1) fun x hx => F.trans hx

end Jp2.Hdr

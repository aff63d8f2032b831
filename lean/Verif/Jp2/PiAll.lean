import Verif.Jp2.PiDrain
/-!
# The packets a tile's iterators return
-/
namespace Jp2.Pi
open Spec

variable {t : Tile} {cs : List CompParams}

/-- What the ranges of an iterator must satisfy. -/
structure PocFit (N L : Nat) (p : Poc) : Prop where
  lay0 : p.layno0 = 0
  lay1 : p.layno1 ≤ L
  prec0 : p.precno0 = 0
  res1 : p.resno1 < 2 ^ 32
  comp0 : p.compno0 < N
  comp1 : p.compno1 ≤ N

theorem isPacket_of_mem (hf : TileFit t cs) {b : Bounds} {prg : Int} {p : Pkt} (h : p ∈ order t cs b prg) :
    IsPacket t cs b p := by
  unfold order at h
  split_ifs at h
  · exact (mem_lrcp b p).mp h
  · exact (mem_rlcp b p).mp h
  · exact (mem_rpcl b hf.ok p).mp h
  · exact (mem_pcrl b hf.ok p).mp h
  · exact (mem_cprl b hf.ok p).mp h
  · simp at h

theorem inside_order (hf : TileFit t cs) {L mp mr : Nat} (g : Geo t cs L mp mr) {p : Poc} (hp : PocFit cs.length L p)
    {s : It} (hi : s.idx = pidx cs.length mp mr) (hs : s.incSize = (L + 1) * (mr * (cs.length * mp))) :
    Inside s (order t cs p.bounds p.prg) := by
  intro q hq
  have hk := isPacket_of_mem hf hq
  unfold IsPacket Poc.bounds at hk
  obtain ⟨_, h2, _, _, _, _, h7⟩ := hk
  have := hp.lay1
  simp only at h2
  rw [hi, hs]
  exact (pidx_lt g (by omega) h7).2.2.2.2

theorem aligned_dvd_x (hf : TileFit t cs) (hne : cs ≠ []) (ha : Aligned t cs) :
    (∀ c r ax ay, axes t cs c r = some (ax, ay) → ax.step < 2 ^ 32 →
      (foldComps (cs.map (specComp t)) (0, 0)).1 ∣ ax.step) ∧
    (∀ c r ax ay, axes t cs c r = some (ax, ay) → ay.step < 2 ^ 32 →
      (foldComps (cs.map (specComp t)) (0, 0)).2 ∣ ay.step) := by
  obtain ⟨⟨_, _, ⟨c, r, ax, ay, e, e1⟩, hx⟩, ⟨_, _, ⟨c', r', ax', ay', e', e2⟩, hy⟩⟩ := foldComps_spec hf hne
  constructor
  · intro c1 r1 ax1 ay1 h1 hs
    have := hx _ _ _ _ h1 hs
    rw [e1] at this ⊢
    exact (ha _ _ _ _ _ _ _ _ e h1).1 this
  · intro c1 r1 ax1 ay1 h1 hs
    have := hy _ _ _ _ h1 hs
    rw [e2] at this ⊢
    exact (ha _ _ _ _ _ _ _ _ e' h1).2 this

/-- An iterator about to be used for the ranges `p` on the tile. -/
structure Ready (t : Tile) (cs : List CompParams) (mp mr : Nat) (p : Poc) (s : It) : Prop where
  poc : s.poc = p
  comps : s.comps = cs.map (specComp t)
  idx : s.idx = pidx cs.length mp mr
  first : s.first = true
  tp : s.tpOn = false
  tx0 : s.tx0 = t.tx0
  tx1 : s.tx1 = t.tx1
  ty0 : s.ty0 = t.ty0
  ty1 : s.ty1 = t.ty1
  inside : ∀ q ∈ order t cs p.bounds p.prg, pidx cs.length mp mr q < s.incSize
  lay1 : p.layno1 < 2 ^ 32
  prec0 : p.precno0 = 0
  res1 : p.resno1 < 2 ^ 32
  comp0 : p.compno0 < cs.length
  comp1 : p.compno1 ≤ cs.length

/-- One iterator: the packet loop sees the packets of its order that are still free. -/
theorem drain_it (m : Mode) (hf : TileFit t cs) (hnc : cs.length < 2 ^ 32 - 1) {mp mr : Nat}
    (hlt : ∀ c r, numPrec t cs c r < 2 ^ 32) (p : Poc) (ho : OrderOk t cs p.prg) (inc : Nat → Bool) (s : It)
    (hr : Ready t cs mp mr p s) (hinc : s.inc = inc) :
    ∃ F, ∀ fuel n, F ≤ fuel → F ≤ n → ∃ s', drain m fuel n s =
        some ((sweep (pidx cs.length mp mr) inc (order t cs p.bounds p.prg)).1, s') ∧
      s'.inc = (sweep (pidx cs.length mp mr) inc (order t cs p.bounds p.prg)).2 := by
  have q0 := hr.comp0
  have q1 := hr.comp1
  have q2 := hr.lay1
  have q3 := hr.res1
  have hne : cs ≠ [] := by rintro rfl; simp at q0
  have hlen : s.comps.length = cs.length := by rw [hr.comps]; simp
  have hpoc : s.poc = p := hr.poc
  have hcomps : s.comps = cs.map (specComp t) := hr.comps
  have hidx : s.idx = pidx cs.length mp mr := hr.idx
  have hfirst : s.first = true := hr.first
  have htp : s.tpOn = false := hr.tp
  have hok : compsOk s = true := by
    unfold compsOk
    rw [hpoc, hlen, Nat.mod_eq_of_lt (by omega)]
    simp only [Bool.and_eq_true, decide_eq_true_eq]
    exact ⟨q0, by omega⟩
  have finish : ∀ (s1 : It) (l : Label) (V : List Pkt) (l' : Label) (s2 : It), s1.first = false → compsOk s1 = true →
      s1.poc.prg = p.prg → s1.inc = inc → V = order t cs p.bounds p.prg →
      (∀ fuel, next m fuel s = run (stepOf m p.prg) fuel l s1) →
      Visits (stepOf m p.prg) (pidx cs.length mp mr) l s1 V l' s2 →
      stepOf m p.prg l' s2 = .ret false s2 →
      ∃ F, ∀ fuel n, F ≤ fuel → F ≤ n → ∃ s', drain m fuel n s =
        some ((sweep (pidx cs.length mp mr) inc (order t cs p.bounds p.prg)).1, s') ∧
      s'.inc = (sweep (pidx cs.length mp mr) inc (order t cs p.bounds p.prg)).2 := by
    intro s1 l V l' s2 f1 f2 f3 f4 f5 f6 f7 f8
    obtain ⟨v1, v2⟩ := f7
    rw [f4, f5] at v1 v2
    obtain ⟨F, hF⟩ := calls_of_emits v1 f8
    refine ⟨F, fun fuel n h1 h2 => ⟨s2, ?_, v2⟩⟩
    rw [drain_start m fuel n s s1 l f1 f2 (by rw [f3]; exact ⟨ho.1, ho.2.1⟩) (by rw [f3]; exact f6 fuel), f3]
    exact hF fuel n h1 h2
  have hin : ∀ s1 : It, s1.idx = s.idx → s1.incSize = s.incSize → Inside s1 (order t cs p.bounds p.prg) :=
    fun s1 h1 h2 q hq => by rw [h1, h2, hidx]; exact hr.inside q hq
  have hcase : p.prg = 0 ∨ p.prg = 1 ∨ p.prg = 2 ∨ p.prg = 3 ∨ p.prg = 4 := by
    have := ho.1; have := ho.2.1; omega
  rcases hcase with h | h | h | h | h
  · -- LRCP
    obtain ⟨s1, h1⟩ : ∃ s1, s1 = { s with first := false, layno := s.poc.layno0 } := ⟨_, rfl⟩
    have hz : Sized s1 := by
      rw [h1]
      refine ⟨htp, ?_, ?_, ?_, ?_, ?_, ?_⟩
      · simp only [hpoc]; omega
      · simp only [hpoc]; omega
      · simp only [hpoc, hlen]; omega
      · simp only [hlen]; omega
      · simp only [hpoc]; exact hr.prec0
      · intro c r; simp only [hcomps, npOf_eq]; exact hlt c r
    have hV : visLrcp s1 = order t cs p.bounds p.prg := by
      rw [visLrcp_eq (t := t) (cs := cs) (by rw [h1]; exact hcomps)]
      unfold order
      rw [if_pos h, h1]; simp only [hpoc]
    obtain ⟨s2, v, e⟩ := lrcp_all s1 hz (by rw [hV]; exact hin s1 (by rw [h1]; rfl) (by rw [h1])) s1 rfl (by rw [h1])
    have hst : stepOf m p.prg = stepLrcp := by unfold stepOf; rw [if_pos h]
    refine finish s1 .lay _ .lay s2 (by rw [h1]) (by rw [← hok, h1]; rfl) (by rw [h1]; simp only [hpoc])
      (by rw [h1]; exact hinc) hV ?_ ?_ (by rw [hst]; exact e)
    · intro fuel
      unfold next nextLrcp
      rw [if_pos (by rw [hpoc]; exact h), hok, hfirst, hst, h1]
      rfl
    · rw [hst, ← hidx, show s.idx = s1.idx by rw [h1]; rfl]; exact v
  · -- RLCP
    obtain ⟨s1, h1⟩ : ∃ s1, s1 = { s with first := false, resno := s.poc.resno0 } := ⟨_, rfl⟩
    have hz : Sized s1 := by
      rw [h1]
      refine ⟨htp, ?_, ?_, ?_, ?_, ?_, ?_⟩
      · simp only [hpoc]; omega
      · simp only [hpoc]; omega
      · simp only [hpoc, hlen]; omega
      · simp only [hlen]; omega
      · simp only [hpoc]; exact hr.prec0
      · intro c r; simp only [hcomps, npOf_eq]; exact hlt c r
    have hV : visRlcp s1 = order t cs p.bounds p.prg := by
      rw [visRlcp_eq (t := t) (cs := cs) (by rw [h1]; exact hcomps)]
      unfold order
      rw [if_neg (by omega), if_pos h, h1]; simp only [hpoc]
    obtain ⟨s2, v, e⟩ := rlcp_all s1 hz (by rw [hV]; exact hin s1 (by rw [h1]; rfl) (by rw [h1])) s1 rfl (by rw [h1])
    have hst : stepOf m p.prg = stepRlcp := by unfold stepOf; rw [if_neg (by omega), if_pos h]
    refine finish s1 .res _ .res s2 (by rw [h1]) (by rw [← hok, h1]; rfl) (by rw [h1]; simp only [hpoc])
      (by rw [h1]; exact hinc) hV ?_ ?_ (by rw [hst]; exact e)
    · intro fuel
      unfold next nextRlcp
      rw [if_neg (by rw [hpoc]; omega), if_pos (by rw [hpoc]; exact h), hok, hfirst, hst, h1]
      rfl
    · rw [hst, ← hidx, show s.idx = s1.idx by rw [h1]; rfl]; exact v
  · -- RPCL
    obtain ⟨d, hd⟩ : ∃ d, d = foldComps (cs.map (specComp t)) (0, 0) := ⟨_, rfl⟩
    obtain ⟨⟨dx0, dx1, _⟩, ⟨dy0, dy1, _⟩⟩ := foldComps_spec hf hne
    obtain ⟨dvx, dvy⟩ := aligned_dvd_x hf hne (ho.2.2.1 (Or.inl h))
    rw [← hd] at dx0 dx1 dy0 dy1 dvx dvy
    obtain ⟨sa, h0⟩ : ∃ sa, sa = setArea { s with first := false, dx := d.1, dy := d.2 } := ⟨_, rfl⟩
    have hsa : sa = { s with
        first := false
        dx := d.1
        dy := d.2
        poc := { s.poc with ty0 := s.ty0, tx0 := s.tx0, ty1 := s.ty1, tx1 := s.tx1 } } := by
      rw [h0]; unfold setArea; simp only [htp]; rfl
    have hstart : startPos s = some sa := by
      unfold startPos
      rw [hcomps, ← hd]
      simp only
      rw [if_neg (by omega), ← hcomps, h0]
    obtain ⟨s1, h1⟩ : ∃ s1, s1 = { sa with resno := sa.poc.resno0 } := ⟨_, rfl⟩
    have hm : Matches t cs s1 := by
      rw [h1, hsa]; exact ⟨hr.comps, hr.tx0, hr.tx1, hr.ty0, hr.ty1, hr.tx0, hr.tx1, hr.ty0, hr.ty1⟩
    have hb : s1.poc.bounds = p.bounds := by rw [h1, hsa]; simp only [hpoc]; rfl
    have hz : PosSized s1 := by
      have z1 := hf.x1
      have z2 := hf.y1
      refine ⟨?_, ?_, ?_, ?_, by rw [hm.ptx1]; exact z1, by rw [hm.pty1]; exact z2, ?_, ?_⟩ <;>
        rw [h1, hsa] <;> simp only [hpoc, hlen] <;> omega
    have hV : visRpcl (at? t cs) s1 = order t cs p.bounds p.prg := by
      rw [visRpcl_eq hf hm (by rw [h1, hsa]; exact dvx) (by rw [h1, hsa]; exact dvy), hb]
      unfold order
      rw [if_neg (by omega), if_neg (by omega), if_pos h]
    obtain ⟨s2, v, e⟩ := rpcl_all (at? t cs) m s1 hz (answers64 m hf hm hlt) (silent_at hm.comps)
      (by rw [hV]; exact hin s1 (by rw [h1, hsa]; rfl) (by rw [h1, hsa])) s1 rfl (by rw [h1])
    have hst : stepOf m p.prg = stepRpcl m := by unfold stepOf; rw [if_neg (by omega), if_neg (by omega), if_pos h]
    refine finish s1 .res _ .res s2 (by rw [h1, hsa]) (by rw [← hok, h1, hsa]; rfl) (by rw [h1, hsa]; simp only [hpoc])
      (by rw [h1, hsa]; exact hinc) hV ?_ ?_ (by rw [hst]; exact e)
    · intro fuel
      unfold next nextRpcl
      rw [if_neg (by rw [hpoc]; omega), if_neg (by rw [hpoc]; omega), if_pos (by rw [hpoc]; exact h), hok, hfirst, hst,
        hstart, h1]
      rfl
    · rw [hst, ← hidx, show s.idx = s1.idx by rw [h1, hsa]; rfl]; exact v
  · -- PCRL
    obtain ⟨d, hd⟩ : ∃ d, d = foldComps (cs.map (specComp t)) (0, 0) := ⟨_, rfl⟩
    obtain ⟨⟨dx0, dx1, _⟩, ⟨dy0, dy1, _⟩⟩ := foldComps_spec hf hne
    obtain ⟨dvx, dvy⟩ := aligned_dvd_x hf hne (ho.2.2.1 (Or.inr h))
    rw [← hd] at dx0 dx1 dy0 dy1 dvx dvy
    obtain ⟨sa, h0⟩ : ∃ sa, sa = setArea { s with first := false, dx := d.1, dy := d.2 } := ⟨_, rfl⟩
    have hsa : sa = { s with
        first := false
        dx := d.1
        dy := d.2
        poc := { s.poc with ty0 := s.ty0, tx0 := s.tx0, ty1 := s.ty1, tx1 := s.tx1 } } := by
      rw [h0]; unfold setArea; simp only [htp]; rfl
    have hstart : startPos s = some sa := by
      unfold startPos
      rw [hcomps, ← hd]
      simp only
      rw [if_neg (by omega), ← hcomps, h0]
    obtain ⟨s1, h1⟩ : ∃ s1, s1 = { sa with y := sa.poc.ty0 } := ⟨_, rfl⟩
    have hm : Matches t cs s1 := by
      rw [h1, hsa]; exact ⟨hr.comps, hr.tx0, hr.tx1, hr.ty0, hr.ty1, hr.tx0, hr.tx1, hr.ty0, hr.ty1⟩
    have hb : s1.poc.bounds = p.bounds := by rw [h1, hsa]; simp only [hpoc]; rfl
    have hz : PosSized s1 := by
      have z1 := hf.x1
      have z2 := hf.y1
      refine ⟨?_, ?_, ?_, ?_, by rw [hm.ptx1]; exact z1, by rw [hm.pty1]; exact z2, ?_, ?_⟩ <;>
        rw [h1, hsa] <;> simp only [hpoc, hlen] <;> omega
    have hV : visPcrl (at? t cs) s1 = order t cs p.bounds p.prg := by
      rw [visPcrl_eq hf hm (by rw [h1, hsa]; exact dvx) (by rw [h1, hsa]; exact dvy), hb]
      unfold order
      rw [if_neg (by omega), if_neg (by omega), if_neg (by omega), if_pos h]
    obtain ⟨s2, v, e⟩ := pcrl_all (at? t cs) m s1 hz (answers32 m hf (ho.2.2.2 (Or.inl h)) hm hlt) (silent_at hm.comps)
      (by rw [hV]; exact hin s1 (by rw [h1, hsa]; rfl) (by rw [h1, hsa])) s1 rfl (by rw [h1])
    have hst : stepOf m p.prg = stepPcrl m := by
      unfold stepOf; rw [if_neg (by omega), if_neg (by omega), if_neg (by omega), if_pos h]
    refine finish s1 .y _ .y s2 (by rw [h1, hsa]) (by rw [← hok, h1, hsa]; rfl) (by rw [h1, hsa]; simp only [hpoc])
      (by rw [h1, hsa]; exact hinc) hV ?_ ?_ (by rw [hst]; exact e)
    · intro fuel
      unfold next nextPcrl
      rw [if_neg (by rw [hpoc]; omega), if_neg (by rw [hpoc]; omega), if_neg (by rw [hpoc]; omega),
        if_pos (by rw [hpoc]; exact h), hok, hfirst, hst, hstart, h1]
      rfl
    · rw [hst, ← hidx, show s.idx = s1.idx by rw [h1, hsa]; rfl]; exact v
  · -- CPRL
    have h32 := ho.2.2.2 (Or.inr h)
    obtain ⟨s1, h1⟩ : ∃ s1, s1 = { s with first := false, compno := s.poc.compno0 } := ⟨_, rfl⟩
    have hc1 : s1.comps = cs.map (specComp t) := by rw [h1]; exact hcomps
    have hfc : ∀ cp, forComp s1 cp = { s1 with
        dx := (foldRes cp cp.res.length 0 cp.res (0, 0)).1
        dy := (foldRes cp cp.res.length 0 cp.res (0, 0)).2
        poc := { s1.poc with ty0 := s1.ty0, tx0 := s1.tx0, ty1 := s1.ty1, tx1 := s1.tx1 } } := by
      intro cp
      unfold forComp setArea
      rw [h1]
      simp only [htp]
      rfl
    have hm : ∀ cp, Matches t cs (forComp s1 cp) := by
      intro cp
      rw [hfc, h1]; exact ⟨hr.comps, hr.tx0, hr.tx1, hr.ty0, hr.ty1, hr.tx0, hr.tx1, hr.ty0, hr.ty1⟩
    have hz : ∀ (c : Nat) cp, s1.comps[c]? = some cp → c < s1.poc.compno1 → PosSized (forComp s1 cp) := by
      intro c cp hcp _
      rw [hc1] at hcp
      obtain ⟨⟨dx0, dx1, _⟩, ⟨dy0, dy1, _⟩⟩ := foldRes_spec hf hcp
      have z1 := hf.x1
      have z2 := hf.y1
      refine ⟨?_, ?_, ?_, ?_, by rw [(hm cp).ptx1]; exact z1, by rw [(hm cp).pty1]; exact z2, ?_, ?_⟩ <;>
        rw [hfc, h1] <;> simp only [hpoc, hlen] <;> omega
    have hV : visCprl (at? t cs) s1 = order t cs p.bounds p.prg := by
      unfold order
      rw [if_neg (by omega), if_neg (by omega), if_neg (by omega), if_neg (by omega), if_pos h]
      unfold visCprl cprl
      have hb : s1.poc = p := by rw [h1]; exact hpoc
      rw [hb]
      refine flatMap_congr' _ _ _ fun c hc => ?_
      rw [mem_upto] at hc
      obtain ⟨cp, hcp⟩ : ∃ cp, s1.comps[c]? = some cp :=
        ⟨_, List.getElem?_eq_getElem (by rw [hc1, List.length_map]; omega)⟩
      simp only [hcp]
      rw [hc1] at hcp
      obtain ⟨⟨_, _, dvx⟩, ⟨_, _, dvy⟩⟩ := foldRes_spec hf hcp
      rw [visC_eq hf (hm cp) c (by rw [hfc]; exact dvx) (by rw [hfc]; exact dvy), hfc]
      simp only [hb]
      rfl
    obtain ⟨s2, v, e⟩ := cprl_all (at? t cs) m s1 (by rw [h1]; exact htp)
      (by rw [hc1, List.length_map, h1]; simp only [hpoc]; omega) hz
      (fun c cp _ => answers32 m hf h32 (hm cp) hlt) (fun c cp _ => silent_at (hm cp).comps)
      (by rw [hV]; exact hin s1 (by rw [h1]; rfl) (by rw [h1])) s1 rfl (by rw [h1])
    have hst : stepOf m p.prg = stepCprl m := by
      unfold stepOf; rw [if_neg (by omega), if_neg (by omega), if_neg (by omega), if_neg (by omega)]
    refine finish s1 .comp _ .comp s2 (by rw [h1]) (by rw [← hok, h1]; rfl) (by rw [h1]; simp only [hpoc])
      (by rw [h1]; exact hinc) hV ?_ ?_ (by rw [hst]; exact e)
    · intro fuel
      unfold next nextCprl
      rw [if_neg (by rw [hpoc]; omega), if_neg (by rw [hpoc]; omega), if_neg (by rw [hpoc]; omega),
        if_neg (by rw [hpoc]; omega), if_pos (by rw [hpoc]; exact h), hok, hfirst, hst, h1]
      rfl
    · rw [hst, ← hidx, show s.idx = s1.idx by rw [h1]; rfl]; exact v

/-- One iterator of the decoder. -/
theorem drain_order (m : Mode) (hf : TileFit t cs) (hnc : cs.length < 2 ^ 32 - 1) {L mp mr : Nat} (hL : L < 2 ^ 32)
    (hlt : ∀ c r, numPrec t cs c r < 2 ^ 32)
    (g : Geo t cs L mp mr) (p : Poc) (hp : PocFit cs.length L p) (ho : OrderOk t cs p.prg) (inc : Nat → Bool) :
    ∃ F, ∀ fuel n, F ≤ fuel → F ≤ n → ∃ s', drain m fuel n { fresh t cs L mp mr p with inc := inc } =
        some ((sweep (pidx cs.length mp mr) inc (order t cs p.bounds p.prg)).1, s') ∧
      s'.inc = (sweep (pidx cs.length mp mr) inc (order t cs p.bounds p.prg)).2 := by
  have := hp.lay1
  exact drain_it m hf hnc hlt p ho inc _ ⟨rfl, rfl, rfl, rfl, rfl, rfl, rfl, rfl, rfl,
    fun q hq => inside_order hf g hp (s := fresh t cs L mp mr p) rfl rfl q hq, by omega, hp.prec0, hp.res1, hp.comp0,
    hp.comp1⟩ rfl

end Jp2.Pi

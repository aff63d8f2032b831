import Verif.Jp2.T2Body
/-!
# Whole packets
-/
namespace Jp2.T2
open Jp2.Bio Jp2.Tgt
open T1 (segsOf)

/-! ## The headers of the blocks of a band -/

theorem setIncl_eq {N lay : Nat} (cs : List EncCblk) : ∀ (k0 : Nat) (val : Nat → Int) (incl : Mem Node), lay ≤ 998 → k0 + cs.length ≤ N →
    St N lay val incl →
    (∀ j x, (cs.map stat)[j]? = some x → lay < x.1.length ∧ (passesIn (x.1.take lay) = 0 → val (k0 + j) = 999)) →
    (∀ c ∈ cs, c.numpasses = sent lay c) →
    ∃ incl' val', setIncl lay k0 cs incl = some incl' ∧ St N lay val' incl' ∧ mir incl' = mir incl ∧
      (∀ k, k < k0 → val' k = val k) ∧
      ∀ j x ly, (cs.map stat)[j]? = some x → x.1[lay]? = some ly → passesIn (x.1.take lay) = 0 →
        val' (k0 + j) = if ly.numpasses ≠ 0 then (lay : Int) else 999 := by
  induction cs with
  | nil =>
    intro k0 val incl _ _ h1 _ _
    exact ⟨incl, val, rfl, h1, rfl, fun _ _ => rfl, fun j x ly hx => by simp at hx⟩
  | cons c cs ih =>
    intro k0 val incl hlay hN h1 h2 h3
    rw [List.length_cons] at hN
    have hc := h2 0 (stat c) rfl
    have hlt : lay < c.layers.length := hc.1
    have hval0 : sent lay c = 0 → val k0 = 999 := hc.2
    have hly : c.layers[lay]? = some c.layers[lay] := List.getElem?_eq_getElem hlt
    generalize c.layers[lay] = ly at hly
    have hnp := h3 c (by simp)
    have hasI : asI32 lay = lay := by unfold asI32; rw [if_pos (by omega)]
    -- after the first block
    have hstep : ∃ t val1, (if c.numpasses = 0 ∧ ly.numpasses ≠ 0 then setvalue incl k0 (asI32 lay) else some incl) = some t ∧
        St N lay val1 t ∧ mir t = mir incl ∧ (∀ k, k ≠ k0 → val1 k = val k) ∧
        (sent lay c = 0 → val1 k0 = if ly.numpasses ≠ 0 then (lay : Int) else 999) := by
      by_cases hcond : c.numpasses = 0 ∧ ly.numpasses ≠ 0
      · obtain ⟨t, e1, e2, e3⟩ := set_step h1 (leaf := k0) (v := asI32 lay) (by omega) (by rw [hasI])
        refine ⟨t, _, by rw [if_pos hcond]; exact e1, e2, e3, fun k hk => by unfold setVal; rw [if_neg hk], fun h0 => ?_⟩
        unfold setVal
        rw [if_pos rfl, if_pos hcond.2, hasI, hval0 h0]; omega
      · refine ⟨incl, val, by rw [if_neg hcond], h1, rfl, fun _ _ => rfl, fun h0 => ?_⟩
        rw [hval0 h0, if_neg (fun hne => hcond ⟨by omega, hne⟩)]
    obtain ⟨t, val1, e1, e2, e3, e4, e5⟩ := hstep
    obtain ⟨incl', val', g1, g2, g3, g4, g5⟩ := ih (k0 + 1) val1 t hlay (by omega) e2 (fun j x hx => by
      have := h2 (j + 1) x (by simpa using hx)
      refine ⟨this.1, fun h0 => ?_⟩
      rw [e4 _ (by omega), ← this.2 h0]; congr 1; omega) (fun c' hc' => h3 c' (by simp [hc']))
    refine ⟨incl', val', ?_, g2, by rw [g3, e3], fun k hk => by rw [g4 k (by omega), e4 k (by omega)], ?_⟩
    · rw [setIncl, hly, Option.bind_some, e1, Option.bind_some]; exact g1
    · intro j x ly' hx hly' h0
      cases j with
      | zero =>
        simp only [List.map_cons, List.getElem?_cons_zero, Option.some.injEq] at hx
        subst hx
        have : ly' = ly := by
          have : some ly' = some ly := by rw [← hly, ← hly']; rfl
          exact Option.some.inj this
        subst this
        rw [Nat.add_zero, g4 k0 (by omega)]; exact e5 h0
      | succ j =>
        rw [show k0 + (j + 1) = k0 + 1 + j by omega]
        exact g5 j x ly' (by simpa using hx) hly' h0

theorem head_blocks {sty L lay N : Nat} {bps : Int} {val vi : Nat → Int} (h40 : sty &&& 0x40 = 0) (hlay : lay + 1 ≤ 999) (hL : lay < L)
    (hb : 0 ≤ bps ∧ bps < 999) {cs : List EncCblk} {ds : List DecCblk} (h : List.Forall₂ (RSync sty L lay bps) cs ds) :
    ∀ (k0 : Nat) (incl imsb : Mem Node), k0 + cs.length ≤ N → St N ((lay : Int) + 1) val incl → St N 999 vi imsb →
      (∀ j x ly, (cs.map stat)[j]? = some x → x.1[lay]? = some ly → passesIn (x.1.take lay) = 0 →
        val (k0 + j) = if ly.numpasses ≠ 0 then (lay : Int) else 999) →
      (∀ j x, (cs.map stat)[j]? = some x → vi (k0 + j) = bps - asI32 x.2.1) →
      ∃ bits cs' ds' incl' imsb', St N ((lay : Int) + 1) val incl' ∧ St N 999 vi imsb' ∧
        List.Forall₂ (RMid sty L lay bps) cs' ds' ∧ cs'.map stat = cs.map stat ∧
        (∀ s, encBlocks lay k0 ⟨s, incl, imsb⟩ cs = (putBits s bits).map fun s => (⟨s, incl', imsb'⟩, cs')) ∧
        ∀ s, DecSafe s → Starts s bits → ∃ s', decBlocks sty lay bps k0 ⟨s, mir incl, mir imsb⟩ ds =
          .ok (⟨s', mir incl', mir imsb'⟩, ds') ∧ Adv s s' bits.length := by
  induction h with
  | nil =>
    intro k0 incl imsb _ h1 h2 _ _
    exact ⟨[], [], [], incl, imsb, h1, h2, .nil, rfl, fun s => rfl, fun s hs _ => ⟨s, rfl, Adv.refl s hs⟩⟩
  | @cons c d cs ds hcd _ ih =>
    intro k0 incl imsb hN h1 h2 hv hvi
    rw [List.length_cons] at hN
    obtain ⟨hsync, hcL, hcb⟩ := hcd
    have hly : c.layers[lay]? = some c.layers[lay] := List.getElem?_eq_getElem (by omega)
    generalize c.layers[lay] = ly at hly
    have hle : sent lay c + ly.numpasses ≤ c.passes.length := by
      rw [← sent_succ hly]; exact sent_le hsync.ok
    obtain ⟨b1, nlb, d', incl1, imsb1, a1, a2, a3, a4, a5⟩ := block_head h40 hsync hly hle hlay (k := k0) (by omega) h1 h2
      (fun h0 => by have := hv 0 (stat c) ly rfl hly h0; simpa using this)
      (by have := hvi 0 (stat c) rfl; simpa [stat] using this) hb hcb
    obtain ⟨b2, cs', ds', incl', imsb', g1, g2, g3, g4, g5, g6⟩ := ih (k0 + 1) incl1 imsb1 (by omega) a1 a2
      (fun j x ly hx hly h0 => by rw [show k0 + 1 + j = k0 + (j + 1) by omega]; exact hv (j + 1) x ly (by simpa using hx) hly h0)
      (fun j x hx => by rw [show k0 + 1 + j = k0 + (j + 1) by omega]; exact hvi (j + 1) x (by simpa using hx))
    refine ⟨b1 ++ b2, { c with numlenbits := nlb } :: cs', d' :: ds', incl', imsb', g1, g2, .cons ⟨⟨ly, hly, a3⟩, hcL, hcb⟩ g3, by simp [g4, stat],
      fun s => ?_, fun s hs hst => ?_⟩
    · rw [encBlocks, a4, putBits_append]
      cases putBits s b1 with
      | none => rfl
      | some s1 =>
        simp only [Option.map_some, Option.bind_some]
        rw [g5, Option.map_map]
        rfl
    · obtain ⟨s1, e1, e2⟩ := a5 s hs hst.left
      obtain ⟨s2, f1, f2⟩ := g6 s1 e2.1 (Adv.starts hst e2)
      refine ⟨s2, ?_, by rw [List.length_append]; exact e2.trans f2⟩
      rw [decBlocks, e1, ok_bind]
      dsimp only
      rw [f1]
      rfl

/-! ## Bands -/

/-- Encoder and decoder agree on a precinct of which `lay` layers have been sent. -/
structure PSync (sty L lay : Nat) (bps : Int) (p : EncPrec) (q : DecPrec) : Prop where
  blocks : List.Forall₂ (RSync sty L lay bps) p.cblks q.cblks
  trees : p.cblks ≠ [] → q.incl = mir p.incl ∧ q.imsb = mir p.imsb ∧ ∃ val vi, St p.cblks.length lay val p.incl ∧
    St p.cblks.length 999 vi p.imsb ∧
    ∀ j x, (p.cblks.map stat)[j]? = some x → (passesIn (x.1.take lay) = 0 → val j = 999) ∧ vi j = bps - asI32 x.2.1

/-- … in the middle of the packet of layer `lay`. -/
structure PMid (sty L lay : Nat) (bps : Int) (p : EncPrec) (q : DecPrec) : Prop where
  blocks : List.Forall₂ (RMid sty L lay bps) p.cblks q.cblks
  trees : p.cblks ≠ [] → q.incl = mir p.incl ∧ q.imsb = mir p.imsb ∧ ∃ val vi, St p.cblks.length ((lay : Int) + 1) val p.incl ∧
    St p.cblks.length 999 vi p.imsb ∧
    ∀ j x, (p.cblks.map stat)[j]? = some x → (passesIn (x.1.take (lay + 1)) = 0 → val j = 999) ∧ vi j = bps - asI32 x.2.1

structure BSync (sty L lay : Nat) (b : EncBand) (d : DecBand) : Prop where
  bps : d.numbps = b.numbps
  empty : d.empty = b.empty
  prec : b.empty = false → (0 ≤ b.numbps ∧ b.numbps < 999) ∧ PSync sty L lay b.numbps b.prec d.prec

structure BMid (sty L lay : Nat) (b : EncBand) (d : DecBand) : Prop where
  bps : d.numbps = b.numbps
  empty : d.empty = b.empty
  prec : b.empty = false → (0 ≤ b.numbps ∧ b.numbps < 999) ∧ PMid sty L lay b.numbps b.prec d.prec

theorem st_up {n : Nat} {M M' : Int} {val : Nat → Int} {t : Mem Node} (h : St n M val t) (hM : M ≤ M') : St n M' val t :=
  h.same hM (h.inv.mono hM) (SameV.refl t)

theorem forall₂_left {α β : Type} {R : α → β → Prop} {P : α → Prop} {l : List α} {m : List β} (h : List.Forall₂ R l m)
    (hP : ∀ a b, R a b → P a) : ∀ a ∈ l, P a := by
  induction h with
  | nil => simp
  | cons hab _ ih =>
    intro a ha
    rcases List.mem_cons.mp ha with rfl | ha
    · exact hP _ _ hab
    · exact ih a ha

theorem head_prec {sty L lay : Nat} {bps : Int} (h40 : sty &&& 0x40 = 0) (hlay : lay + 1 ≤ 999) (hL : lay < L)
    (hb : 0 ≤ bps ∧ bps < 999) {p : EncPrec} {q : DecPrec} (h : PSync sty L lay bps p q) :
    ∃ bits p' incl' imsb' ds', PMid sty L lay bps p' { q with incl := incl', imsb := imsb', cblks := ds' } ∧
      p'.cblks.map stat = p.cblks.map stat ∧
      (∀ s, encPrec lay s p = (putBits s bits).map fun s => (s, p')) ∧
      ∀ s, DecSafe s → Starts s bits → ∃ s', decBlocks sty lay bps 0 ⟨s, q.incl, q.imsb⟩ q.cblks =
        .ok (⟨s', incl', imsb'⟩, ds') ∧ Adv s s' bits.length := by
  have hblocks := h.blocks
  by_cases hne : p.cblks = []
  · rw [hne] at hblocks
    have hq : q.cblks = [] := by cases hh : q.cblks with
      | nil => rfl
      | cons _ _ => rw [hh] at hblocks; cases hblocks
    refine ⟨[], p, q.incl, q.imsb, [], ⟨by rw [hne]; exact .nil, fun h => absurd hne h⟩, rfl, fun s => ?_, fun s hs _ => ⟨s, by rw [hq]; rfl, Adv.refl s hs⟩⟩
    obtain ⟨nodes, incl, imsb, cblks⟩ := p
    simp only at hne
    subst hne
    rfl
  · obtain ⟨t1, t2, val, vi, t3, t4, t5⟩ := h.trees hne
    have hlen : ∀ x ∈ p.cblks, x.layers.length = L := forall₂_left hblocks (fun a b hab => hab.2.1)
    have hnp : ∀ c ∈ p.cblks, c.numpasses = sent lay c := forall₂_left hblocks (fun a b hab => hab.1.np)
    have hx1 : ∀ (j : Nat) x, (p.cblks.map stat)[j]? = some x → x.1.length = L := by
      intro j x hx
      obtain ⟨c, hc, rfl⟩ := List.mem_map.mp (List.mem_of_getElem? hx)
      exact hlen c hc
    obtain ⟨incl1, val', s1, s2, s3, _, s5⟩ := setIncl_eq p.cblks 0 val p.incl (by omega) (by omega) t3
      (fun j x hx => ⟨by rw [hx1 j x hx]; exact hL, fun h0 => by rw [Nat.zero_add]; exact (t5 j x hx).1 h0⟩) hnp
    obtain ⟨bits, cs', ds', incl', imsb', g1, g2, g3, g4, g5, g6⟩ := head_blocks h40 hlay hL hb hblocks 0 incl1 p.imsb (by omega)
      (st_up s2 (by omega)) t4 s5 (fun j x hx => by rw [Nat.zero_add]; exact (t5 j x hx).2)
    have hcl : cs'.length = p.cblks.length := by simpa using congrArg List.length g4
    refine ⟨bits, { p with incl := incl', imsb := imsb', cblks := cs' }, mir incl', mir imsb', ds', ⟨g3, fun _ => ⟨rfl, rfl, val', vi, by
      show St cs'.length _ _ _; rw [hcl]; exact g1, by show St cs'.length _ _ _; rw [hcl]; exact g2, ?_⟩⟩, g4, fun s => ?_, fun s hs hst => ?_⟩
    · intro j x hx
      have hx : (cs'.map stat)[j]? = some x := hx
      rw [g4] at hx
      refine ⟨fun h0 => ?_, (t5 j x hx).2⟩
      have hlx := hx1 j x hx
      have hly : x.1[lay]? = some x.1[lay] := List.getElem?_eq_getElem (by omega)
      generalize x.1[lay] = ly at hly
      unfold passesIn at h0
      rw [List.take_add_one, hly] at h0
      simp only [Option.toList_some, List.map_append, List.sum_append, List.map_cons, List.map_nil, List.sum_cons, List.sum_nil] at h0
      have := s5 j x ly hx hly (by unfold passesIn; omega)
      rw [Nat.zero_add, if_neg (by omega)] at this
      exact this
    · unfold encPrec
      rw [s1, Option.bind_some, g5, Option.map_map]
      rfl
    · obtain ⟨s', e1, e2⟩ := g6 s hs hst
      refine ⟨s', ?_, e2⟩
      rw [t1, t2, ← s3]; exact e1

theorem head_bands {sty L lay : Nat} (h40 : sty &&& 0x40 = 0) (hlay : lay + 1 ≤ 999) (hL : lay < L) {bs : List EncBand} {ds : List DecBand}
    (h : List.Forall₂ (BSync sty L lay) bs ds) :
    ∃ bits bs' ds', List.Forall₂ (BMid sty L lay) bs' ds' ∧ bs'.map bstat = bs.map bstat ∧
      (∀ s, encBands lay s bs = (putBits s bits).map fun s => (s, bs')) ∧
      ∀ s, DecSafe s → Starts s bits → ∃ s', decBands sty lay s ds = .ok (s', ds') ∧ Adv s s' bits.length := by
  induction h with
  | nil => exact ⟨[], [], [], .nil, rfl, fun s => rfl, fun s hs _ => ⟨s, rfl, Adv.refl s hs⟩⟩
  | @cons b d bs ds hbd _ ih =>
    obtain ⟨bits, bs', ds', h1, h0, h2, h3⟩ := ih
    cases he : b.empty with
    | true =>
      refine ⟨bits, b :: bs', d :: ds', .cons ⟨hbd.bps, hbd.empty, fun h => by rw [he] at h; cases h⟩ h1, by simp [h0], fun s => ?_, fun s hs hst => ?_⟩
      · rw [encBands, if_pos he, Option.bind_some]
        dsimp only
        rw [h2, Option.map_map]; rfl
      · obtain ⟨s', e1, e2⟩ := h3 s hs hst
        refine ⟨s', ?_, e2⟩
        rw [decBands, if_pos (by rw [hbd.empty]; exact he), e1]; rfl
    | false =>
      obtain ⟨hb, hp⟩ := hbd.prec he
      obtain ⟨b1, p', incl', imsb', cs', g1, g0, g2, g3⟩ := head_prec h40 hlay hL hb hp
      refine ⟨b1 ++ bits, { b with prec := p' } :: bs', { d with prec := { d.prec with incl := incl', imsb := imsb', cblks := cs' } } :: ds',
        .cons ⟨hbd.bps, hbd.empty, fun _ => ⟨hb, g1⟩⟩ h1, by simp [h0, bstat, g0], fun s => ?_, fun s hs hst => ?_⟩
      · rw [encBands, if_neg (by simp [he]), g2, putBits_append]
        cases putBits s b1 with
        | none => rfl
        | some s1 =>
          simp only [Option.map_some, Option.bind_some]
          rw [h2, Option.map_map]; rfl
      · obtain ⟨s1, e1, e2⟩ := g3 s hs hst.left
        obtain ⟨s2, f1, f2⟩ := h3 s1 e2.1 (Adv.starts hst e2)
        refine ⟨s2, ?_, by rw [List.length_append]; exact e2.trans f2⟩
        rw [decBands, if_neg (by rw [hbd.empty]; simp [he]), hbd.bps, e1, ok_bind]
        dsimp only
        rw [f1]; rfl

theorem body_bands {sty L lay : Nat} (strict : Bool) {bs : List EncBand} {ds : List DecBand} (h : List.Forall₂ (BMid sty L lay) bs ds) :
    ∃ B bs' ds', List.Forall₂ (BSync sty L (lay + 1)) bs' ds' ∧ bs'.map bstat = bs.map bstat ∧
      (∀ room, bodyBands lay room bs = if B.length ≤ room then .ok (B, room - B.length, bs') else .error .refused) ∧
      ∀ tail, dataBands strict ⟨B ++ tail, false⟩ ds = .ok (⟨tail, false⟩, ds') := by
  induction h with
  | nil => exact ⟨[], [], [], .nil, rfl, fun room => by rw [if_pos (by simp)]; rfl, fun tail => rfl⟩
  | @cons b d bs ds hbd _ ih =>
    obtain ⟨B, bs', ds', h1, h0, h3, h4⟩ := ih
    cases he : b.empty with
    | true =>
      refine ⟨B, b :: bs', d :: ds', .cons ⟨hbd.bps, hbd.empty, fun h => by rw [he] at h; cases h⟩ h1, by simp [h0], fun room => ?_, fun tail => ?_⟩
      · rw [bodyBands, if_pos he, h3]
        split <;> rfl
      · rw [dataBands, if_pos (by rw [hbd.empty]; exact he), h4]; rfl
    | false =>
      obtain ⟨hb, hp⟩ := hbd.prec he
      obtain ⟨B1, cs', es', g1, g2, g3, g4⟩ := body_blocks strict hp.blocks
      refine ⟨B1 ++ B, { b with prec := { b.prec with cblks := cs' } } :: bs', { d with prec := { d.prec with cblks := es' } } :: ds',
        .cons ⟨hbd.bps, hbd.empty, fun _ => ⟨hb, ⟨g1, fun hne => ?_⟩⟩⟩ h1, by simp [h0, bstat, g2], fun room => ?_, fun tail => ?_⟩
      · have hcl : cs'.length = b.prec.cblks.length := by simpa using congrArg List.length g2
        obtain ⟨t1, t2, val, vi, t3, t4, t5⟩ := hp.trees (by
          intro e
          have hne : cs' ≠ [] := hne
          rw [e] at hcl
          exact hne (List.length_eq_zero_iff.mp hcl))
        refine ⟨t1, t2, val, vi, ?_, ?_, ?_⟩
        · show St cs'.length _ _ _; rw [hcl]; push_cast; exact t3
        · show St cs'.length _ _ _; rw [hcl]; exact t4
        · intro j x hx
          have hx : (cs'.map stat)[j]? = some x := hx
          rw [g2] at hx
          exact t5 j x hx
      · rw [bodyBands, if_neg (by simp [he]), g3, List.length_append]
        by_cases hr : B1.length ≤ room
        · rw [if_pos hr, ok_bind]
          dsimp only
          rw [h3]
          by_cases hr2 : B.length ≤ room - B1.length
          · rw [if_pos hr2, if_pos (by omega)]
            show Except.ok _ = _
            rw [Nat.sub_sub]
          · rw [if_neg hr2, if_neg (by omega)]; rfl
        · rw [if_neg hr, if_neg (by omega)]; rfl
      · rw [dataBands, if_neg (by rw [hbd.empty]; simp [he]), List.append_assoc, g4, ok_bind]
        dsimp only
        rw [h4]; rfl

end Jp2.T2

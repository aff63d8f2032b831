import Verif.Jp2.T2Packet
/-!
# The packets of a precinct, one after the other
-/
namespace Jp2.T2
open Jp2.Bio Jp2.Tgt
open T1 (segsOf)

/-! ## The bytes of a header -/

theorem sim_init (small big : List UInt8) (h : small.length ≤ big.length) : Sim (initEnc small) (initEnc big) :=
  ⟨rfl, rfl, h, by simp [initEnc], by simp [initEnc], by simp [initEnc]⟩

/-- The bytes that flushing `bits` gives do not depend on the buffer; a buffer too short for them is noticed. -/
theorem header_bytes (bits : List Bool) (hne : bits ≠ []) :
    ∃ H : List UInt8, (∀ dest, ∃ s s' ok, putBits (initEnc dest) bits = some s ∧ flush s = some (s', ok) ∧
        (ok = true ↔ H.length ≤ dest.length) ∧ (ok = true → s'.mem.take (numbytes s') = H ∧ numbytes s' = H.length)) ∧
      ∀ tail, Starts (initDec (H ++ tail)) bits ∧ ∀ bs t, getBits (initDec (H ++ tail)) bits.length = some (bs, t) →
        ∃ t', inalign t = some (t', true) ∧ numbytes t' = H.length := by
  obtain ⟨N, hN⟩ : ∃ N, N = bits.length + 14 := ⟨_, rfl⟩
  obtain ⟨s0, s0', a1, a2, a3⟩ := C24_enough_room (List.replicate N 0) bits (by rw [List.length_replicate]; omega)
  have hlen0 : (s0'.mem.take (numbytes s0')).length = numbytes s0' := by
    obtain ⟨s1, h1, h2, h3, h4, h5⟩ := putBits_spec (initEnc (List.replicate N 0)) [] bits (encSafe_init _) (fun _ => encInv_init _)
    rw [a1] at h1
    simp only [Option.some.injEq] at h1
    subst h1
    obtain ⟨s1, ok, g1, g2, g3, gs, g4⟩ := flush_spec s0 bits h2 (fun hl => by have := (h5 hl).1; simpa using this)
    rw [a2] at g1
    simp only [Option.some.injEq, Prod.mk.injEq] at g1
    obtain ⟨rfl, rfl⟩ := g1
    rw [List.length_take]; unfold numbytes; omega
  refine ⟨s0'.mem.take (numbytes s0'), fun dest => ?_, fun tail => ⟨flush_starts _ bits s0 s0' a1 a2 tail, fun bs t ht => ?_⟩⟩
  · rw [hlen0]
    obtain ⟨t, t', b1, b2, b3⟩ := C24_enough_room (List.replicate (N + dest.length) 0) bits (by rw [List.length_replicate]; omega)
    obtain ⟨x, x1, x2, x3⟩ := sim_putBits bits _ _ (sim_init (List.replicate N 0) (List.replicate (N + dest.length) 0) (by simp)) t b1
    rw [a1] at x1
    simp only [Option.some.injEq] at x1
    subst x1
    obtain ⟨y, ok, y1, y2, y3⟩ := sim_flush s0 t x2 t' b2
    rw [a2] at y1
    simp only [Option.some.injEq, Prod.mk.injEq] at y1
    obtain ⟨rfl, rfl⟩ := y1
    obtain ⟨y4, y5⟩ := y3 rfl
    obtain ⟨s, c1, c2, c3⟩ := sim_putBits bits _ _ (sim_init dest (List.replicate (N + dest.length) 0) (by simp)) t b1
    obtain ⟨s', ok, d1, d2, d3⟩ := sim_flush s t c2 t' b2
    have c3 : s.mem.length = dest.length := c3
    refine ⟨s, s', ok, c1, d1, by rw [d2, c3]; unfold numbytes; rw [y4], fun ho => ?_⟩
    obtain ⟨e1, e2⟩ := d3 ho
    unfold numbytes
    exact ⟨by rw [e2, y5], by rw [e1, y4]⟩
  · rw [hlen0]
    exact flush_align _ bits s0 s0' hne a1 a2 tail bs t ht

/-! ## One packet -/

theorem getElem?_append_len {α : Type} (a b : List α) (i : Nat) : (a ++ b)[a.length + i]? = b[i]? := by
  rw [List.getElem?_append_right (by omega)]; congr 1; omega

theorem packet_eq {csty sty L lay packno : Nat} (strict : Bool) (h40 : sty &&& 0x40 = 0) (hlay : lay + 1 ≤ 999) (hL : lay < L)
    {bs0 bs : List EncBand} {ds0 ds : List DecBand}
    (hb : (if lay = 0 then onBands startPrec bs0 else some bs0) = some bs)
    (hd : (if lay = 0 then startDecBands ds0 else some ds0) = some ds)
    (h : List.Forall₂ (BSync sty L lay) bs ds) :
    ∃ out bs' ds', List.Forall₂ (BSync sty L (lay + 1)) bs' ds' ∧ bs'.map bstat = bs.map bstat ∧
      (∀ dest, encodePacket csty packno lay bs0 dest = if out.length ≤ dest.length then .ok (out, bs') else .error .refused) ∧
      ∀ tail, decodePacket csty sty lay strict none ds0 (out ++ tail) = .ok (out.length, none, ds') := by
  obtain ⟨bits, bs1, ds1, a1, a0, a2, a3⟩ := head_bands h40 hlay hL h
  obtain ⟨B, bs', ds', b1, b0, b2, b3⟩ := body_bands strict a1
  obtain ⟨H, c1, c2⟩ := header_bytes ([true] ++ bits) (by simp)
  obtain ⟨o1, ho1⟩ : ∃ o1 : List UInt8, o1 = if csty &&& 2 ≠ 0 then sop packno else [] := ⟨_, rfl⟩
  obtain ⟨o2, ho2⟩ : ∃ o2 : List UInt8, o2 = if csty &&& 4 ≠ 0 then [0xFF, 0x92] else [] := ⟨_, rfl⟩
  have l1 : o1.length = if csty &&& 2 ≠ 0 then 6 else 0 := by rw [ho1]; split <;> rfl
  have l2 : o2.length = if csty &&& 4 ≠ 0 then 2 else 0 := by rw [ho2]; split <;> rfl
  have hlen : (o1 ++ H ++ o2 ++ B).length = o1.length + H.length + o2.length + B.length := by simp only [List.length_append]
  refine ⟨o1 ++ H ++ o2 ++ B, bs', ds', b1, by rw [b0, a0], fun dest => ?_, fun tail => ?_⟩
  · rw [hlen]
    unfold encodePacket
    rw [hb, ← ho1, ← ho2]
    by_cases hs : csty &&& 2 ≠ 0 ∧ dest.length < 6
    · rw [if_pos hs, if_neg (c := o1.length + H.length + o2.length + B.length ≤ dest.length) (by rw [l1, if_pos hs.1]; omega)]
      rfl
    · have h1 : o1.length ≤ dest.length := by
        rw [l1]; split
        · rename_i hc
          by_contra hh
          exact hs ⟨hc, by omega⟩
        · omega
      rw [if_neg hs, ofOpt_some, ok_bind]
      dsimp only
      obtain ⟨s, s', ok, d1, d2, d3, d4⟩ := c1 (dest.drop o1.length)
      rw [putBits_append, ← putbit_eq] at d1
      rw [List.length_drop] at d3
      cases hp : putbit (initEnc (dest.drop o1.length)) (true.toNat) with
      | none => rw [hp] at d1; simp at d1
      | some s1 =>
        rw [hp, Option.bind_some] at d1
        have hp : putbit (initEnc (dest.drop o1.length)) 1 = some s1 := hp
        rw [hp]
        simp only [ofOpt_some, ok_bind]
        rw [a2, d1]
        simp only [Option.map_some, ofOpt_some, ok_bind]
        rw [d2]
        simp only [ofOpt_some, ok_bind]
        cases ok with
        | false =>
          have : ¬ H.length ≤ dest.length - o1.length := fun hh => by have := d3.mpr hh; cases this
          rw [if_pos rfl, if_neg (c := o1.length + H.length + o2.length + B.length ≤ dest.length) (by omega)]
          rfl
        | true =>
          have hH := d3.mp rfl
          obtain ⟨e1, e2⟩ := d4 rfl
          rw [if_neg (by simp), e1, e2]
          by_cases he : csty &&& 4 ≠ 0 ∧ dest.length - o1.length - H.length < 2
          · rw [if_pos he, if_neg (c := o1.length + H.length + o2.length + B.length ≤ dest.length) (by rw [l2, if_pos he.1]; omega)]
            rfl
          · have h2 : o2.length ≤ dest.length - o1.length - H.length := by
              rw [l2]; split
              · rename_i hc
                by_contra hh
                exact he ⟨hc, by omega⟩
              · omega
            rw [if_neg he, b2]
            by_cases hB : B.length ≤ dest.length - o1.length - H.length - o2.length
            · rw [if_pos hB, if_pos (by omega)]; rfl
            · rw [if_neg hB, if_neg (by omega)]; rfl
  · rw [hlen]
    have hsrc : o1 ++ H ++ o2 ++ B ++ tail = o1 ++ (H ++ (o2 ++ (B ++ tail))) := by simp only [List.append_assoc]
    rw [hsrc]
    -- the markers
    have hsop : sopLen csty (o1 ++ (H ++ (o2 ++ (B ++ tail)))) = o1.length := by
      unfold sopLen
      by_cases hc : csty &&& 2 ≠ 0
      · rw [l1, if_pos hc, if_pos]
        refine ⟨hc, ?_, ?_⟩
        · rw [List.length_append, l1, if_pos hc]; omega
        · rw [ho1, if_pos hc]; rfl
      · rw [l1, if_neg hc, if_neg (fun hh => hc hh.1)]
    have heph : ephLen csty (H ++ (o2 ++ (B ++ tail))) H.length = o2.length := by
      unfold ephLen
      by_cases hc : csty &&& 4 ≠ 0
      · rw [l2, if_pos hc, if_pos]
        refine ⟨hc, ?_, ?_⟩
        · rw [List.length_append, List.length_append, l2, if_pos hc]; omega
        · unfold hasMarker
          have e0 := getElem?_append_len H (o2 ++ (B ++ tail)) 0
          have e1 := getElem?_append_len H (o2 ++ (B ++ tail)) 1
          rw [Nat.add_zero] at e0
          rw [e0, e1, ho2, if_pos hc]
          rfl
      · rw [l2, if_neg hc, if_neg (fun hh => hc hh.1)]
    obtain ⟨hst, hal⟩ := c2 (o2 ++ (B ++ tail))
    obtain ⟨s1, r1, r2, r3, r4⟩ := read_starts _ (decSafe_init _) 1 [true] rfl (by omega) (by omega) hst.left
    have hadv1 : Adv (initDec (H ++ (o2 ++ (B ++ tail)))) s1 ([true] : List Bool).length := ⟨r2, r3, r4⟩
    obtain ⟨s2, f1, f2⟩ := a3 s1 r2 (Adv.starts hst hadv1)
    obtain ⟨bsx, hbx⟩ := (hadv1.trans f2).2.2.bits
    rw [← List.length_append] at hbx
    obtain ⟨t', g1, g2⟩ := hal bsx s2 hbx
    unfold decodePacket readHeader
    rw [hd, hsop]
    simp only [ofOpt_some, ok_bind, Option.getD_none, List.drop_left]
    rw [r1]
    simp only [ofOpt_some, ok_bind]
    rw [if_neg (by decide), f1]
    simp only [ok_bind]
    rw [g1]
    simp only [ofOpt_some, ok_bind]
    rw [if_neg (by simp)]
    show (Except.ok _ >>= _) = _
    rw [ok_bind]
    unfold endHeader
    dsimp only
    rw [g2, heph, if_pos rfl]
    unfold readData
    have hdrop : (o1 ++ (H ++ (o2 ++ (B ++ tail)))).drop (o1.length + (H.length + o2.length)) = B ++ tail := by
      rw [← List.append_assoc, ← List.append_assoc]
      have : o1.length + (H.length + o2.length) = (o1 ++ H ++ o2).length := by simp only [List.length_append]; omega
      rw [this, List.drop_left]
    rw [hdrop, b3, ok_bind]
    dsimp only
    show Except.ok _ = _
    rw [if_neg (by simp), List.length_append]
    congr 2
    omega

/-! ## The first packet resets everything -/

theorem reset_tree {m : Mode} {w h nodes : Nat} {t : Mem Node} (hp : w * h ≤ 2 ^ 30) (hT : TreeOk m w h nodes t) :
    (w * h = 0 → reset nodes t = some t) ∧
    (w * h ≠ 0 → ∃ t0, create m w h = some (some (nodes, t0)) ∧ reset nodes t = some t0 ∧ St (w * h) 0 (fun _ => 999) t0 ∧ mir t0 = t0) := by
  unfold TreeOk at hT
  refine ⟨fun h0 => ?_, fun h0 => ?_⟩
  · rw [if_pos h0] at hT; subst hT; rfl
  · rw [if_neg h0] at hT
    obtain ⟨t0, h1, h2⟩ := hT
    have hw : 0 < w := by rcases Nat.eq_zero_or_pos w with rfl | e; simp at h0; exact e
    have hh : 0 < h := by rcases Nat.eq_zero_or_pos h with rfl | e; simp at h0; exact e
    obtain ⟨L, n', t', g1, hs, hf⟩ := create_eq m w h hw hh hp
    obtain ⟨k1, k2⟩ := st_create m w h nodes t0 hw hh hp h1
    rw [h1] at g1
    simp only [Option.some.injEq, Prod.mk.injEq] at g1
    obtain ⟨rfl, rfl⟩ := g1
    have hsome : ∀ i, i < nodes → (t i).isSome := fun i hi => by
      obtain ⟨x, hx⟩ := Option.isSome_iff_exists.mp ((hs.dom i).mpr hi)
      have := h2 i
      rw [hx] at this
      cases ht : t i with
      | none => rw [ht] at this; simp at this
      | some _ => rfl
    obtain ⟨t1, r1, r2⟩ := reset_eq nodes t hsome
    refine ⟨t0, h1, ?_, k1, (funext k2).symm⟩
    rw [r1]
    congr 1
    funext i
    rw [r2]
    have hpar := h2 i
    by_cases hi : i < nodes
    · rw [if_pos hi]
      obtain ⟨x, hx⟩ := Option.isSome_iff_exists.mp ((hs.dom i).mpr hi)
      obtain ⟨y, hy⟩ := Option.isSome_iff_exists.mp (hsome i hi)
      rw [hx, hy] at hpar ⊢
      simp only [Option.map_some, Option.some.injEq] at hpar ⊢
      obtain ⟨f1, f2, f3⟩ := hf i x hx
      cases x; cases y
      simp only at *
      subst hpar f1 f2 f3
      rfl
    · rw [if_neg hi]
      have : t0 i = none := by
        cases hx : t0 i with
        | none => rfl
        | some _ => exact absurd ((hs.dom i).mp (by rw [hx]; rfl)) hi
      rw [this] at hpar ⊢
      cases ht : t i with
      | none => rfl
      | some _ => rw [ht] at hpar; simp at hpar

theorem setImsb_eq {N : Nat} {bps : Int} (hb : 0 ≤ bps ∧ bps < 999) (cs : List EncCblk) : ∀ (k0 : Nat) (val : Nat → Int) (t : Mem Node),
    k0 + cs.length ≤ N → St N 0 val t → (∀ k, k0 ≤ k → val k = 999) → (∀ c ∈ cs, Fits bps c.numbps) →
    ∃ t' val', setImsb bps k0 cs t = some t' ∧ St N 0 val' t' ∧ mir t' = mir t ∧ (∀ k, k < k0 → val' k = val k) ∧
      ∀ j x, (cs.map stat)[j]? = some x → val' (k0 + j) = bps - asI32 x.2.1 := by
  induction cs with
  | nil =>
    intro k0 val t _ h1 _ _
    exact ⟨t, val, rfl, h1, rfl, fun _ _ => rfl, fun j x hx => by simp at hx⟩
  | cons c cs ih =>
    intro k0 val t hN h1 h2 h3
    rw [List.length_cons] at hN
    have hc := h3 c (by simp)
    obtain ⟨f1, f2, f3⟩ := hc
    obtain ⟨t1, e1, e2, e3⟩ := set_step h1 (leaf := k0) (v := bps - asI32 c.numbps) (by omega) (by omega)
    obtain ⟨t', val', g1, g2, g3, g4, g5⟩ := ih (k0 + 1) _ t1 (by omega) e2
      (fun k hk => by unfold setVal; rw [if_neg (by omega)]; exact h2 k (by omega)) (fun x hx => h3 x (by simp [hx]))
    refine ⟨t', val', ?_, g2, by rw [g3, e3], fun k hk => ?_, fun j x hx => ?_⟩
    · rw [setImsb]
      unfold chk
      rw [if_pos (by omega), Option.bind_some, e1, Option.bind_some]; exact g1
    · rw [g4 k (by omega)]; unfold setVal; rw [if_neg (by omega)]
    · cases j with
      | zero =>
        simp only [List.map_cons, List.getElem?_cons_zero, Option.some.injEq] at hx
        subst hx
        rw [Nat.add_zero, g4 k0 (by omega)]
        unfold setVal
        rw [if_pos rfl, h2 k0 (by omega)]
        show min 999 (bps - asI32 c.numbps) = bps - asI32 c.numbps
        omega
      | succ j =>
        rw [show k0 + (j + 1) = k0 + 1 + j by omega]
        exact g5 j x (by simpa using hx)

theorem sync_start {sty : Nat} {c : EncCblk} {d : DecCblk} (hc : BlockOk sty c) (hd : d.numbps = 0 ∧ d.chunks = []) :
    Sync sty 0 { c with numpasses := 0 } { d with numsegs := 0, realNumSegs := 0 } := by
  refine ⟨⟨hc.few, hc.enough, hc.term, hc.cap, hc.many, hc.bytes, hc.small, hc.place⟩, rfl, Nat.zero_le _, fun _ => ⟨rfl, hd⟩, rfl, ?_, ?_, fun h => absurd rfl h⟩
  · simp [segsOf]
  · show d.chunks.flatten = _
    rw [hd.2]; simp [size]

theorem sync_all {sty L : Nat} {bps : Int} : ∀ (cs : List EncCblk) (ds : List DecCblk), cs.length = ds.length →
    (∀ c ∈ cs, BlockOk sty c ∧ c.layers.length = L ∧ Fits bps c.numbps) → (∀ d ∈ ds, d.numbps = 0 ∧ d.chunks = []) →
    List.Forall₂ (RSync sty L 0 bps) (cs.map fun c => { c with numpasses := 0 }) (ds.map fun d => { d with numsegs := 0, realNumSegs := 0 }) := by
  intro cs
  induction cs with
  | nil =>
    intro ds h _ _
    cases ds with
    | nil => exact .nil
    | cons _ _ => simp at h
  | cons c cs ih =>
    intro ds h h1 h2
    cases ds with
    | nil => simp at h
    | cons d ds =>
      obtain ⟨a1, a2, a3⟩ := h1 c (by simp)
      refine .cons ⟨?_, a2, a3⟩ (ih ds (by simpa using h) (fun x hx => h1 x (by simp [hx])) (fun x hx => h2 x (by simp [hx])))
      exact sync_start a1 (h2 d (by simp))

theorem start_prec {m : Mode} {sty L w h : Nat} {b : EncBand} {d : DecBand} (hp : w * h ≤ 2 ^ 30) (hb : BandOk m sty L w h b)
    (hd : Twin m w h b d) :
    ∃ p q, startPrec b.numbps b.prec = some p ∧ startDec d.prec = some q ∧ PSync sty L 0 b.numbps p q ∧ p.cblks.map stat = b.prec.cblks.map stat := by
  obtain ⟨h1, h2⟩ := hb.trees
  obtain ⟨h3, h4⟩ := hd.trees
  have hs := sync_all (bps := b.numbps) b.prec.cblks d.prec.cblks (by rw [hb.count, hd.count]) hb.cblks hd.fresh
  unfold startPrec startDec
  by_cases h0 : w * h = 0
  · have hnil : b.prec.cblks = [] := List.length_eq_zero_iff.mp (by rw [hb.count]; exact h0)
    rw [(reset_tree hp h1).1 h0, (reset_tree hp h2).1 h0, (reset_tree hp h3).1 h0, (reset_tree hp h4).1 h0]
    simp only [Option.bind_some, Option.map_some, hnil, setImsb]
    refine ⟨_, _, rfl, rfl, ⟨by rw [hnil] at hs; exact hs, fun hne => absurd rfl hne⟩, rfl⟩
  · obtain ⟨t1, c1, r1, s1, m1⟩ := (reset_tree hp h1).2 h0
    obtain ⟨t2, c2, r2, s2, m2⟩ := (reset_tree hp h2).2 h0
    obtain ⟨t3, c3, r3, s3, m3⟩ := (reset_tree hp h3).2 h0
    obtain ⟨t4, c4, r4, s4, m4⟩ := (reset_tree hp h4).2 h0
    have e2 : t2 = t1 := by rw [c1] at c2; simp only [Option.some.injEq, Prod.mk.injEq] at c2; exact c2.2.symm
    have e3 : t3 = t1 := by rw [c1] at c3; simp only [Option.some.injEq, Prod.mk.injEq] at c3; exact c3.2.symm
    have e4 : t4 = t1 := by rw [c1] at c4; simp only [Option.some.injEq, Prod.mk.injEq] at c4; exact c4.2.symm
    subst e2 e3 e4
    obtain ⟨t', val', g1, g2, g3, _, g5⟩ := setImsb_eq hb.bps b.prec.cblks 0 _ t4 (by rw [hb.count]; omega) s1 (fun _ _ => rfl)
      (fun c hc => (hb.cblks c hc).2.2)
    rw [r1, r2, r3, r4]
    simp only [Option.bind_some, Option.map_some, g1]
    refine ⟨_, _, rfl, rfl, ⟨hs, fun _ => ⟨m1.symm, by show t4 = mir t'; rw [g3, m1], fun _ => 999, val', ?_, ?_, fun j x hx => ⟨fun _ => rfl, ?_⟩⟩⟩, by rw [List.map_map]; rfl⟩
    · rw [List.length_map, hb.count]; exact s1
    · rw [List.length_map, hb.count]; exact st_up g2 (by omega)
    · rw [← g5 j x (by rw [List.map_map] at hx; exact hx), Nat.zero_add]

theorem start_bands {m : Mode} {sty L : Nat} {bs : List EncBand} {ds : List DecBand} (h : List.Forall₂ (Pair m sty L) bs ds) :
    ∃ bs' ds', onBands startPrec bs = some bs' ∧ startDecBands ds = some ds' ∧ List.Forall₂ (BSync sty L 0) bs' ds' ∧ bs'.map bstat = bs.map bstat := by
  induction h with
  | nil => exact ⟨[], [], rfl, rfl, .nil, rfl⟩
  | @cons b d bs ds hbd _ ih =>
    obtain ⟨bs', ds', h1, h2, h3, h0⟩ := ih
    obtain ⟨he, hn, hp⟩ := hbd
    cases hb : b.empty with
    | true =>
      refine ⟨b :: bs', d :: ds', ?_, ?_, .cons ⟨hn, he, fun h => by rw [hb] at h; cases h⟩ h3, by simp [h0]⟩
      · rw [onBands, if_pos hb, h1]; rfl
      · rw [startDecBands, if_pos (by rw [he]; exact hb), h2]; rfl
    | false =>
      obtain ⟨w, h, hwh, hok, htw⟩ := hp hb
      obtain ⟨p, q, g1, g2, g3, g0⟩ := start_prec hwh hok htw
      refine ⟨{ b with prec := p } :: bs', { d with prec := q } :: ds', ?_, ?_, .cons ⟨hn, he, fun _ => ⟨hok.bps, g3⟩⟩ h3, by simp [h0, bstat, g0]⟩
      · rw [onBands, if_neg (by simp [hb]), g1, h1]; rfl
      · rw [startDecBands, if_neg (by rw [he]; simp [hb]), g2, h2]; rfl

/-! ## All layers -/

/-- From `lay` on, with everything reset: `n` more packets. -/
theorem layers_eq {csty sty L : Nat} (strict : Bool) (h40 : sty &&& 0x40 = 0) (hL : L ≤ 999) (packnos : List Nat) :
    ∀ (lay : Nat), lay + packnos.length ≤ L → ∀ {bs0 bs : List EncBand} {ds0 ds : List DecBand},
      (if lay = 0 then onBands startPrec bs0 else some bs0) = some bs →
      (if lay = 0 then startDecBands ds0 else some ds0) = some ds → List.Forall₂ (BSync sty L lay) bs ds → packnos ≠ [] →
      ∃ outs bs' ds', outs.length = packnos.length ∧ List.Forall₂ (BSync sty L (lay + packnos.length)) bs' ds' ∧ bs'.map bstat = bs.map bstat ∧
        (∀ dests : List (List UInt8), dests.length = packnos.length → List.Forall₂ (fun o d => o.length ≤ d.length) outs dests →
          encLayers csty lay (packnos.zip dests) bs0 = .ok (outs, bs')) ∧
        (∀ dests : List (List UInt8), dests.length = packnos.length → ¬ List.Forall₂ (fun o d => o.length ≤ d.length) outs dests →
          encLayers csty lay (packnos.zip dests) bs0 = .error .refused) ∧
        ∀ tails : List (List UInt8), tails.length = packnos.length →
          decLayers csty sty strict lay (List.zipWith (· ++ ·) outs tails) ds0 = .ok (outs.map List.length, ds') := by
  induction packnos with
  | nil => intro lay _ bs0 bs ds0 ds _ _ _ h; exact absurd rfl h
  | cons pk packnos ih =>
    intro lay hlay bs0 bs ds0 ds hb hd h _
    rw [List.length_cons] at hlay
    obtain ⟨out, bs1, ds1, a1, a0, a2, a3⟩ := packet_eq (packno := pk) (csty := csty) strict h40 (by omega) (by omega) hb hd h
    have hb1 : (if lay + 1 = 0 then onBands startPrec bs1 else some bs1) = some bs1 := by rw [if_neg (by omega)]
    have hd1 : (if lay + 1 = 0 then startDecBands ds1 else some ds1) = some ds1 := by rw [if_neg (by omega)]
    by_cases hnil : packnos = []
    · subst hnil
      refine ⟨[out], bs1, ds1, rfl, a1, a0, ?_, ?_, ?_⟩
      · intro dests hl hf
        obtain ⟨d, rfl⟩ : ∃ d, dests = [d] := List.length_eq_one_iff.mp hl
        cases hf with
        | cons hod _ =>
          rw [List.zip_cons_cons, encLayers, a2, if_pos hod]; rfl
      · intro dests hl hf
        obtain ⟨d, rfl⟩ : ∃ d, dests = [d] := List.length_eq_one_iff.mp hl
        have : ¬ out.length ≤ d.length := fun e => hf (.cons e .nil)
        rw [List.zip_cons_cons, encLayers, a2, if_neg this]; rfl
      · intro tails hl
        obtain ⟨t, rfl⟩ : ∃ d, tails = [d] := List.length_eq_one_iff.mp hl
        rw [List.zipWith_cons_cons, decLayers, a3]; rfl
    · obtain ⟨outs, bs', ds', g0, g1, gs, g2, g3, g4⟩ := ih (lay + 1) (by omega) hb1 hd1 a1 hnil
      refine ⟨out :: outs, bs', ds', by simp [g0], by rw [List.length_cons, show lay + (packnos.length + 1) = lay + 1 + packnos.length by omega]; exact g1, by rw [gs, a0], ?_, ?_, ?_⟩
      · intro dests hl hf
        cases hf with
        | @cons _ d _ dests hod hf =>
          rw [List.zip_cons_cons, encLayers, a2, if_pos hod, ok_bind]
          dsimp only
          rw [g2 dests (by simpa using hl) hf]; rfl
      · intro dests hl hf
        cases dests with
        | nil => simp at hl
        | cons d dests =>
          rw [List.zip_cons_cons, encLayers, a2]
          by_cases hod : out.length ≤ d.length
          · rw [if_pos hod, ok_bind]
            dsimp only
            rw [g3 dests (by simpa using hl) (fun hf' => hf (.cons hod hf'))]; rfl
          · rw [if_neg hod]; rfl
      · intro tails hl
        cases tails with
        | nil => simp at hl
        | cons t tails =>
          rw [List.zipWith_cons_cons, decLayers, a3, ok_bind]
          dsimp only
          rw [g4 tails (by simpa using hl)]; rfl

theorem Sync.got {sty lay : Nat} {c : EncCblk} {d : DecCblk} (h : Sync sty (sent lay c) c d) : Got lay c d := by
  refine ⟨?_, h.data, ?_⟩
  · rw [h.real]; exact h.segs
  · show d.numbps = if sent lay c = 0 then 0 else c.numbps
    split
    · rename_i h0; exact (h.zero h0).2.1
    · rename_i h0; exact (h.later h0).2.2.2.1

theorem Got.congr {lay : Nat} {c c0 : EncCblk} {d : DecCblk} (h : Got lay c d) (e : stat c = stat c0) : Got lay c0 d := by
  simp only [stat, Prod.mk.injEq] at e
  obtain ⟨e1, e2, e3, e4⟩ := e
  obtain ⟨h1, h2, h3⟩ := h
  rw [e1, e4] at h1
  rw [e1, e3, e4] at h2
  rw [e1, e2] at h3
  exact ⟨h1, h2, h3⟩

theorem got_blocks {sty L lay : Nat} {bps : Int} {cs : List EncCblk} {ds : List DecCblk} (h : List.Forall₂ (RSync sty L lay bps) cs ds) :
    ∀ {cs0 : List EncCblk}, cs.map stat = cs0.map stat → List.Forall₂ (Got lay) cs0 ds := by
  induction h with
  | nil => intro cs0 e; cases cs0 with
    | nil => exact .nil
    | cons _ _ => simp at e
  | cons hcd _ ih =>
    intro cs0 e
    cases cs0 with
    | nil => simp at e
    | cons c0 cs0 =>
      rw [List.map_cons, List.map_cons, List.cons.injEq] at e
      exact .cons (hcd.1.got.congr e.1) (ih e.2)

theorem got_bands {sty L lay : Nat} {bs : List EncBand} {ds : List DecBand} (h : List.Forall₂ (BSync sty L lay) bs ds) :
    ∀ {bs0 : List EncBand}, bs.map bstat = bs0.map bstat →
      List.Forall₂ (fun b d => b.empty = false → List.Forall₂ (Got lay) b.prec.cblks d.prec.cblks) bs0 ds := by
  induction h with
  | nil => intro cs0 e; cases cs0 with
    | nil => exact .nil
    | cons _ _ => simp at e
  | cons hbd _ ih =>
    intro bs0 e
    cases bs0 with
    | nil => simp at e
    | cons b0 bs0 =>
      rw [List.map_cons, List.map_cons, List.cons.injEq] at e
      refine .cons (fun he => ?_) (ih e.2)
      have e1 := e.1
      simp only [bstat, Prod.mk.injEq] at e1
      exact got_blocks (hbd.prec (by rw [e1.1]; exact he)).2.blocks e1.2

end Jp2.T2

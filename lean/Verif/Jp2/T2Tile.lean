import Verif.Jp2.T2EncLoop
import Verif.Jp2.T2Props
import Verif.Jp2.PiLayers
/-!
# The encoder's loop against the decoder's
-/
namespace Jp2.T2
open Jp2.Bio Jp2.Tgt
open Pi (Pkt InTurn)

theorem enc_set_of {t : EncTile} {p : Pkt} {bs : List EncBand} {c r k : Nat} (h : key p = (c, r, k)) : t.set p bs c r k = bs := by
  unfold key at h
  simp only [Prod.mk.injEq] at h
  unfold EncTile.set
  rw [if_pos ⟨h.1.symm, h.2.1.symm, h.2.2.symm⟩]

theorem enc_set_ne {t : EncTile} {p : Pkt} {bs : List EncBand} {c r k : Nat} (h : key p ≠ (c, r, k)) : t.set p bs c r k = t c r k := by
  unfold EncTile.set
  rw [if_neg]
  rintro ⟨rfl, rfl, rfl⟩
  exact h rfl

/-- Encoder and decoder after `lay` packets of each precinct. -/
def InStep (L : Nat) (sty : Nat → Nat) (E0 : EncTile) (D0 : Tile) (lay : Nat × Nat × Nat → Nat) (E : EncTile) (D : Tile) : Prop :=
  ∀ c r k, (∃ bs ds, (if lay (c, r, k) = 0 then onBands startPrec (E c r k) else some (E c r k)) = some bs ∧
      (if lay (c, r, k) = 0 then startDecBands (D c r k) else some (D c r k)) = some ds ∧
      List.Forall₂ (BSync (sty c) L (lay (c, r, k))) bs ds ∧ bs.map bstat = (E0 c r k).map bstat) ∧
    (lay (c, r, k) = 0 → D c r k = D0 c r k)

theorem inStep_start {m : Mode} {L : Nat} {sty : Nat → Nat} {E : EncTile} {D : Tile}
    (h : ∀ c r k, List.Forall₂ (Pair m (sty c) L) (E c r k) (D c r k)) : InStep L sty E D (fun _ => 0) E D := by
  intro c r k
  obtain ⟨bs, ds, h1, h2, h3, h4⟩ := start_bands (h c r k)
  exact ⟨⟨bs, ds, by rw [if_pos rfl]; exact h1, by rw [if_pos rfl]; exact h2, h3, h4⟩, fun _ => rfl⟩

theorem tile_loop {csty L ml : Nat} {sty : Nat → Nat} {strict : Bool} {want : Want} {E0 : EncTile} {D0 : Tile}
    (h40 : ∀ c, sty c &&& 0x40 = 0) (hL : L ≤ 999) : ∀ (ps : List Pkt) (lay : Nat × Nat × Nat → Nat) (E : EncTile) (D : Tile)
    (packno : Nat), InStep L sty E0 D0 lay E D → (∀ p ∈ ps, p.layno < ml ∧ p.layno < L ∧ want.skips p = false) →
    (∀ a p b, ps = a ++ p :: b → p.layno = lay (key p) + count a (key p)) → packno < 2 ^ 32 →
    ∃ out sizes E' D', InStep L sty E0 D0 (fun q => lay q + count ps q) E' D' ∧ sizes.length = ps.length ∧
      sizes.sum = out.length ∧
      (∀ dest, encodePackets csty ml ps packno E dest =
        if out.length ≤ dest.length then .ok (out, sizes, (packno + ps.length) % 2 ^ 32, E') else .error .refused) ∧
      (∀ tail, decodePackets csty sty strict want ps none D (out ++ tail) = .ok (out.length, none, D')) ∧
      ∀ i, ∃ Di, ∀ tail, decodePackets csty sty strict want (ps.take i) none D (out ++ tail) = .ok ((sizes.take i).sum, none, Di) := by
  intro ps
  induction ps with
  | nil =>
    intro lay E D packno hS _ _ hpk
    refine ⟨[], [], E, D, hS, rfl, rfl, fun dest => ?_, fun tail => rfl, fun i => ⟨D, fun tail => ?_⟩⟩
    · rw [if_pos (by simp), encodePackets]
      rw [List.length_nil, Nat.add_zero, Nat.mod_eq_of_lt hpk]
    · simp only [List.take_nil]; rfl
  | cons p ps ih =>
    intro lay E D packno hS hps hturn hpk
    obtain ⟨hml, hlt, hsk⟩ := hps p (by simp)
    have hlay : p.layno = lay (key p) := by
      have := hturn [] p ps rfl
      simpa [count] using this
    obtain ⟨⟨bs, ds, s1, s2, s3, s4⟩, _⟩ := hS p.compno p.resno p.precno
    rw [show (p.compno, p.resno, p.precno) = key p from rfl, ← hlay] at s1 s2 s3
    obtain ⟨out, bs', ds', a1, a0, a2, a3⟩ := packet_eq (packno := packno) (csty := csty) strict (h40 p.compno) (by omega) hlt s1 s2 s3
    have hS' : InStep L sty E0 D0 (fun q => lay q + if key p = q then 1 else 0) (E.set p bs') (D.set p ds') := by
      intro c r k
      by_cases hk : key p = (c, r, k)
      · simp only [if_pos hk]
        rw [enc_set_of hk, tile_set_of hk, if_neg (by omega), if_neg (by omega)]
        have hc : c = p.compno ∧ r = p.resno ∧ k = p.precno := by
          unfold key at hk; simp only [Prod.mk.injEq] at hk; omega
        obtain ⟨rfl, rfl, rfl⟩ := hc
        refine ⟨⟨bs', ds', rfl, rfl, ?_, by rw [a0, s4]⟩, by omega⟩
        rw [← hk, ← hlay]
        exact a1
      · simp only [if_neg hk, Nat.add_zero]
        rw [enc_set_ne hk, tile_set_ne hk]
        exact hS c r k
    obtain ⟨outs, sizes, E', D', i1, i2, i3, i4, i5, i6⟩ := ih _ (E.set p bs') (D.set p ds') ((packno + 1) % 2 ^ 32) hS'
      (fun q hq => hps q (by simp [hq])) (by
        intro a q b e
        have := hturn (p :: a) q b (by rw [e]; rfl)
        rw [count_cons] at this
        rw [this]
        omega) (Nat.mod_lt _ (by norm_num))
    have hdec : ∀ tail, onePacket csty sty strict want p none D (out ++ tail) = .ok (out.length, none, ds') := by
      intro tail
      unfold onePacket
      rw [if_neg (by simp [hsk])]
      exact a3 tail
    refine ⟨out ++ outs, out.length :: sizes, E', D', ?_, by simp [i2], by simp [i3], fun dest => ?_, fun tail => ?_, fun i => ?_⟩
    · rw [show (fun q => lay q + count (p :: ps) q) = fun q => (lay q + if key p = q then 1 else 0) + count ps q from
        funext fun q => by rw [count_cons]; omega]
      exact i1
    · rw [encodePackets, if_pos hml, a2, List.length_append]
      by_cases h1 : out.length ≤ dest.length
      · rw [if_pos h1, ok_bind]
        dsimp only
        rw [i4, List.length_drop]
        by_cases h2 : out.length + outs.length ≤ dest.length
        · rw [if_pos (by omega), if_pos h2, ok_bind]
          have : ((packno + 1) % 2 ^ 32 + ps.length) % 2 ^ 32 = (packno + (p :: ps).length) % 2 ^ 32 := by
            rw [List.length_cons]
            omega
          rw [this]
          rfl
        · rw [if_neg (by omega), if_neg h2]
          rfl
      · rw [if_neg h1, if_neg (by omega)]
        rfl
    · rw [decodePackets, List.append_assoc, hdec, ok_bind]
      dsimp only
      rw [List.drop_left, i5, ok_bind, List.length_append]
      rfl
    · cases i with
      | zero => exact ⟨D, fun tail => by simp only [List.take_zero]; rfl⟩
      | succ i =>
        obtain ⟨Di, hi⟩ := i6 i
        refine ⟨Di, fun tail => ?_⟩
        rw [List.take_succ_cons, decodePackets, List.append_assoc, hdec, ok_bind]
        dsimp only
        rw [List.drop_left, hi, ok_bind, List.take_succ_cons, List.sum_cons]
        rfl

/-- Packets of layers not to be written are passed over. -/
theorem encodePackets_filter (csty ml : Nat) : ∀ (ps : List Pkt) (packno : Nat) (E : EncTile) (dest : List UInt8),
    encodePackets csty ml ps packno E dest = encodePackets csty ml (ps.filter fun p => decide (p.layno < ml)) packno E dest := by
  intro ps
  induction ps with
  | nil => intros; rfl
  | cons p ps ih =>
    intro packno E dest
    by_cases h : p.layno < ml
    · rw [List.filter_cons_of_pos (by simpa using h), encodePackets, encodePackets, if_pos h, if_pos h]
      congr 1
      funext x
      obtain ⟨out, bs⟩ := x
      dsimp only
      rw [ih]
    · rw [List.filter_cons_of_neg (by simpa using h), encodePackets, if_neg h, ih]

theorem decodePackets_append (csty : Nat) (sty : Nat → Nat) (strict : Bool) (want : Want) : ∀ (ps qs : List Pkt)
    (packed : Option (List UInt8)) (t : Tile) (src : List UInt8),
    decodePackets csty sty strict want (ps ++ qs) packed t src = (do
      let (n, packed, t) ← decodePackets csty sty strict want ps packed t src
      let (k, packed, t) ← decodePackets csty sty strict want qs packed t (src.drop n)
      return (n + k, packed, t)) := by
  intro ps
  induction ps with
  | nil =>
    intro qs packed t src
    rw [List.nil_append, decodePackets, ok_bind]
    dsimp only
    rw [List.drop_zero]
    cases decodePackets csty sty strict want qs packed t src with
    | error e => rfl
    | ok v => obtain ⟨a, b, c⟩ := v; rw [ok_bind]; dsimp only; rw [Nat.zero_add]; rfl
  | cons p ps ih =>
    intro qs packed t src
    rw [List.cons_append, decodePackets, decodePackets]
    cases onePacket csty sty strict want p packed t src with
    | error e => rfl
    | ok v =>
      obtain ⟨n, pk, bs⟩ := v
      rw [ok_bind, ok_bind]
      dsimp only
      rw [ih]
      cases decodePackets csty sty strict want ps pk (t.set p bs) (src.drop n) with
      | error e => rfl
      | ok v =>
        obtain ⟨n', pk', t'⟩ := v
        rw [ok_bind, ok_bind]
        dsimp only
        rw [show ∀ x, (pure x : Except Err _) = Except.ok x from fun _ => rfl, ok_bind]
        dsimp only
        rw [List.drop_drop]
        cases decodePackets csty sty strict want qs pk' t' (src.drop (n + n')) with
        | error e => rfl
        | ok v =>
          obtain ⟨a, b, c⟩ := v
          rw [ok_bind, ok_bind]
          dsimp only
          rw [show ∀ x, (pure x : Except Err _) = Except.ok x from fun _ => rfl, ok_bind]
          dsimp only
          rw [Nat.add_assoc]

theorem count_append (ps qs : List Pkt) (k : Nat × Nat × Nat) : count (ps ++ qs) k = count ps k + count qs k := by
  unfold count
  rw [List.filter_append, List.length_append]

/-- All tile-parts. -/
theorem parts_loop {csty L ml : Nat} {sty : Nat → Nat} {strict : Bool} {want : Want} {E0 : EncTile} {D0 : Tile}
    (h40 : ∀ c, sty c &&& 0x40 = 0) (hL : L ≤ 999) : ∀ (parts : List (List Pkt)) (lay : Nat × Nat × Nat → Nat) (E : EncTile) (D : Tile)
    (packno : Nat), InStep L sty E0 D0 lay E D →
    (∀ p ∈ parts.flatten, p.layno < ml ∧ p.layno < L ∧ want.skips p = false) →
    (∀ a p b, parts.flatten = a ++ p :: b → p.layno = lay (key p) + count a (key p)) → packno < 2 ^ 32 →
    ∃ outs : List (List UInt8 × List Nat), ∃ packno' E' D', outs.length = parts.length ∧
      InStep L sty E0 D0 (fun q => lay q + count parts.flatten q) E' D' ∧
      (outs.map Prod.snd).flatten.length = parts.flatten.length ∧
      (∀ o ∈ outs, o.2.sum = o.1.length) ∧
      (∀ dests : List (List UInt8), dests.length = parts.length → encodeTileParts csty ml (parts.zip dests) packno E =
        if List.Forall₂ (fun o d => o.1.length ≤ d.length) outs dests then .ok (outs, packno', E') else .error .refused) ∧
      (∀ tail, decodePackets csty sty strict want parts.flatten none D ((outs.map Prod.fst).flatten ++ tail) =
        .ok ((outs.map Prod.fst).flatten.length, none, D')) := by
  intro parts
  induction parts with
  | nil =>
    intro lay E D packno hS _ _ _
    refine ⟨[], packno, E, D, rfl, hS, rfl, by simp, fun dests hd => ?_, fun tail => rfl⟩
    cases dests with
    | nil => rw [if_pos .nil]; rfl
    | cons _ _ => simp at hd
  | cons ps parts ih =>
    intro lay E D packno hS hps hturn hpk
    rw [List.flatten_cons] at hps hturn
    obtain ⟨out, sizes, E1, D1, a1, a2, a3, a4, a5, _⟩ := tile_loop (csty := csty) (ml := ml) (strict := strict) (want := want) h40 hL ps lay E D packno hS
      (fun p hp => hps p (by simp [hp])) (fun a p b e => hturn a p (b ++ parts.flatten) (by rw [e]; simp)) hpk
    obtain ⟨outs, packno', E', D', b0, b1, b2, b3, b4, b5⟩ := ih _ E1 D1 ((packno + ps.length) % 2 ^ 32) a1
      (fun p hp => hps p (by rw [List.mem_append]; exact Or.inr hp)) (by
        intro a p b e
        have := hturn (ps ++ a) p b (by rw [e]; simp)
        rw [count_append] at this
        rw [this]
        omega) (Nat.mod_lt _ (by norm_num))
    refine ⟨(out, sizes) :: outs, packno', E', D', by simp [b0], ?_, ?_, ?_, ?_, ?_⟩
    · rw [show (fun q => lay q + count (ps :: parts).flatten q) = fun q => lay q + count ps q + count parts.flatten q from
        funext fun q => by rw [List.flatten_cons, count_append]; omega]
      exact b1
    · simp only [List.map_cons, List.flatten_cons, List.length_append, a2, b2]
    · intro o ho
      rcases List.mem_cons.mp ho with rfl | ho
      · exact a3
      · exact b3 o ho
    · intro dests hd
      cases dests with
      | nil => simp at hd
      | cons d dests =>
        rw [List.zip_cons_cons, encodeTileParts, a4]
        by_cases h1 : out.length ≤ d.length
        · rw [if_pos h1, ok_bind]
          dsimp only
          rw [b4 dests (by simpa using hd)]
          by_cases h2 : List.Forall₂ (fun o d => o.1.length ≤ d.length) outs dests
          · rw [if_pos h2, if_pos (.cons h1 h2)]; rfl
          · rw [if_neg h2, if_neg (by intro hc; cases hc with | cons _ h => exact h2 h)]; rfl
        · rw [if_neg h1, if_neg (by intro hc; cases hc with | cons h _ => exact h1 h)]; rfl
    · intro tail
      rw [List.flatten_cons, List.map_cons, List.flatten_cons, decodePackets_append, List.append_assoc, a5, ok_bind]
      dsimp only
      rw [List.drop_left, b5, ok_bind, List.length_append]
      rfl

/-- What a precinct holds in the end. -/
theorem inStep_got {L : Nat} {sty : Nat → Nat} {E0 : EncTile} {D0 : Tile} {lay : Nat × Nat × Nat → Nat} {E : EncTile} {D : Tile}
    (h : InStep L sty E0 D0 lay E D) (c r k : Nat) :
    (lay (c, r, k) = 0 → D c r k = D0 c r k) ∧ (lay (c, r, k) ≠ 0 →
      List.Forall₂ (fun b d => b.empty = false → List.Forall₂ (Got (lay (c, r, k))) b.prec.cblks d.prec.cblks) (E0 c r k) (D c r k)) := by
  obtain ⟨⟨bs, ds, s1, s2, s3, s4⟩, s5⟩ := h c r k
  refine ⟨s5, fun hne => ?_⟩
  rw [if_neg hne] at s2
  injection s2 with s2
  subst s2
  exact got_bands s3 s4

end Jp2.T2

namespace Jp2.T2
open Pi (Pkt InTurn)
open T1 (encodeCblk stripeOrder recon)

/-- Every block of the bands holds what its first `n` layers contain. -/
def Arrived (n : Nat) (bs : List EncBand) (ds : List DecBand) : Prop :=
  List.Forall₂ (fun b d => b.empty = false → List.Forall₂ (Got n) b.prec.cblks d.prec.cblks) bs ds

/-- Every block of the bands that was coded from coefficients `px` and whose passes are all in its layers decodes to these
coefficients, up to the six fractional bits. -/
def Decodes (bs : List EncBand) (ds : List DecBand) : Prop :=
  List.Forall₂ (fun b d => b.empty = false → List.Forall₂ (fun c d => ∀ o w h st px mem start choices,
    Made o w h st px mem start choices c → passesIn c.layers = c.passes.length → ∀ x0 x1,
      ∃ D, decodeBlock o w h st d x0 x1 = some (some D) ∧ D.length = w * h ∧
        ∀ y < h, ∀ x < w, D[y * w + x]? = some (recon 0 (px y x))) b.prec.cblks d.prec.cblks) bs ds

theorem arrived_decodes {n : Nat} {bs : List EncBand} {ds : List DecBand} (h : Arrived n bs ds)
    (hlen : ∀ b ∈ bs, b.empty = false → ∀ c ∈ b.prec.cblks, c.layers.length ≤ n) : Decodes bs ds := by
  unfold Arrived at h
  unfold Decodes
  induction h with
  | nil => exact .nil
  | @cons b d bs ds hbd _ ih =>
    refine .cons (fun hbe => ?_) (ih fun b hb => hlen b (by simp [hb]))
    have hB := hbd hbe
    have hbl := hlen b (by simp) hbe
    clear ih hbd hlen
    revert hbl
    generalize EncPrec.cblks _ = cs at hB ⊢
    generalize DecPrec.cblks _ = qs at hB ⊢
    intro hbl
    induction hB with
    | nil => exact .nil
    | @cons c q cs qs hcq _ ih =>
      refine .cons (fun o w h st px mem start choices hM hall x0 x1 => ?_) (ih (fun c hc => hbl c (by simp [hc])))
      have hn : c.passes.length = passesIn (c.layers.take n) := by
        rw [List.take_of_length_le (hbl c (by simp)), hall]
      obtain ⟨D, k1, k2, k3⟩ := C46_received_block_decodes o w h st px mem start choices c hM n q hcq _ hn (Nat.le_refl _) (Or.inr (Or.inl rfl)) x0 x1
      refine ⟨D, k1, k2, fun y hy x hx => ?_⟩
      obtain ⟨e, e1, e2, e3⟩ := k3 y hy x hx
      rw [show e = 0 by omega] at e3
      exact e3

theorem pair_layers {m : Mode} {sty L : Nat} {bs : List EncBand} {ds : List DecBand} (h : List.Forall₂ (Pair m sty L) bs ds) :
    ∀ b ∈ bs, b.empty = false → ∀ c ∈ b.prec.cblks, c.layers.length ≤ L := by
  refine forall₂_left h fun b d hpair hbe c hc => ?_
  obtain ⟨w, h, _, hok, _⟩ := hpair.2.2 hbe
  exact Nat.le_of_eq (hok.cblks c hc).2.1

theorem encodeTileParts_filter (csty ml : Nat) : ∀ (parts : List (List Pkt)) (dests : List (List UInt8)) (packno : Nat) (E : EncTile),
    encodeTileParts csty ml (parts.zip dests) packno E =
      encodeTileParts csty ml ((parts.map fun ps => ps.filter fun p => decide (p.layno < ml)).zip dests) packno E := by
  intro parts
  induction parts with
  | nil => intros; rfl
  | cons ps parts ih =>
    intro dests packno E
    cases dests with
    | nil => rfl
    | cons d dests =>
      rw [List.map_cons, List.zip_cons_cons, List.zip_cons_cons, encodeTileParts, encodeTileParts, encodePackets_filter]
      congr 1
      funext x
      obtain ⟨a, b, c, d⟩ := x
      dsimp only
      rw [ih]

/-- The loops of encoder and decoder, from the start. -/
theorem tile_eq {m : Mode} {csty L ml : Nat} {sty : Nat → Nat} (strict : Bool) {want : Want} (h40 : ∀ c, sty c &&& 0x40 = 0) (hL : L ≤ 999)
    {E : EncTile} {D : Tile} (hp : ∀ c r k, List.Forall₂ (Pair m (sty c) L) (E c r k) (D c r k)) (hml : ml ≤ L) {parts : List (List Pkt)}
    (ht : InTurn parts.flatten) (hw : ∀ p ∈ parts.flatten, p.layno < ml → want.skips p = false) :
    ∃ outs : List (List UInt8 × List Nat), ∃ packno' E' D', outs.length = parts.length ∧
      (∀ c r k, (count (parts.flatten.filter fun p => decide (p.layno < ml)) (c, r, k) = 0 → D' c r k = D c r k) ∧
        (count (parts.flatten.filter fun p => decide (p.layno < ml)) (c, r, k) ≠ 0 →
          Arrived (count (parts.flatten.filter fun p => decide (p.layno < ml)) (c, r, k)) (E c r k) (D' c r k))) ∧
      (∀ o ∈ outs, o.2.sum = o.1.length) ∧
      (∀ dests : List (List UInt8), dests.length = parts.length → encodeTileParts csty ml (parts.zip dests) 0 E =
        if List.Forall₂ (fun o d => o.1.length ≤ d.length) outs dests then .ok (outs, packno', E') else .error .refused) ∧
      (∀ tail, decodePackets csty sty strict want (parts.flatten.filter fun p => decide (p.layno < ml)) none D
        ((outs.map Prod.fst).flatten ++ tail) = .ok ((outs.map Prod.fst).flatten.length, none, D')) := by
  have hfl : (parts.map fun ps => ps.filter fun p => decide (p.layno < ml)).flatten =
      parts.flatten.filter fun p => decide (p.layno < ml) := by rw [List.filter_flatten]
  have ht' := Pi.inTurn_filter ht ml
  obtain ⟨outs, pk, E', D', b0, b1, b2, b3, b4, b5⟩ := parts_loop (csty := csty) (ml := ml) (strict := strict) (want := want) h40 hL
    (parts.map fun ps => ps.filter fun p => decide (p.layno < ml)) (fun _ => 0) E D 0 (inStep_start hp)
    (by
      intro p hm
      rw [hfl, List.mem_filter] at hm
      have := of_decide_eq_true hm.2
      exact ⟨this, by omega, hw p hm.1 this⟩)
    (by
      intro a p b e
      rw [hfl] at e
      rw [Nat.zero_add]
      exact ht' a p b e) (by norm_num)
  rw [hfl] at b1 b5
  refine ⟨outs, pk, E', D', by rw [b0, List.length_map], fun c r k => ?_, b3, fun dests hd => ?_, b5⟩
  · have := inStep_got b1 c r k
    simp only [Nat.zero_add] at this
    exact this
  · rw [encodeTileParts_filter]
    exact b4 dests (by rw [List.length_map]; exact hd)

end Jp2.T2

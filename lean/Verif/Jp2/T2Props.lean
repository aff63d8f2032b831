import Verif.Jp2.LayerLemmas
/-!
# Properties of packets
-/
namespace Jp2.T2
open Jp2.Bio Jp2.Tgt
open T1 (segsOf Style encodeCblk decodeCblk stripeOrder recon)

/-! ## C46: packets carry the coded blocks from the encoder to the decoder -/

/-- For one precinct of one resolution: any bands, any code blocks with their passes in any layers, any coding style but the
high-throughput one, with or without SOP and EPH markers. If the packets of the first layers are written, the decoder reads each of
them, whatever follows it, takes exactly its bytes, and holds for every block the segments of the passes sent so far, their bytes
and the number of bit planes. -/
theorem C46_packets_round_trip (m : Mode) (csty sty L : Nat) (strict : Bool) (h40 : sty &&& 0x40 = 0) (hL : L ≤ 999) (bs : List EncBand) (ds : List DecBand)
    (hp : List.Forall₂ (Pair m sty L) bs ds) (packnos : List Nat) (dests : List (List UInt8)) (hd : dests.length = packnos.length)
    (hne : packnos ≠ []) (hl : packnos.length ≤ L) (outs : List (List UInt8)) (bs' : List EncBand)
    (he : encLayers csty 0 (packnos.zip dests) bs = .ok (outs, bs')) (tails : List (List UInt8)) (ht : tails.length = packnos.length) :
    ∃ ds', decLayers csty sty strict 0 (List.zipWith (· ++ ·) outs tails) ds = .ok (outs.map List.length, ds') ∧
      List.Forall₂ (fun b d => b.empty = false → List.Forall₂ (Got packnos.length) b.prec.cblks d.prec.cblks) bs ds' := by
  obtain ⟨bs1, ds1, h1, h2, h3, h4⟩ := start_bands hp
  obtain ⟨outs0, bs0, ds0, g1, g2, g3, g4, g5, g6⟩ := layers_eq (csty := csty) strict h40 hL packnos 0 (by omega) (by rw [if_pos rfl]; exact h1)
    (by rw [if_pos rfl]; exact h2) h3 hne
  by_cases hfit : List.Forall₂ (fun o d => o.length ≤ d.length) outs0 dests
  · have e := g4 dests hd hfit
    rw [e] at he
    injection he with he
    injection he with e1 e2
    subst e1 e2
    rw [Nat.zero_add] at g2
    exact ⟨ds0, g6 tails ht, got_bands g2 (by rw [g3, h4])⟩
  · rw [g5 dests hd hfit] at he
    cases he

/-- The bytes of a packet do not depend on the buffers; the encoder writes them if every packet fits its buffer and refuses
otherwise. It never leaves a buffer, a block or a tree. -/
theorem C46_encoder_needs_exact_room (m : Mode) (csty sty L : Nat) (h40 : sty &&& 0x40 = 0) (hL : L ≤ 999) (bs : List EncBand) (ds : List DecBand)
    (hp : List.Forall₂ (Pair m sty L) bs ds) (packnos : List Nat) (hne : packnos ≠ []) (hl : packnos.length ≤ L) :
    ∃ outs bs', outs.length = packnos.length ∧ ∀ dests : List (List UInt8), dests.length = packnos.length →
      (List.Forall₂ (fun o d => o.length ≤ d.length) outs dests → encLayers csty 0 (packnos.zip dests) bs = .ok (outs, bs')) ∧
      (¬ List.Forall₂ (fun o d => o.length ≤ d.length) outs dests → encLayers csty 0 (packnos.zip dests) bs = .error .refused) := by
  obtain ⟨bs1, ds1, h1, h2, h3, h4⟩ := start_bands hp
  obtain ⟨outs0, bs0, ds0, g1, g2, g3, g4, g5, g6⟩ := layers_eq (csty := csty) true h40 hL packnos 0 (by omega) (by rw [if_pos rfl]; exact h1)
    (by rw [if_pos rfl]; exact h2) h3 hne
  exact ⟨outs0, bs0, g1, fun dests hd => ⟨g4 dests hd, g5 dests hd⟩⟩

/-- A block of coefficients `px`, coded by the block coder, its passes put into layers by any choice of thresholds. -/
structure Made (o w h : Nat) (st : Style) (px : Nat → Nat → Int) (mem : List UInt8) (start : Nat) (choices : List ((Nat → Nat → Bool) × Bool × Layer))
    (c : EncCblk) : Prop where
  range : ∀ y < h, ∀ x < w, -2 ^ 31 ≤ px y x ∧ px y x < 2 ^ 31
  room : mem.length + 4 ≤ 2 ^ 32
  coded : ∃ mem', encodeCblk o w h st (stripeOrder w h px) mem start = some ⟨c.numbps, c.passes, mem'⟩ ∧ c.data = mem'.drop start
  layers : makeLayers c.passes choices 0 = some c.layers

/-- What the block coder and the layer allocation make of any block is fit for packets, in any style. Allocation never fails; if its
last threshold asks for all passes, all passes are in the layers. -/
theorem C46_blocks_fit (o w h : Nat) (st : Style) (px : Nat → Nat → Int) (mem : List UInt8) (start : Nat) (choices : List ((Nat → Nat → Bool) × Bool × Layer))
    (sty : Nat) (hb : decide (sty &&& 1 ≠ 0) = st.bypass) (ht : decide (sty &&& 4 ≠ 0) = st.termall) (hmem : mem.length < 2 ^ 25) (c : EncCblk)
    (hc : Made o w h st px mem start choices c) :
    BlockOk sty c ∧ c.layers.length = choices.length ∧
      ((∃ x, choices.getLast? = some x ∧ x.2.1 = true) → passesIn c.layers = c.passes.length) := by
  obtain ⟨hr, hroom, ⟨mem', he, hdata⟩, hlay⟩ := hc
  obtain ⟨k1, k2, k3, k4⟩ := coded_ok (T1.order_range hr) he hb ht
  obtain ⟨k5, k6⟩ := coded_cum hroom (T1.order_range hr) he
  dsimp only at k1 k2 k3 k5 k6
  rw [← hdata] at k3
  have hdl : c.data.length ≤ mem.length := by rw [hdata, List.length_drop]; omega
  obtain ⟨ls, g1, g2, g3, g4, g5⟩ := layers_ok k5 (by omega) choices 0 (Nat.zero_le _)
  rw [hlay] at g1
  injection g1 with g1
  subst g1
  rw [Nat.zero_add] at g3
  simp only [Nat.zero_add] at g4 g5
  refine ⟨⟨fun ly hly => ?_, g3, k1, fun _ => by omega, by omega, k3, by omega, g5⟩, g2, g4⟩
  have : ly.numpasses ≤ passesIn c.layers := sum_mem_le (c.layers.map fun l : Layer => l.numpasses) ly.numpasses (List.mem_map_of_mem hly)
  omega

/-- What the decoder holds for a block, decoded. -/
def decodeBlock (o w h : Nat) (st : Style) (d : DecCblk) (x0 x1 : UInt8) : Option (Option (List Int)) :=
  decodeCblk o w h 0 d.numbps st d.chunks x0 x1 ((d.segs.take d.realNumSegs).map fun s => (s.len, s.realNumPasses))

theorem segs_prefix (ps : List T1.Pass) (n : Nat) (h : n = 0 ∨ n = ps.length ∨ ∃ p, ps[n - 1]? = some p ∧ p.term = true) :
    ∃ k, k ≤ (segsOf 0 0 ps).length ∧ segsOf 0 0 (ps.take n) = (segsOf 0 0 ps).take k := by
  by_cases h0 : n = 0
  · subst h0; exact ⟨0, Nat.zero_le _, by simp [segsOf]⟩
  by_cases hl : n = ps.length
  · exact ⟨(segsOf 0 0 ps).length, Nat.le_refl _, by rw [hl, List.take_length, List.take_length]⟩
  · obtain ⟨p, h1, h2⟩ := (h.resolve_left h0).resolve_left hl
    have hlt : n - 1 < ps.length := (List.getElem?_eq_some_iff.mp h1).1
    have hne : ps.take n ≠ [] := by
      intro e
      have := congrArg List.length e
      rw [List.length_take, List.length_nil] at this; omega
    have hlast : (ps.take n).getLast hne = p := by
      rw [List.getLast_eq_getElem]
      rw [List.getElem?_eq_getElem hlt] at h1
      injection h1 with h1
      simp only [List.getElem_take, List.length_take]
      rw [← h1]
      congr 1; omega
    have e := segsOf_append_term (ps.take n) (ps.drop n) hne (by rw [hlast]; exact h2) 0 0
    rw [List.take_append_drop] at e
    exact ⟨(segsOf 0 0 (ps.take n)).length, by rw [e, List.length_append]; omega, by rw [e, List.take_left]⟩

theorem decode_nil {o w h n : Nat} {st : Style} {chunks : List (List UInt8)} {x0 x1 : UInt8} {D : List Int}
    (hd : decodeCblk o w h 0 n st chunks x0 x1 [] = some (some D)) : decodeCblk o w h 0 0 st chunks x0 x1 [] = some (some D) := by
  unfold decodeCblk at hd ⊢
  split at hd
  · simp at hd
  rename_i hs
  rw [if_neg hs]
  dsimp only at hd ⊢
  split at hd
  · simp at hd
  rw [if_neg (by omega)]
  split at hd
  · rename_i hc; rw [if_pos hc]; exact hd
  · rename_i hc; rw [if_neg hc]
    simp only [T1.decSegments, Option.map_some] at hd ⊢
    exact hd

/-- A block that was coded and received up to layer `l`, where the layers end with a segment: the block decoder reconstructs every
coefficient down to bit plane `e`, which depends only on the number of passes that were not received. -/
theorem C46_received_block_decodes (o w h : Nat) (st : Style) (px : Nat → Nat → Int) (mem : List UInt8) (start : Nat)
    (choices : List ((Nat → Nat → Bool) × Bool × Layer)) (c : EncCblk) (hc : Made o w h st px mem start choices c) (l : Nat) (d : DecCblk) (hg : Got l c d)
    (n : Nat) (hn : n = passesIn (c.layers.take l)) (hle : n ≤ c.passes.length)
    (hend : n = 0 ∨ n = c.passes.length ∨ ∃ p, c.passes[n - 1]? = some p ∧ p.term = true) (x0 x1 : UInt8) :
    ∃ D, decodeBlock o w h st d x0 x1 = some (some D) ∧ D.length = w * h ∧
      ∀ y < h, ∀ x < w, ∃ e, (c.passes.length - n) / 3 ≤ e ∧ e ≤ (c.passes.length - n + 2) / 3 ∧ D[y * w + x]? = some (recon e (px y x)) := by
  obtain ⟨hr, hroom, ⟨mem', he, hdata⟩, hlay⟩ := hc
  obtain ⟨g1, g2, g3⟩ := hg
  rw [← hn] at g1 g2 g3
  obtain ⟨k, hk, hseg⟩ := segs_prefix c.passes n hend
  have hs := segsOf_sum (c.passes.take n) 0 0 (fun _ => rfl)
  rw [hseg, List.length_take, Nat.zero_add, Nat.zero_add] at hs
  rw [hdata, ← hs.1] at g2
  obtain ⟨D, h1, h2, h3⟩ := T1.C43_block_truncated o w h st px mem start _ hroom hr he k hk d.chunks x0 x1 g2 (c.passes.length - n) (by
    show _ + _ = c.passes.length; rw [hs.2]; omega)
  refine ⟨D, ?_, h2, h3⟩
  unfold decodeBlock
  rw [g1, g3, hseg]
  split
  · rename_i h0
    subst h0
    have : (segsOf 0 0 c.passes).take k = [] := by rw [← hseg]; simp [segsOf]
    rw [this] at h1 ⊢
    exact decode_nil h1
  · exact h1

/-- From coefficients to coefficients: blocks are coded, put into layers, sent in packets, received and decoded. Every block all of
whose passes are in the layers comes back with all its bits but the six fractional ones. -/
theorem C46_coefficients_arrive (m : Mode) (csty sty L : Nat) (strict : Bool) (h40 : sty &&& 0x40 = 0) (hL : L ≤ 999) (bs : List EncBand) (ds : List DecBand)
    (hp : List.Forall₂ (Pair m sty L) bs ds) (packnos : List Nat) (dests : List (List UInt8)) (hd : dests.length = packnos.length)
    (hne : packnos ≠ []) (hl : packnos.length = L) (outs : List (List UInt8)) (bs' : List EncBand)
    (he : encLayers csty 0 (packnos.zip dests) bs = .ok (outs, bs')) (tails : List (List UInt8)) (ht : tails.length = packnos.length) :
    ∃ ds', decLayers csty sty strict 0 (List.zipWith (· ++ ·) outs tails) ds = .ok (outs.map List.length, ds') ∧
      List.Forall₂ (fun b d => b.empty = false → List.Forall₂ (fun c d => ∀ o w h st px mem start choices, Made o w h st px mem start choices c →
          passesIn c.layers = c.passes.length → ∀ x0 x1, ∃ D, decodeBlock o w h st d x0 x1 = some (some D) ∧ D.length = w * h ∧
            ∀ y < h, ∀ x < w, D[y * w + x]? = some (recon 0 (px y x))) b.prec.cblks d.prec.cblks) bs ds' := by
  obtain ⟨ds', h1, h2⟩ := C46_packets_round_trip m csty sty L strict h40 hL bs ds hp packnos dests hd hne (by omega) outs bs' he tails ht
  refine ⟨ds', h1, ?_⟩
  have hlen : List.Forall₂ (fun b (_ : DecBand) => b.empty = false → ∀ c ∈ b.prec.cblks, c.layers.length = L) bs ds' := by
    have hlen0 : ∀ b ∈ bs, b.empty = false → ∀ c ∈ b.prec.cblks, c.layers.length = L := by
      refine forall₂_left hp fun b d hpair hbe c hc => ?_
      obtain ⟨w, h, _, hok, _⟩ := hpair.2.2 hbe
      exact (hok.cblks c hc).2.1
    clear hp he h1
    induction h2 with
    | nil => exact .nil
    | cons _ _ ih => exact .cons (hlen0 _ (by simp)) (ih (fun b hb => hlen0 b (by simp [hb])))
  have hboth := h2
  clear he h1 hp
  induction h2 with
  | nil => exact .nil
  | cons hbd _ ih =>
    cases hlen with
    | cons hb hlen =>
      cases hboth with
      | cons _ hboth =>
        refine .cons (fun hbe => ?_) (ih hlen hboth)
        have hB := hbd hbe
        have hbl := hb hbe
        clear ih hboth hlen hbd hb
        revert hbl
        generalize EncPrec.cblks _ = cs at hB ⊢
        generalize DecPrec.cblks _ = qs at hB ⊢
        intro hbl
        induction hB with
        | nil => exact .nil
        | @cons c q cs qs hcq _ ih =>
          refine .cons (fun o w h st px mem start choices hM hall x0 x1 => ?_) (ih (fun c hc => hbl c (by simp [hc])))
          have hn : c.passes.length = passesIn (c.layers.take packnos.length) := by
            rw [List.take_of_length_le (by rw [hbl c (by simp), hl]), hall]
          obtain ⟨D, k1, k2, k3⟩ := C46_received_block_decodes o w h st px mem start choices c hM packnos.length q hcq _ hn (Nat.le_refl _) (Or.inr (Or.inl rfl)) x0 x1
          refine ⟨D, k1, k2, fun y hy x hx => ?_⟩
          obtain ⟨e, e1, e2, e3⟩ := k3 y hy x hx
          rw [show e = 0 by omega] at e3
          exact e3

/-! ### The conditions are met -/

/-- The 3 by 5 block of the examples of `C43`, in the bypass style, its 13 passes in two layers: ten passes in the first. -/
def exBlock : Option EncCblk :=
  (encodeCblk 1 3 5 { bypass := true } (stripeOrder 3 5 T1.sample) (List.replicate 120 0) 1).bind fun cd =>
  (makeLayers cd.passes [(fun _ p => decide (p < 10), false, ⟨7, 7, 7⟩), (fun _ _ => false, true, ⟨7, 7, 7⟩)] 0).map fun ls =>
  ⟨cd.mem.drop 1, cd.numbps, cd.passes, ls, 0, 0⟩

/-- The tag tree of two blocks. -/
def exTree : Mem Node := ((create .checked 2 1).bind id).elim (fun _ => none) Prod.snd

/-- A precinct of two blocks: the one above and one with nothing to send. -/
def exBand (c : EncCblk) : EncBand := ⟨7, false, ⟨3, exTree, exTree, [c, ⟨[], 0, [], [⟨0, 0, 0⟩, ⟨0, 0, 0⟩], 0, 0⟩]⟩⟩
def exEmpty : EncBand := ⟨7, true, ⟨0, fun _ => none, fun _ => none, []⟩⟩
def exDec : DecBand := ⟨7, false, ⟨3, exTree, exTree, [{}, {}]⟩⟩
def exDecEmpty : DecBand := ⟨7, true, ⟨0, fun _ => none, fun _ => none, []⟩⟩

theorem ex_tree : TreeOk .checked 2 1 3 exTree := by
  unfold TreeOk
  rw [if_neg (by decide)]
  obtain ⟨L, t, h1, h2, _⟩ := C31_shape .checked 2 1 (by decide) (by decide) (by decide)
  have h3 : (create .checked 2 1).map (fun r => r.map Prod.fst) = some (some 3) := by decide +kernel
  rw [h2, Option.map_some, Option.map_some, Option.some.injEq, Option.some.injEq] at h3
  have h3' : below 2 1 L = 3 := h3
  refine ⟨t, by rw [h2, h3'], fun i => ?_⟩
  unfold exTree
  rw [h2]
  rfl

-- the block is made as `C46_blocks_fit` says
theorem ex_made : ∃ c, exBlock = some c ∧ c.numbps = 5 ∧ c.passes.length = 13 ∧ c.layers.map (fun l => l.numpasses) = [10, 3] ∧
    Made 1 3 5 { bypass := true } T1.sample (List.replicate 120 0) 1 [(fun _ p => decide (p < 10), false, ⟨7, 7, 7⟩), (fun _ _ => false, true, ⟨7, 7, 7⟩)] c := by
  have h0 : exBlock.map (fun c => (c.numbps, c.passes.length, c.layers.map fun l => l.numpasses)) = some (5, 13, [10, 3]) := by decide +kernel
  obtain ⟨c, h1, h2⟩ := Option.map_eq_some_iff.mp h0
  simp only [Prod.mk.injEq] at h2
  refine ⟨c, h1, h2.1, h2.2.1, h2.2.2, ?_⟩
  unfold exBlock at h1
  rw [Option.bind_eq_some_iff] at h1
  obtain ⟨cd, h3, h1⟩ := h1
  rw [Option.map_eq_some_iff] at h1
  obtain ⟨ls, h4, h1⟩ := h1
  subst h1
  refine ⟨fun y hy x hx => ?_, by rw [List.length_replicate]; omega, ⟨cd.mem, h3, rfl⟩, h4⟩
  unfold T1.sample
  omega

-- two bands, one of them empty, meet the hypotheses of the packet theorems for two layers
example : ∃ c, exBlock = some c ∧ List.Forall₂ (Pair .checked 1 2) [exEmpty, exBand c] [exDecEmpty, exDec] := by
  obtain ⟨c, h1, h2, h3, h4, h5⟩ := ex_made
  obtain ⟨k1, k2, _⟩ := C46_blocks_fit _ _ _ _ _ _ _ _ 1 (by decide) (by decide) (by rw [List.length_replicate]; omega) c h5
  refine ⟨c, h1, .cons ⟨rfl, rfl, fun h => by cases h⟩ (.cons ⟨rfl, rfl, fun _ => ⟨2, 1, by decide, ?_, ?_⟩⟩ .nil)⟩
  · refine ⟨by show (0:Int) ≤ 7 ∧ (7:Int) < 999; decide, rfl, ⟨ex_tree, ex_tree⟩, fun x hx => ?_⟩
    rcases List.mem_cons.mp hx with rfl | hx
    · exact ⟨k1, k2, by rw [h2]; show Fits 7 5; unfold Fits asI32; decide⟩
    · rw [List.mem_singleton] at hx
      subst hx
      refine ⟨⟨by decide, by decide, fun i p h => by simp at h, by decide, by decide, by decide, by decide, fun l ly h hne => ?_⟩, rfl, by show Fits 7 0; unfold Fits asI32; decide⟩
      have : ly ∈ [(⟨0, 0, 0⟩ : Layer), ⟨0, 0, 0⟩] := List.mem_of_getElem? h
      simp at this
      subst this
      exact absurd rfl hne
  · refine ⟨rfl, rfl, ⟨ex_tree, ex_tree⟩, fun x hx => ?_⟩
    have hx' : x ∈ [({} : DecCblk), {}] := hx
    simp at hx'
    subst hx'
    exact ⟨rfl, rfl⟩

/-- A block of two passes in two layers, small enough to send by hand. -/
def exLight : EncCblk := ⟨[0xAB, 0xCD, 0xEF], 6, [⟨false, 1, 1⟩, ⟨true, 3, 2⟩], [⟨1, 1, 0⟩, ⟨1, 2, 1⟩], 0, 0⟩

-- its two packets, with SOP and EPH markers, as the encoder writes them
example : (encLayers 6 0 [(300, List.replicate 11 0), (301, List.replicate 64 0)] [exEmpty, exBand exLight]).toOption.map Prod.fst =
    some [[255, 145, 0, 4, 1, 44, 236, 32, 255, 146, 171], [255, 145, 0, 4, 1, 45, 196, 255, 146, 205, 239]] := by decide +kernel
-- one byte less in the first buffer, and it refuses
example : (encLayers 6 0 [(300, List.replicate 10 0), (301, List.replicate 64 0)] [exEmpty, exBand exLight]).toOption.map Prod.fst = none := by decide +kernel
-- and as the decoder reads them
example : (decLayers 6 0 true 0 [[255, 145, 0, 4, 1, 44, 236, 32, 255, 146, 171, 9], [255, 145, 0, 4, 1, 45, 196, 255, 146, 205, 239, 7, 7]]
    [exDecEmpty, exDec]).toOption.map Prod.fst = some [11, 11] := by decide +kernel
example : (decLayers 6 0 true 0 [[255, 145, 0, 4, 1, 44, 236, 32, 255, 146, 171, 9], [255, 145, 0, 4, 1, 45, 196, 255, 146, 205, 239, 7, 7]]
    [exDecEmpty, exDec]).toOption.map (fun r => r.2.flatMap fun d => d.prec.cblks.map fun q => (q.chunks.flatten, q.numbps)) =
    some [([171, 205, 239], 6), ([], 0)] := by decide +kernel
example : (decLayers 6 0 true 0 [[255, 145, 0, 4, 1, 44, 236, 32, 255, 146, 171, 9], [255, 145, 0, 4, 1, 45, 196, 255, 146, 205, 239, 7, 7]]
    [exDecEmpty, exDec]).toOption.map (fun r => r.2.flatMap fun d => d.prec.cblks.map fun q => (q.segs.take q.realNumSegs).map view) =
    some [[(3, 2)], []] := by decide +kernel

end Jp2.T2

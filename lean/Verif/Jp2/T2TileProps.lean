import Verif.Jp2.T2Tile
import Verif.Jp2.PiEncProps
import Verif.Jp2.T2Number
/-!
# Properties of whole tiles

From coded blocks to coded blocks through the packets of a tile: the encoder's loop over its packet iterators, in one or
more tile-parts, then the decoder's loop over its own packet iterators.
-/
namespace Jp2.T2
open Pi (Pkt InTurn TileParams ParamsFit IndexFits OrderOk Letter)
open Pi.Spec (order whole tileRect numPrec SamePrec)

/-! ## C50: a tile written is a tile read -/

/-- Any tile: any number of components, resolutions and precincts with any coded blocks in up to 999 layers, any coding styles
but the high-throughput one, markers or not, written in any sequence of packets in which the layers of each precinct come in
turn, cut into any tile-parts. If the encoder writes it, the decoder reads all of it, whatever follows, takes exactly its bytes,
and holds for every block of a precinct what the layers of its packets contain; precincts without packets are as before. -/
theorem C50_tile_round_trip (m : Mode) (csty L ml : Nat) (sty : Nat → Nat) (strict : Bool) (h40 : ∀ c, sty c &&& 0x40 = 0) (hL : L ≤ 999) (hml : ml ≤ L)
    (E : EncTile) (D : Tile) (hp : ∀ c r k, List.Forall₂ (Pair m (sty c) L) (E c r k) (D c r k))
    (parts : List (List Pkt)) (ht : InTurn parts.flatten) (want : Want) (hw : ∀ p ∈ parts.flatten, p.layno < ml → want.skips p = false)
    (dests : List (List UInt8)) (hd : dests.length = parts.length) (outs : List (List UInt8 × List Nat)) (pk : Nat) (E' : EncTile)
    (he : encodeTileParts csty ml (parts.zip dests) 0 E = .ok (outs, pk, E')) (tail : List UInt8) :
    ∃ D', decodePackets csty sty strict want (parts.flatten.filter fun p => decide (p.layno < ml)) none D
        ((outs.map Prod.fst).flatten ++ tail) = .ok ((outs.map Prod.fst).flatten.length, none, D') ∧
      ∀ c r k, (count (parts.flatten.filter fun p => decide (p.layno < ml)) (c, r, k) = 0 → D' c r k = D c r k) ∧
        (count (parts.flatten.filter fun p => decide (p.layno < ml)) (c, r, k) ≠ 0 →
          Arrived (count (parts.flatten.filter fun p => decide (p.layno < ml)) (c, r, k)) (E c r k) (D' c r k)) := by
  obtain ⟨outs0, pk0, E0, D0, h0, h1, h2, h3, h4⟩ := tile_eq (csty := csty) strict h40 hL hp hml ht hw
  rw [h3 dests hd] at he
  split_ifs at he with hf
  injection he with he
  injection he with e1 e2
  subst e1
  exact ⟨D0, h4 tail, h1⟩

/-- The bytes do not depend on the buffers: each tile-part is written if it fits its buffer, and the tile refused otherwise. The
encoder never leaves a buffer, a block or a tree. -/
theorem C50_needs_exact_room (m : Mode) (csty L ml : Nat) (sty : Nat → Nat) (h40 : ∀ c, sty c &&& 0x40 = 0) (hL : L ≤ 999) (hml : ml ≤ L)
    (E : EncTile) (D : Tile) (hp : ∀ c r k, List.Forall₂ (Pair m (sty c) L) (E c r k) (D c r k))
    (parts : List (List Pkt)) (ht : InTurn parts.flatten) :
    ∃ outs pk E', outs.length = parts.length ∧ (∀ o ∈ outs, o.2.sum = o.1.length) ∧
      ∀ dests : List (List UInt8), dests.length = parts.length →
      (List.Forall₂ (fun (o : List UInt8 × List Nat) d => o.1.length ≤ d.length) outs dests →
        encodeTileParts csty ml (parts.zip dests) 0 E = .ok (outs, pk, E')) ∧
      (¬ List.Forall₂ (fun (o : List UInt8 × List Nat) d => o.1.length ≤ d.length) outs dests →
        encodeTileParts csty ml (parts.zip dests) 0 E = .error .refused) := by
  obtain ⟨outs0, pk0, E0, D0, h0, h1, h2, h3, h4⟩ := tile_eq (csty := csty) (want := ⟨ml, fun _ _ _ => true⟩) true h40 hL hp hml ht
    (by intro p _ h; simp [Want.skips, h])
  refine ⟨outs0, pk0, E0, h0, h2, fun dests hd => ⟨fun hf => ?_, fun hf => ?_⟩⟩
  · rw [h3 dests hd, if_pos hf]
  · rw [h3 dests hd, if_neg hf]

/-- The packet sizes recorded for the PLT marker are the sizes of the packets: the decoder's first `i` packets take as many bytes
as the first `i` sizes add up to, and there is one size per packet. -/
theorem C50_packet_sizes (m : Mode) (csty L : Nat) (sty : Nat → Nat) (strict : Bool) (h40 : ∀ c, sty c &&& 0x40 = 0) (hL : L ≤ 999)
    (E : EncTile) (D : Tile) (hp : ∀ c r k, List.Forall₂ (Pair m (sty c) L) (E c r k) (D c r k))
    (ps : List Pkt) (ht : InTurn ps) (hl : ∀ p ∈ ps, p.layno < L) (want : Want) (hw : ∀ p ∈ ps, want.skips p = false)
    (dest out : List UInt8) (sizes : List Nat) (pk : Nat) (E' : EncTile)
    (he : encodePackets csty L ps 0 E dest = .ok (out, sizes, pk, E')) :
    sizes.length = ps.length ∧ sizes.sum = out.length ∧ pk = ps.length % 2 ^ 32 ∧ ∀ i, ∃ Di, ∀ tail,
      decodePackets csty sty strict want (ps.take i) none D (out ++ tail) = .ok ((sizes.take i).sum, none, Di) := by
  obtain ⟨out0, sizes0, E0, D0, a1, a2, a3, a4, a5, a6⟩ := tile_loop (csty := csty) (ml := L) (strict := strict) (want := want) h40 hL ps (fun _ => 0) E D 0
    (inStep_start hp) (fun p hm => ⟨hl p hm, hl p hm, hw p hm⟩) (by intro a p b e; rw [Nat.zero_add]; exact ht a p b e) (by norm_num)
  rw [a4] at he
  split_ifs at he
  injection he with he
  injection he with e1 he
  injection he with e2 he
  injection he with e3 e4
  subst e1 e2
  exact ⟨a2, a3, by rw [← e3, Nat.zero_add], a6⟩

/-- With SOP markers, packets are numbered through the tile, over all its tile-parts: the bytes written fall into packets of the
recorded sizes, as many as there are packets below the layer limit, and the `i`th of them begins with an SOP marker segment that
holds `i`, modulo 65536. -/
theorem C50_packet_numbers (csty ml : Nat) (hs : csty &&& 2 ≠ 0) (parts : List (List Pkt × List UInt8)) (E E' : EncTile)
    (outs : List (List UInt8 × List Nat)) (pk : Nat) (he : encodeTileParts csty ml parts 0 E = .ok (outs, pk, E')) :
    ∃ pkts : List (List UInt8), (outs.map Prod.fst).flatten = pkts.flatten ∧ (outs.map Prod.snd).flatten = pkts.map List.length ∧
      pkts.length = ((parts.map Prod.fst).flatten.filter fun p => decide (p.layno < ml)).length ∧
      ∀ i (h : i < pkts.length), ∃ hi lo body,
        pkts[i] = 0xFF :: 0x91 :: 0 :: 4 :: hi :: lo :: body ∧ hi.toNat * 256 + lo.toNat = i % 65536 := by
  obtain ⟨pkts, h1, h2, -, h4, h5⟩ := parts_numbered hs parts 0 E outs pk E' he 0 rfl
  refine ⟨pkts, h1, h2, h4, fun i h => ?_⟩
  have := h5 i h
  rwa [Nat.zero_add] at this

/-- The encoder's and the decoder's own packet sequences. For every tile geometry, progression order and tile-part division of
`C51_same_packets_partial` and `C51_tile_parts_partial`: the tile-parts the encoder writes, one after the other, are read by the
decoder, and every precinct of the tile then holds all layers of its blocks; every block whose passes are all in layers decodes to
the coefficients it was coded from, up to the six fractional bits. -/
theorem C50_tile_arrives (m : Mode) (p : TileParams) (n : Nat) (h : ParamsFit p n) (hi : IndexFits (tileRect p n) p.comps p.numlayers)
    (hl : 0 < p.numlayers) (hL : p.numlayers ≤ 999) (hpoc : p.pocs = []) (ho : OrderOk (tileRect p n) p.comps p.prg) (flag : Option Letter)
    (hflag : (flag = none ∧ p.prg ≠ 2) ∨ ∃ f, flag = some f ∧ ((p.prg = 0 ∧ f = .lay) ∨ (p.prg = 1 ∧ f = .res) ∨ (p.prg = 4 ∧ f = .comp)) ∧
      (p.prg = 0 ∨ p.prg = 1 → SamePrec (tileRect p n) p.comps))
    (csty : Nat) (sty : Nat → Nat) (strict : Bool) (h40 : ∀ c, sty c &&& 0x40 = 0) :
    ∃ F, ∀ fuel, F ≤ fuel → ∃ parts ps, Pi.encodeParts m fuel p flag n = some (some parts) ∧ Pi.decodePackets m fuel p n = some (some ps) ∧
      ∀ (E : EncTile) (D : Tile), (∀ c r k, List.Forall₂ (Pair m (sty c) p.numlayers) (E c r k) (D c r k)) →
      ∀ (dests : List (List UInt8)) (outs : List (List UInt8 × List Nat)) (pk : Nat) (E' : EncTile) (tail : List UInt8), dests.length = parts.length →
        encodeTileParts csty p.numlayers (parts.zip dests) 0 E = .ok (outs, pk, E') →
        ∃ D', decodePackets csty sty strict ⟨p.numlayers, fun _ _ _ => true⟩ ps none D ((outs.map Prod.fst).flatten ++ tail) =
            .ok ((outs.map Prod.fst).flatten.length, none, D') ∧
          ∀ c r k, k < numPrec (tileRect p n) p.comps c r →
            Arrived p.numlayers (E c r k) (D' c r k) ∧ Decodes (E c r k) (D' c r k) := by
  have hparts : ∃ parts F, parts.flatten = order (tileRect p n) p.comps (whole p) p.prg ∧ ∀ fuel, F ≤ fuel →
      Pi.encodeParts m fuel p flag n = some (some parts) ∧ Pi.decodePackets m fuel p n = some (some parts.flatten) := by
    rcases hflag with ⟨rfl, h2⟩ | ⟨f, rfl, hf, hu⟩
    · obtain ⟨F, hF⟩ := Pi.C51_same_packets_partial m p n h hi hl hpoc ho h2
      refine ⟨_, F, ?_, fun fuel hfu => ⟨(hF fuel hfu).1, ?_⟩⟩
      · simp
      · rw [(hF fuel hfu).2]; simp
    · obtain ⟨N, F, hF⟩ := Pi.C51_tile_parts_partial m p n h hi hl hpoc ho f hf hu
      obtain ⟨F2, hF2⟩ := Pi.C37_order_partial m p n h hi hpoc ho
      refine ⟨_, F, ?_, hF⟩
      have h1 := (hF (max F F2) (Nat.le_max_left _ _)).2
      rw [hF2 (max F F2) (Nat.le_max_right _ _)] at h1
      injection h1 with h1
      injection h1 with h1
      exact h1.symm
  obtain ⟨parts, F, hfl, hF⟩ := hparts
  refine ⟨F, fun fuel hfu => ⟨parts, parts.flatten, (hF fuel hfu).1, (hF fuel hfu).2, ?_⟩⟩
  intro E D hp dests outs pk E' tail hd he
  have hturn : InTurn parts.flatten := by
    rw [hfl]; exact Pi.order_inTurn _ h.tile ⟨ho.1, ho.2.1⟩ rfl
  have hlay : ∀ q ∈ parts.flatten, q.layno < p.numlayers := by
    intro q hq
    rw [hfl] at hq
    exact (Pi.isPacket_of_mem h.tile hq).2.1
  obtain ⟨D', h1, h2⟩ := C50_tile_round_trip m csty p.numlayers p.numlayers sty strict h40 hL (Nat.le_refl _) E D hp parts hturn ⟨p.numlayers, fun _ _ _ => true⟩
    (by intro q _ hq; simp [Want.skips, hq]) dests hd outs pk E' he tail
  rw [List.filter_eq_self.mpr (by intro q hq; simpa using hlay q hq)] at h1 h2
  refine ⟨D', h1, fun c r k hk => ?_⟩
  have g := Pi.geo_of h.tile hi
  have hr := g.hmr c r (by omega)
  have hc := g.nc c r (by omega)
  have h33 := g.mr33
  have hcount : count parts.flatten (c, r, k) = p.numlayers := by
    rw [hfl]
    exact Pi.count_order h.tile _ ⟨ho.1, ho.2.1⟩ rfl c r k ⟨Nat.zero_le _, by show r < 33; omega⟩ ⟨Nat.zero_le _, hc⟩ hk
  have ha := (h2 c r k).2 (by omega)
  rw [hcount] at ha
  exact ⟨ha, arrived_decodes ha (pair_layers (hp c r k))⟩

/-- The packet sequences of the decoder, with or without progression order changes, have the layers of each precinct in turn: this is
what `C47_strict_blocks_decodable`, `C48_tile_any_bytes`, `C49_skip_is_decode_and_forget` and `C50_tile_round_trip` ask of them. -/
theorem C37_layers_in_turn_partial (m : Mode) (p : TileParams) (n : Nat) (h : ParamsFit p n) (hi : IndexFits (tileRect p n) p.comps p.numlayers)
    (hq : ∀ q ∈ p.pocs, q.resno1 < 2 ^ 32 ∧ q.compno0 < p.comps.length ∧ q.compno1 ≤ p.comps.length)
    (ho : ∀ v ∈ Pi.volumes p, OrderOk (tileRect p n) p.comps v.2) :
    ∃ l F, (∀ fuel, F ≤ fuel → Pi.decodePackets m fuel p n = some (some l)) ∧ l.Nodup ∧ InTurn l ∧
      l.Pairwise fun p q => p.compno = q.compno ∧ p.resno = q.resno ∧ p.precno = q.precno → p.layno ≤ q.layno := by
  obtain ⟨F, hF⟩ := Pi.decodePackets_eq m h hi hq ho
  obtain ⟨h1, h2⟩ := Pi.volumes_in_turn h ho
  refine ⟨_, F, hF, Pi.decodePackets_nodup m F p n _ (hF F (le_refl _)), Pi.inTurn_of h1 h2, ?_⟩
  refine h1.imp fun {a b} hab hk => Nat.le_of_lt (hab ?_)
  unfold key
  rw [hk.1, hk.2.1, hk.2.2]

example : ∃ p : TileParams, p.pocs ≠ [] ∧ ParamsFit p 1 ∧ IndexFits (tileRect p 1) p.comps p.numlayers ∧
    (∀ q ∈ p.pocs, q.resno1 < 2 ^ 32 ∧ q.compno0 < p.comps.length ∧ q.compno1 ≤ p.comps.length) ∧
    (∀ v ∈ Pi.volumes p, OrderOk (tileRect p 1) p.comps v.2) := by
  refine ⟨Pi.exTile 0 Pi.exPocs, by decide, Pi.exTile_params _ _, Pi.exTile_index _ _, by decide, ?_⟩
  intro v hv
  refine Pi.exTile_ok _ _ _ ?_
  revert v
  decide

/-! ### The conditions are met -/

/-- The 8x8 tile of two resolutions and two layers (`Pi.exSmall`): each precinct has the bands of the examples of C46. -/
def exEncTile (b : EncCblk) : EncTile := fun c r k => if c = 0 ∧ r < 2 ∧ k = 0 then [exEmpty, exBand b] else []
def exDecTile : Tile := fun c r k => if c = 0 ∧ r < 2 ∧ k = 0 then [exDecEmpty, exDec] else []

theorem exLight_ok : BlockOk 0 exLight := by
  refine ⟨by decide, by decide, ?_, by decide, by decide, by decide, by decide, ?_⟩
  · intro i p h1 h2
    rcases (show i = 0 by simp only [exLight, List.length_cons, List.length_nil] at h2; omega) with rfl
    simp [exLight] at h1
    subst h1
    decide
  · intro l ly h1 _
    match l with
    | 0 => simp [exLight] at h1; subst h1; decide
    | 1 => simp [exLight] at h1; subst h1; decide
    | l + 2 => simp [exLight] at h1

theorem exTile_pairs (c r k : Nat) : List.Forall₂ (Pair .checked 0 2) (exEncTile exLight c r k) (exDecTile c r k) := by
  unfold exEncTile exDecTile
  split_ifs
  · refine .cons ⟨rfl, rfl, fun h => by cases h⟩ (.cons ⟨rfl, rfl, fun _ => ⟨2, 1, by decide, ?_, ?_⟩⟩ .nil)
    · refine ⟨by show (0:Int) ≤ 7 ∧ (7:Int) < 999; decide, rfl, ⟨ex_tree, ex_tree⟩, fun x hx => ?_⟩
      rcases List.mem_cons.mp hx with rfl | hx
      · exact ⟨exLight_ok, rfl, by show Fits 7 6; unfold Fits asI32; decide⟩
      · rw [List.mem_singleton] at hx
        subst hx
        refine ⟨⟨by decide, by decide, fun i p h => by simp at h, by decide, by decide, by decide, by decide, fun l ly h hne => ?_⟩, rfl, by show Fits 7 0; unfold Fits asI32; decide⟩
        have : ly ∈ [(⟨0, 0, 0⟩ : Layer), ⟨0, 0, 0⟩] := List.mem_of_getElem? h
        simp at this
        subst this
        exact absurd rfl hne
    · refine ⟨rfl, rfl, ⟨ex_tree, ex_tree⟩, fun x hx => ?_⟩
      have hx' : x ∈ [({} : DecCblk), {}] := hx
      simp at hx'
      subst hx'
      exact ⟨rfl, rfl⟩
  · exact .nil

-- four packets in two tile-parts, as LRCP divided by layers gives them
def exParts : List (List Pkt) := [[⟨0, 0, 0, 0⟩, ⟨0, 1, 0, 0⟩], [⟨1, 0, 0, 0⟩, ⟨1, 1, 0, 0⟩]]

example : Pi.encodeParts .checked 300 (Pi.exSmall 0 2 []) (some .lay) 0 = some (some exParts) := by decide +kernel

example : InTurn exParts.flatten ∧ (∀ c r k, List.Forall₂ (Pair .checked 0 2) (exEncTile exLight c r k) (exDecTile c r k)) := by
  refine ⟨Pi.inTurn_of ?_ ?_, exTile_pairs⟩
  · unfold exParts Pi.Later
    decide
  · unfold exParts
    intro p hp l hl
    simp at hp
    rcases hp with rfl | rfl | rfl | rfl
    · simp at hl
    · simp at hl
    · have : l = 0 := by simp only at hl; omega
      subst this
      decide
    · have : l = 0 := by simp only at hl; omega
      subst this
      decide

-- they are written, with SOP markers numbered through, and read back
example : (encodeTileParts 2 2 (exParts.zip [List.replicate 20 0, List.replicate 20 0]) 0 (exEncTile exLight)).toOption.map (fun r => (r.1, r.2.1)) =
    some ([([255, 145, 0, 4, 0, 0, 236, 32, 171, 255, 145, 0, 4, 0, 1, 236, 32, 171], [9, 9]),
      ([255, 145, 0, 4, 0, 2, 196, 205, 239, 255, 145, 0, 4, 0, 3, 196, 205, 239], [9, 9])], 4) := by decide +kernel
example : (decodePackets 2 (fun _ => 0) true ⟨2, fun _ _ _ => true⟩ exParts.flatten none exDecTile
    [255, 145, 0, 4, 0, 0, 236, 32, 171, 255, 145, 0, 4, 0, 1, 236, 32, 171, 255, 145, 0, 4, 0, 2, 196, 205, 239, 255, 145, 0, 4, 0, 3, 196, 205, 239, 77]).toOption.map
      (fun r => (r.1, [r.2.2 0 0 0, r.2.2 0 1 0].map fun ds => ds.flatMap fun d => d.prec.cblks.map fun q => (q.chunks.flatten, q.numbps))) =
    some (36, [[([171, 205, 239], 6), ([], 0)], [([171, 205, 239], 6), ([], 0)]]) := by decide +kernel

end Jp2.T2

import Verif.Jp2.PiTpParts
/-!
# C51: the encoder writes the packets the decoder reads

`encodeParts m fuel p flag n` is the list of tile-parts the encoder writes for tile `n`, each the list of its packets;
`flag` is the letter of the requested tile-part division. `decodePackets m fuel p n` is the sequence of packets the
decoder goes through. A codestream does not name packets: a packet is known only by its place in the sequence. So the
two sequences have to be equal.
-/
namespace Jp2.Pi
open Spec

theorem letters_ne {g : Int} (h : 0 ≤ g ∧ g ≤ 4) (h2 : g ≠ 2) : lettersOf g ≠ [] := by
  rcases (show g = 0 ∨ g = 1 ∨ g = 3 ∨ g = 4 by omega) with rfl | rfl | rfl | rfl <;> decide

/-- **C51.** Without progression order changes and tile-part divisions, the encoder writes one tile-part, with the
packets of the tile in the order the codestream names, and these are the packets the decoder goes through. RPCL is
excluded: see `C51_rpcl_never_encoded`. -/
theorem C51_same_packets_partial (m : Mode) (p : TileParams) (n : Nat) (h : ParamsFit p n)
    (hi : IndexFits (tileRect p n) p.comps p.numlayers) (hl : 0 < p.numlayers) (hp : p.pocs = [])
    (ho : OrderOk (tileRect p n) p.comps p.prg) (h2 : p.prg ≠ 2) :
    ∃ F, ∀ fuel, F ≤ fuel →
      encodeParts m fuel p none n = some (some [order (tileRect p n) p.comps (whole p) p.prg]) ∧
      decodePackets m fuel p n = some (some (order (tileRect p n) p.comps (whole p) p.prg)) := by
  have hnc := h.nc
  obtain ⟨mp, mr, g, F1, k1⟩ := encodeParts_none m h hi hl (letters_ne ⟨ho.1, ho.2.1⟩ h2) (by
    intro mp mr g e he
    unfold encPocs at he
    rw [hp] at he
    simp only [List.mem_singleton] at he
    have h33 := g.mr33
    have hpos : 0 < p.comps.length := by
      have := g.pos
      by_contra hc
      rw [show p.comps.length = 0 by omega] at this
      simp at this
    rw [he]
    refine ⟨⟨le_refl _, rfl, ?_, ?_, ?_⟩, ho⟩
    · show mr < _; omega
    · show 0 < _; omega
    · show (specInfo _ _ mp mr).cs.length ≤ _; simp [specInfo])
  obtain ⟨F2, k2⟩ := C37_order_partial m p n h hi hp ho
  refine ⟨max F1 F2, fun fuel hfu => ⟨?_, k2 fuel (by omega)⟩⟩
  rw [k1 fuel (by omega)]
  unfold encPocs
  rw [hp]
  simp only [List.map_cons, List.map_nil]
  have : (encWhole p (specInfo (tileRect p n) p.comps mp mr)).bounds = ⟨0, p.numlayers, 0, mr, 0, p.comps.length⟩ := by
    simp [encWhole, EncPoc.bounds, EncPoc.onTile, specInfo]
  rw [this, order_clip g 0 p.numlayers 0 0 p.comps.length]
  rfl

example (prg : Int) (h : 0 ≤ prg ∧ prg ≤ 4) (h2 : prg ≠ 2) : ParamsFit (exTile prg []) 1 ∧
    IndexFits (tileRect (exTile prg []) 1) (exTile prg []).comps (exTile prg []).numlayers ∧
    0 < (exTile prg []).numlayers ∧ (exTile prg []).pocs = [] ∧
    OrderOk (tileRect (exTile prg []) 1) (exTile prg []).comps (exTile prg []).prg ∧ (exTile prg []).prg ≠ 2 :=
  ⟨exTile_params _ _, exTile_index _ _, Nat.zero_lt_succ _, rfl, exTile_ok _ _ _ h, h2⟩

theorem encPocsFrom_chain (i : TileInfo) : ∀ (qs : List Poc) (prev : Nat), (∀ q ∈ qs, q.layno1 ≤ prev) →
    qs.Pairwise (fun a b => b.layno1 ≤ a.layno1) → encPocsFrom i prev qs = qs.map (encPoc i 0) := by
  intro qs
  induction qs with
  | nil => intro _ _ _; rfl
  | cons q qs ih =>
    intro prev h1 h2
    rw [List.pairwise_cons] at h2
    rw [encPocsFrom, if_neg (by have := h1 q (by simp); omega), ih _ h2.1 h2.2]
    rfl

/-- **C51.** With progression order changes, none of which raises the last layer and no two of which share a packet,
the encoder writes one tile-part per change, with its packets in the order it names; together they are the packets the
decoder goes through. Both conditions are needed: `C51_later_layers_lost`, `C51_overlap_written_twice`. -/
theorem C51_progression_changes_partial (m : Mode) (p : TileParams) (n : Nat) (h : ParamsFit p n)
    (hi : IndexFits (tileRect p n) p.comps p.numlayers) (hne : p.pocs ≠ [])
    (hq : ∀ q ∈ p.pocs, q.layno1 ≤ p.numlayers ∧ q.resno1 < 2 ^ 32 ∧ q.compno0 < p.comps.length ∧
      q.compno1 ≤ p.comps.length)
    (ho : ∀ q ∈ p.pocs, OrderOk (tileRect p n) p.comps q.prg) (hl : 0 < p.numlayers)
    (h2 : p.prg = 0 ∨ p.prg = 1 ∨ p.prg = 3 ∨ p.prg = 4)
    (hlay : p.pocs.Pairwise fun a b => b.layno1 ≤ a.layno1)
    (hdis : p.pocs.Pairwise fun a b => ∀ k, IsPacket (tileRect p n) p.comps (pocBounds p.numlayers a) k →
      ¬ IsPacket (tileRect p n) p.comps (pocBounds p.numlayers b) k) :
    ∃ F, ∀ fuel, F ≤ fuel →
      encodeParts m fuel p none n = some (some
        (p.pocs.map fun q => order (tileRect p n) p.comps (pocBounds p.numlayers q) q.prg)) ∧
      decodePackets m fuel p n = some (some
        (p.pocs.map fun q => order (tileRect p n) p.comps (pocBounds p.numlayers q) q.prg).flatten) := by
  have hen : ∀ i, encPocs p i = p.pocs.map (encPoc i 0) := by
    intro i
    unfold encPocs
    cases hc : p.pocs with
    | nil => exact absurd hc hne
    | cons q qs =>
      rw [hc, List.pairwise_cons] at hlay
      simp only [List.map_cons]
      rw [encPocsFrom_chain i qs q.layno1 hlay.1 hlay.2]
  have hlet : lettersOf p.prg ≠ [] := by rcases h2 with e | e | e | e <;> rw [e] <;> decide
  obtain ⟨mp, mr, g, F1, k1⟩ := encodeParts_none m h hi hl hlet (by
    intro mp mr g e he
    rw [hen, List.mem_map] at he
    obtain ⟨q, hq1, rfl⟩ := he
    obtain ⟨a, b, c, d⟩ := hq q hq1
    exact ⟨⟨a, rfl, b, c, d⟩, ho q hq1⟩)
  obtain ⟨F2, k2⟩ := C37_progression_changes_partial m p n h hi hne (fun q hm => (hq q hm).2) ho
  refine ⟨max F1 F2, fun fuel hfu => ⟨?_, ?_⟩⟩
  · rw [k1 fuel (by omega), hen, List.map_map]
    congr 2
    refine List.map_congr_left fun q hm => ?_
    show order _ _ (encPoc _ 0 q).bounds q.prg = _
    unfold pocBounds
    rw [Nat.min_eq_left (hq q hm).1]
    rfl
  · rw [k2 fuel (by omega), List.flatMap_def]
    congr 2
    refine eraseDups_nodup _ _ (le_refl _) ?_
    rw [List.nodup_flatten]
    refine ⟨?_, ?_⟩
    · intro l hm
      rw [List.mem_map] at hm
      obtain ⟨q, _, rfl⟩ := hm
      exact order_nodup h.tile _ _
    · rw [List.pairwise_map]
      refine hdis.imp fun {a b} hab => ?_
      intro k k1 k2
      exact hab k (isPacket_of_mem h.tile k1) (isPacket_of_mem h.tile k2)

/-- Two changes: the two lower resolutions by layer, then the highest component by component. -/
def exEncPocs : List Poc :=
  [{ layno1 := 2, resno1 := 2, compno1 := 2, prg := 0 }, { layno1 := 2, resno0 := 2, resno1 := 33, compno1 := 2, prg := 4 }]

example : ParamsFit (exTile 0 exEncPocs) 1 ∧
    IndexFits (tileRect (exTile 0 exEncPocs) 1) (exTile 0 exEncPocs).comps (exTile 0 exEncPocs).numlayers ∧
    (exTile 0 exEncPocs).pocs ≠ [] ∧
    (∀ q ∈ (exTile 0 exEncPocs).pocs, q.layno1 ≤ (exTile 0 exEncPocs).numlayers ∧ q.resno1 < 2 ^ 32 ∧
      q.compno0 < (exTile 0 exEncPocs).comps.length ∧ q.compno1 ≤ (exTile 0 exEncPocs).comps.length) ∧
    (∀ q ∈ (exTile 0 exEncPocs).pocs, OrderOk (tileRect (exTile 0 exEncPocs) 1) (exTile 0 exEncPocs).comps q.prg) ∧
    0 < (exTile 0 exEncPocs).numlayers ∧
    ((exTile 0 exEncPocs).pocs.Pairwise fun a b => b.layno1 ≤ a.layno1) ∧
    ((exTile 0 exEncPocs).pocs.Pairwise fun a b => ∀ k,
      IsPacket (tileRect (exTile 0 exEncPocs) 1) (exTile 0 exEncPocs).comps (pocBounds 2 a) k →
      ¬ IsPacket (tileRect (exTile 0 exEncPocs) 1) (exTile 0 exEncPocs).comps (pocBounds 2 b) k) := by
  refine ⟨exTile_params _ _, exTile_index _ _, by decide, by decide, ?_, by decide, by decide, ?_⟩
  · intro q hq
    refine exTile_ok _ _ _ ?_
    revert q
    decide
  · show exEncPocs.Pairwise _
    unfold exEncPocs
    simp only [List.pairwise_cons, List.mem_singleton, forall_eq, List.not_mem_nil, false_implies, implies_true,
      List.Pairwise.nil, and_self, and_true]
    intro k h1 h2
    unfold IsPacket pocBounds at h1 h2
    simp only at h1 h2
    omega

/-- **C51.** A tile-part division at the outermost letter of the progression (layers for LRCP, resolutions for RLCP,
components for CPRL): one tile-part per value of that letter, holding the packets with that value in the order of the
progression; together they are the packets the decoder goes through. For LRCP and RLCP all resolutions need the same
number of precincts: see `C51_tile_parts_extra_packets`. -/
theorem C51_tile_parts_partial (m : Mode) (p : TileParams) (n : Nat) (h : ParamsFit p n)
    (hi : IndexFits (tileRect p n) p.comps p.numlayers) (hl : 0 < p.numlayers) (hp : p.pocs = [])
    (ho : OrderOk (tileRect p n) p.comps p.prg) (f : Letter)
    (hf : (p.prg = 0 ∧ f = .lay) ∨ (p.prg = 1 ∧ f = .res) ∨ (p.prg = 4 ∧ f = .comp))
    (hu : p.prg = 0 ∨ p.prg = 1 → SamePrec (tileRect p n) p.comps) :
    ∃ N F, ∀ fuel, F ≤ fuel →
      encodeParts m fuel p (some f) n = some (some ((List.range N).map fun i =>
        (order (tileRect p n) p.comps (whole p) p.prg).filter fun k => f.of k = i)) ∧
      decodePackets m fuel p n = some (some ((List.range N).map fun i =>
        (order (tileRect p n) p.comps (whole p) p.prg).filter fun k => f.of k = i).flatten) := by
  obtain ⟨N, F1, k1, k2⟩ := encodeParts_first m h hi hl hp ho f
    (by rcases hf with ⟨a, rfl⟩ | ⟨a, rfl⟩ | ⟨a, rfl⟩ <;> rw [a] <;> rfl)
    (by rcases hf with ⟨a, rfl⟩ | ⟨a, rfl⟩ | ⟨a, rfl⟩ <;> decide) hu
  obtain ⟨F2, k3⟩ := C37_order_partial m p n h hi hp ho
  refine ⟨N, max F1 F2, fun fuel hfu => ⟨k1 fuel (by omega), ?_⟩⟩
  rw [k2]
  exact k3 fuel (by omega)

/-- An 8x8 tile of one component with two resolutions of one precinct each. -/
def exSmall (prg : Int) (nl : Nat) (pocs : List Poc) : TileParams :=
  ⟨0, 0, 8, 8, 0, 0, 8, 8, 1, [⟨1, 1, [(15, 15), (15, 15)]⟩], nl, prg, pocs⟩

theorem exSmall_params (prg : Int) (nl : Nat) (hnl : nl ≤ 65535) (pocs : List Poc) : ParamsFit (exSmall prg nl pocs) 0 := by
  have hc : ∀ cp ∈ (exSmall prg nl pocs).comps, CompFit cp := by
    intro cp h
    simp [exSmall] at h
    rcases h with rfl
    exact ⟨by decide, by decide, by decide, by decide⟩
  refine ⟨?_, ?_, ?_, ?_, ?_, ?_, ?_, ?_, ?_, hc, ?_, hnl⟩ <;> simp [exSmall, tileRect]

theorem exSmall_prec (prg : Int) (nl : Nat) (pocs : List Poc) (c r : Nat) (hc : c < 1) (hr : r < 2) :
    numPrec (tileRect (exSmall prg nl pocs) 0) (exSmall prg nl pocs).comps c r = 1 := by
  rcases (show c = 0 ∧ (r = 0 ∨ r = 1) by omega) with ⟨rfl, rfl | rfl⟩ <;>
    simp [numPrec, axes, exSmall, tileRect, Axis.num, Axis.tr0, Axis.tr1, ceil]

theorem exSmall_index (prg : Int) (nl : Nat) (hnl : nl ≤ 65535) (pocs : List Poc) :
    IndexFits (tileRect (exSmall prg nl pocs) 0) (exSmall prg nl pocs).comps (exSmall prg nl pocs).numlayers := by
  refine ⟨⟨0, 0, by rw [exSmall_prec _ _ _ _ _ (by omega) (by omega)]; decide⟩, 2, ?_, ?_⟩
  · intro cp h
    simp [exSmall] at h
    rcases h with rfl
    decide
  · intro c r
    have : numPrec (tileRect (exSmall prg nl pocs) 0) (exSmall prg nl pocs).comps c r ≤ 1 := by
      match c, r with
      | 0, 0 | 0, 1 => rw [exSmall_prec _ _ _ _ _ (by omega) (by omega)]
      | 0, _ + 2 => simp [numPrec, axes, exSmall]
      | _ + 1, _ => simp [numPrec, axes, exSmall]
    have h2 : 2 * ((exSmall prg nl pocs).comps.length *
        numPrec (tileRect (exSmall prg nl pocs) 0) (exSmall prg nl pocs).comps c r) ≤ 2 := by
      show 2 * (1 * _) ≤ 2
      omega
    have h3 := Nat.mul_le_mul_left (nl + 1) h2
    show (nl + 1) * _ < _
    omega

theorem exSmall_ok (prg : Int) (nl : Nat) (pocs : List Poc) (q : Int) (h : q = 0 ∨ q = 1) :
    OrderOk (tileRect (exSmall prg nl pocs) 0) (exSmall prg nl pocs).comps q :=
  ⟨by omega, by omega, fun e => by omega, fun e => by omega⟩

example (nl : Nat) (h : 0 < nl ∧ nl ≤ 65535) : ParamsFit (exSmall 0 nl []) 0 ∧
    IndexFits (tileRect (exSmall 0 nl []) 0) (exSmall 0 nl []).comps (exSmall 0 nl []).numlayers ∧
    0 < (exSmall 0 nl []).numlayers ∧ (exSmall 0 nl []).pocs = [] ∧
    OrderOk (tileRect (exSmall 0 nl []) 0) (exSmall 0 nl []).comps (exSmall 0 nl []).prg ∧
    SamePrec (tileRect (exSmall 0 nl []) 0) (exSmall 0 nl []).comps := by
  refine ⟨exSmall_params _ _ h.2 _, exSmall_index _ _ h.2 _, h.1, rfl, exSmall_ok _ _ _ _ (Or.inl rfl), 1, ?_⟩
  intro c cp r hc hr
  have h1 := (List.getElem?_eq_some_iff.mp hc).1
  simp only [exSmall, List.length_cons, List.length_nil] at h1
  rcases (show c = 0 by omega) with rfl
  simp [exSmall] at hc
  rw [← hc] at hr
  exact exSmall_prec _ _ _ _ _ (by omega) hr

/-- And for CPRL, on the tile of two components, with their precincts as they come. -/
example : ParamsFit (exTile 4 []) 1 ∧
    IndexFits (tileRect (exTile 4 []) 1) (exTile 4 []).comps (exTile 4 []).numlayers ∧
    OrderOk (tileRect (exTile 4 []) 1) (exTile 4 []).comps (exTile 4 []).prg ∧ (exTile 4 []).prg = 4 ∧
    ¬ SamePrec (tileRect (exTile 4 []) 1) (exTile 4 []).comps := by
  refine ⟨exTile_params _ _, exTile_index _ _, exTile_ok _ _ _ (by decide), rfl, ?_⟩
  rintro ⟨N, hN⟩
  have h1 := hN 0 _ 0 rfl (by decide)
  have h2 := hN 0 _ 2 rfl (by decide)
  rw [← h2] at h1
  revert h1
  decide +kernel

/-- **C51 is false for RPCL**: whatever the tile, no RPCL codestream is ever written. The progression is not in the
table of the encoder, and the assertion on it fails. -/
theorem C51_rpcl_never_encoded (m : Mode) (fuel : Nat) (p : TileParams) (flag : Option Letter) (n : Nat)
    (h : p.prg = 2) (parts : List (List Pkt)) : encodeParts m fuel p flag n ≠ some (some parts) := by
  unfold encodeParts
  cases hi : tileInfo m p n with
  | none => simp
  | some i =>
    simp only [Option.bind_eq_bind, Option.bind_some]
    split_ifs
    · simp [pure]
    · have : ∃ e es, encPocs p i = e :: es := by
        unfold encPocs
        cases p.pocs with
        | nil => exact ⟨_, _, rfl⟩
        | cons q qs => exact ⟨_, _, rfl⟩
      obtain ⟨e, es, he⟩ := this
      have hn : numTp flag p.prg e = none := by rw [h]; rfl
      rw [he, encProgs, hn]
      simp

/-- **C51 is false for RPCL**: on every ordinary tile the encoder panics. -/
theorem C51_rpcl_panics (m : Mode) (fuel : Nat) (p : TileParams) (flag : Option Letter) (n : Nat) (h : ParamsFit p n)
    (hi : IndexFits (tileRect p n) p.comps p.numlayers) (hl : 0 < p.numlayers) (h2 : p.prg = 2) :
    encodeParts m fuel p flag n = none := by
  obtain ⟨mp, mr, g, e⟩ := tileInfo_eq m h hi
  unfold encodeParts
  rw [e]
  simp only [Option.bind_eq_bind, Option.bind_some]
  rw [if_neg (encIt_size rfl g hl)]
  obtain ⟨e, es, he⟩ : ∃ e es, encPocs p (specInfo (tileRect p n) p.comps mp mr) = e :: es := by
    unfold encPocs
    cases p.pocs with
    | nil => exact ⟨_, _, rfl⟩
    | cons q qs => exact ⟨_, _, rfl⟩
  have hn : numTp flag p.prg e = none := by rw [h2]; rfl
  rw [he, encProgs, hn]
  rfl

example : ParamsFit (exTile 2 []) 1 ∧
    IndexFits (tileRect (exTile 2 []) 1) (exTile 2 []).comps (exTile 2 []).numlayers ∧
    0 < (exTile 2 []).numlayers ∧ (exTile 2 []).prg = 2 := ⟨exTile_params _ _, exTile_index _ _, by decide, rfl⟩

/-- **C51 is false for progression order changes that go on to further layers**, the usual way to write them: first
layer 0, then up to layer 1. The second change starts at its own end, so the encoder writes no packet of layer 1; the
decoder expects four packets. -/
theorem C51_later_layers_lost :
    ∃ p : TileParams, ParamsFit p 0 ∧ p.pocs.map (·.layno1) = [1, 2] ∧ p.numlayers = 2 ∧
      ∃ enc dec, encodeParts .checked 300 p none 0 = some (some enc) ∧ decodePackets .checked 300 p 0 = some (some dec) ∧
        dec.length = 4 ∧ (∀ k, k ∈ enc.flatten → k.layno = 0) ∧ ⟨1, 0, 0, 0⟩ ∈ dec := by
  refine ⟨exSmall 0 2 [{ layno1 := 1, resno1 := 2, compno1 := 1 }, { layno1 := 2, resno1 := 2, compno1 := 1 }],
    exSmall_params _ _ (by decide) _, rfl, rfl, [[⟨0, 0, 0, 0⟩, ⟨0, 1, 0, 0⟩], []],
    [⟨0, 0, 0, 0⟩, ⟨0, 1, 0, 0⟩, ⟨1, 0, 0, 0⟩, ⟨1, 1, 0, 0⟩], ?_, ?_, ?_, ?_, ?_⟩ <;> decide +kernel

/-- **C51 is false for progression order changes that overlap**: the encoder writes the shared packet twice, the
decoder reads it once. -/
theorem C51_overlap_written_twice :
    ∃ p : TileParams, ParamsFit p 0 ∧ ∃ enc dec, encodeParts .checked 300 p none 0 = some (some enc) ∧
      decodePackets .checked 300 p 0 = some (some dec) ∧ enc.flatten.count ⟨0, 0, 0, 0⟩ = 2 ∧
      dec.count ⟨0, 0, 0, 0⟩ = 1 := by
  refine ⟨exSmall 0 1 [{ layno1 := 1, resno1 := 1, compno1 := 1 }, { layno1 := 1, resno1 := 2, compno1 := 1 }],
    exSmall_params _ _ (by decide) _, [[⟨0, 0, 0, 0⟩], [⟨0, 0, 0, 0⟩, ⟨0, 1, 0, 0⟩]],
    [⟨0, 0, 0, 0⟩, ⟨0, 1, 0, 0⟩], ?_, ?_, ?_, ?_⟩ <;> decide +kernel

/-- **C51 is false for tile-part divisions at a later letter**: LRCP divided at resolutions, two layers and two
resolutions. The encoder makes four tile-parts, but divides them at layers, and repeats the last one twice. -/
theorem C51_tile_parts_repeat :
    ∃ p : TileParams, ParamsFit p 0 ∧ p.prg = 0 ∧ p.pocs = [] ∧
      encodeParts .checked 300 p (some .res) 0 = some (some
        [[⟨0, 0, 0, 0⟩, ⟨0, 1, 0, 0⟩], [⟨1, 0, 0, 0⟩, ⟨1, 1, 0, 0⟩], [⟨1, 0, 0, 0⟩, ⟨1, 1, 0, 0⟩],
          [⟨1, 0, 0, 0⟩, ⟨1, 1, 0, 0⟩]]) ∧
      decodePackets .checked 300 p 0 = some (some [⟨0, 0, 0, 0⟩, ⟨0, 1, 0, 0⟩, ⟨1, 0, 0, 0⟩, ⟨1, 1, 0, 0⟩]) := by
  refine ⟨exSmall 0 2 [], exSmall_params _ _ (by decide) _, rfl, rfl, ?_, ?_⟩ <;> decide +kernel

/-- An 8x8 tile of two resolutions; the higher one has two precincts, the lower one has one. -/
def exUneven : TileParams := ⟨0, 0, 8, 8, 0, 0, 8, 8, 1, [⟨1, 1, [(15, 15), (2, 15)]⟩], 1, 0, []⟩

/-- **C51 is false for LRCP tile-parts when resolutions have different numbers of precincts**: with a tile-part
division the encoder's iterator goes on to a packet that does not exist. -/
theorem C51_tile_parts_extra_packets :
    ParamsFit exUneven 0 ∧ exUneven.prg = 0 ∧ ∃ enc, encodeParts .checked 300 exUneven (some .lay) 0 = some (some enc) ∧
      ⟨0, 0, 0, 1⟩ ∈ enc.flatten ∧ ¬ IsPacket (tileRect exUneven 0) exUneven.comps (whole exUneven) ⟨0, 0, 0, 1⟩ := by
  refine ⟨?_, rfl, [[⟨0, 0, 0, 0⟩, ⟨0, 0, 0, 1⟩, ⟨0, 1, 0, 0⟩, ⟨0, 1, 0, 1⟩]], ?_, ?_, ?_⟩
  · have hc : ∀ cp ∈ exUneven.comps, CompFit cp := by
      intro cp h
      simp [exUneven] at h
      rcases h with rfl
      exact ⟨by decide, by decide, by decide, by decide⟩
    refine ⟨?_, ?_, ?_, ?_, ?_, ?_, ?_, ?_, ?_, hc, ?_, ?_⟩ <;> simp [exUneven, tileRect]
  · decide +kernel
  · decide
  · unfold IsPacket
    decide +kernel

end Jp2.Pi

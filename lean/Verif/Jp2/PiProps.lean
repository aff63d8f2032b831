import Verif.Jp2.PiTile
import Verif.Jp2.PiOnce
/-!
# C37: packet iterators

`decodePackets m fuel p n` is the sequence of packets that decoding tile `n` of an image with parameters
`p` goes through (`fuel` bounds the interpreter of the model; the theorems hold for all large enough
values). `Spec.order` lists the packets of a progression by the nested loops of ISO/IEC 15444-1 B.12.1.
-/
namespace Jp2.Pi
open Spec

theorem order_nodup {t : Tile} {cs : List CompParams} (hf : TileFit t cs) (b : Bounds) (prg : Int) :
    (order t cs b prg).Nodup := by
  unfold order
  split_ifs
  · exact nodup_lrcp b
  · exact nodup_rlcp b
  · exact nodup_rpcl b hf.ok
  · exact nodup_pcrl b hf.ok
  · exact nodup_cprl b hf.ok
  · exact List.nodup_nil

theorem mem_order {t : Tile} {cs : List CompParams} (hf : TileFit t cs) (b : Bounds) {prg : Int}
    (h : 0 ≤ prg ∧ prg ≤ 4) (q : Pkt) : q ∈ order t cs b prg ↔ IsPacket t cs b q := by
  unfold order
  split_ifs
  · exact mem_lrcp b q
  · exact mem_rlcp b q
  · exact mem_rpcl b hf.ok q
  · exact mem_pcrl b hf.ok q
  · exact mem_cprl b hf.ok q
  · omega

/-- A tile of 2 components (4:2:0), three resolutions each, on a 40x30 image with 32x32 tiles. -/
def exTile (prg : Int) (pocs : List Poc) : TileParams :=
  ⟨0, 0, 40, 30, 0, 0, 32, 32, 2, [⟨1, 1, [(2, 2), (3, 2), (4, 3)]⟩, ⟨2, 2, [(2, 2), (3, 2), (4, 3)]⟩], 2, prg, pocs⟩

theorem exTile_params (prg : Int) (pocs : List Poc) : ParamsFit (exTile prg pocs) 1 := by
  have hc : ∀ cp ∈ (exTile prg pocs).comps, CompFit cp := by
    intro cp h
    simp [exTile] at h
    rcases h with rfl | rfl <;> exact ⟨by decide, by decide, by decide, by decide⟩
  refine ⟨?_, ?_, ?_, ?_, ?_, ?_, ?_, ?_, ?_, hc, ?_, ?_⟩ <;> simp [exTile, tileRect]

theorem exTile_axes (prg : Int) (pocs : List Poc) (c r : Nat) (ax ay : Axis)
    (h : axes (tileRect (exTile prg pocs) 1) (exTile prg pocs).comps c r = some (ax, ay)) :
    (ax.step, ay.step) ∈ [(16, 16), (16, 8), (16, 8), (32, 32), (32, 16), (32, 16)] := by
  unfold axes at h
  match c, r with
  | 0, 0 | 0, 1 | 0, 2 | 1, 0 | 1, 1 | 1, 2 =>
    simp [exTile, tileRect] at h
    obtain ⟨rfl, rfl⟩ := h
    simp [Axis.step]
  | 0, _ + 3 | 1, _ + 3 => simp [exTile] at h
  | _ + 2, _ => simp [exTile] at h

theorem exTile_ok (prg : Int) (pocs : List Poc) (q : Int) (h : 0 ≤ q ∧ q ≤ 4) :
    OrderOk (tileRect (exTile prg pocs) 1) (exTile prg pocs).comps q := by
  refine ⟨h.1, h.2, fun _ => ?_, fun _ => ?_⟩
  · intro c r ax ay c' r' ax' ay' h1 h2
    have m1 := exTile_axes _ _ _ _ _ _ h1
    have m2 := exTile_axes _ _ _ _ _ _ h2
    simp only [List.mem_cons, Prod.mk.injEq, List.not_mem_nil, or_false] at m1 m2
    constructor <;> intro hl <;> rcases m1 with ⟨e1, e2⟩ | ⟨e1, e2⟩ | ⟨e1, e2⟩ | ⟨e1, e2⟩ | ⟨e1, e2⟩ | ⟨e1, e2⟩ <;>
      rcases m2 with ⟨e3, e4⟩ | ⟨e3, e4⟩ | ⟨e3, e4⟩ | ⟨e3, e4⟩ | ⟨e3, e4⟩ | ⟨e3, e4⟩ <;>
      simp only [e1, e2, e3, e4] at hl ⊢ <;> first | omega | decide
  · intro c r ax ay h1
    have m1 := exTile_axes _ _ _ _ _ _ h1
    simp only [List.mem_cons, Prod.mk.injEq, List.not_mem_nil, or_false] at m1
    omega

theorem exTile_index (prg : Int) (pocs : List Poc) :
    IndexFits (tileRect (exTile prg pocs) 1) (exTile prg pocs).comps (exTile prg pocs).numlayers := by
  refine ⟨⟨0, 0, by simp [numPrec, axes, exTile, tileRect, Axis.num, Axis.tr0, Axis.tr1, ceil]⟩, 3, ?_, ?_⟩
  · intro cp h
    simp [exTile] at h
    rcases h with rfl | rfl <;> decide
  · have : ∀ c r, numPrec (tileRect (exTile prg pocs) 1) (exTile prg pocs).comps c r ≤ 8 := by
      intro c r
      match c, r with
      | 0, 0 | 0, 1 | 0, 2 | 1, 0 | 1, 1 | 1, 2 =>
        simp [numPrec, axes, exTile, tileRect, Axis.num, Axis.tr0, Axis.tr1, ceil]
      | 0, _ + 3 | 1, _ + 3 => simp [numPrec, axes, exTile]
      | _ + 2, _ => simp [numPrec, axes, exTile]
    intro c r
    have := this c r
    simp only [exTile] at *
    simp only [List.length_cons, List.length_nil]
    omega

/-- **C37.** Without progression order changes, decoding a tile goes through exactly the packets of the
order the codestream names, in that order: LRCP (0), RLCP (1), RPCL (2), PCRL (3), CPRL (4). Both builds
(overflow checks on or off) agree. `OrderOk` demands, for RPCL and PCRL only, that smaller precinct steps
divide larger ones (see `C37_unaligned_rpcl_misses`) and, for PCRL and CPRL only, that precinct steps fit
32 bits (see `C37_pcrl_wide_precincts`). -/
theorem C37_order_partial (m : Mode) (p : TileParams) (n : Nat) (h : ParamsFit p n)
    (hi : IndexFits (tileRect p n) p.comps p.numlayers) (hp : p.pocs = [])
    (ho : OrderOk (tileRect p n) p.comps p.prg) :
    ∃ F, ∀ fuel, F ≤ fuel → decodePackets m fuel p n =
      some (some (order (tileRect p n) p.comps (whole p) p.prg)) := by
  have hv : volumes p = [(whole p, p.prg)] := by unfold volumes; rw [hp]; rfl
  obtain ⟨F, hF⟩ := decodePackets_eq m h hi (by rw [hp]; simp)
    (by rw [hv]; intro v hm; rw [List.mem_singleton] at hm; rw [hm]; exact ho)
  refine ⟨F, fun fuel hfu => ?_⟩
  rw [hF fuel hfu, hv]
  simp only [List.flatMap_cons, List.flatMap_nil, List.append_nil]
  rw [eraseDups_nodup _ _ (le_refl _) (order_nodup h.tile _ _)]

example (prg : Int) (h : 0 ≤ prg ∧ prg ≤ 4) : ParamsFit (exTile prg []) 1 ∧
    IndexFits (tileRect (exTile prg []) 1) (exTile prg []).comps (exTile prg []).numlayers ∧
    (exTile prg []).pocs = [] ∧ OrderOk (tileRect (exTile prg []) 1) (exTile prg []).comps (exTile prg []).prg :=
  ⟨exTile_params _ _, exTile_index _ _, rfl, exTile_ok _ _ _ h⟩

/-- The example is not degenerate: its five orders are pairwise different lists of 30 packets. -/
example : ([0, 1, 2, 3, 4].map fun q =>
      order (tileRect (exTile 0 []) 1) (exTile 0 []).comps (whole (exTile 0 [])) q).Pairwise (· ≠ ·) ∧
    (order (tileRect (exTile 0 []) 1) (exTile 0 []).comps (whole (exTile 0 [])) 0).length = 30 := by
  constructor <;> decide +kernel

/-- **C37.** So the decoder goes through every packet of the tile (each layer, resolution, component and
precinct that exists) once, and through nothing else. -/
theorem C37_every_packet_once_partial (m : Mode) (p : TileParams) (n : Nat) (h : ParamsFit p n)
    (hi : IndexFits (tileRect p n) p.comps p.numlayers) (hp : p.pocs = [])
    (ho : OrderOk (tileRect p n) p.comps p.prg) :
    ∃ l F, (∀ fuel, F ≤ fuel → decodePackets m fuel p n = some (some l)) ∧ l.Nodup ∧
      ∀ q : Pkt, q ∈ l ↔ q.layno < p.numlayers ∧ q.precno < numPrec (tileRect p n) p.comps q.compno q.resno := by
  obtain ⟨F, hF⟩ := C37_order_partial m p n h hi hp ho
  refine ⟨_, F, hF, order_nodup h.tile _ _, fun q => ?_⟩
  rw [mem_order h.tile _ ⟨ho.1, ho.2.1⟩]
  unfold IsPacket whole
  simp only [Nat.zero_le, true_and]
  constructor
  · rintro ⟨a, _, _, b⟩; exact ⟨a, b⟩
  · rintro ⟨a, b⟩
    have g := geo_of h.tile hi
    have h1 := g.hmr q.compno q.resno (by omega)
    have h2 := g.nc q.compno q.resno (by omega)
    have h3 := g.mr33
    exact ⟨a, by omega, h2, b⟩

/-- **C37.** With progression order changes, the decoder runs the given progressions one after the other
and skips packets it has already seen. -/
theorem C37_progression_changes_partial (m : Mode) (p : TileParams) (n : Nat) (h : ParamsFit p n)
    (hi : IndexFits (tileRect p n) p.comps p.numlayers) (hne : p.pocs ≠ [])
    (hq : ∀ q ∈ p.pocs, q.resno1 < 2 ^ 32 ∧ q.compno0 < p.comps.length ∧ q.compno1 ≤ p.comps.length)
    (ho : ∀ q ∈ p.pocs, OrderOk (tileRect p n) p.comps q.prg) :
    ∃ F, ∀ fuel, F ≤ fuel → decodePackets m fuel p n = some (some
      (p.pocs.flatMap fun q => order (tileRect p n) p.comps (pocBounds p.numlayers q) q.prg).eraseDups) := by
  have hv : volumes p = p.pocs.map fun q => (pocBounds p.numlayers q, q.prg) := by
    unfold volumes
    rw [if_neg (by simpa using hne)]
  obtain ⟨F, hF⟩ := decodePackets_eq m h hi hq (by
    rw [hv]; intro v hm; rw [List.mem_map] at hm; obtain ⟨q, hq, rfl⟩ := hm; exact ho q hq)
  refine ⟨F, fun fuel hfu => ?_⟩
  rw [hF fuel hfu, hv, List.flatMap_map]

/-- Two changes: the first layer of everything by resolution, then the rest component by component. -/
def exPocs : List Poc :=
  [{ layno1 := 1, resno1 := 3, compno1 := 2, prg := 2 }, { layno1 := 2, resno1 := 33, compno1 := 2, prg := 4 }]

example : ParamsFit (exTile 0 exPocs) 1 ∧
    IndexFits (tileRect (exTile 0 exPocs) 1) (exTile 0 exPocs).comps (exTile 0 exPocs).numlayers ∧
    (exTile 0 exPocs).pocs ≠ [] ∧
    (∀ q ∈ (exTile 0 exPocs).pocs, q.resno1 < 2 ^ 32 ∧ q.compno0 < (exTile 0 exPocs).comps.length ∧
      q.compno1 ≤ (exTile 0 exPocs).comps.length) ∧
    (∀ q ∈ (exTile 0 exPocs).pocs, OrderOk (tileRect (exTile 0 exPocs) 1) (exTile 0 exPocs).comps q.prg) := by
  refine ⟨exTile_params _ _, exTile_index _ _, by decide, by decide, ?_⟩
  intro q hq
  refine exTile_ok _ _ _ ?_
  revert q
  decide

/-- **C37.** With progression order changes, each packet that some progression covers is seen once. -/
theorem C37_progression_changes_once_partial (m : Mode) (p : TileParams) (n : Nat) (h : ParamsFit p n)
    (hi : IndexFits (tileRect p n) p.comps p.numlayers) (hne : p.pocs ≠ [])
    (hq : ∀ q ∈ p.pocs, q.resno1 < 2 ^ 32 ∧ q.compno0 < p.comps.length ∧ q.compno1 ≤ p.comps.length)
    (ho : ∀ q ∈ p.pocs, OrderOk (tileRect p n) p.comps q.prg) :
    ∃ l F, (∀ fuel, F ≤ fuel → decodePackets m fuel p n = some (some l)) ∧ l.Nodup ∧
      ∀ k : Pkt, k ∈ l ↔ ∃ q ∈ p.pocs, IsPacket (tileRect p n) p.comps (pocBounds p.numlayers q) k := by
  obtain ⟨F, hF⟩ := C37_progression_changes_partial m p n h hi hne hq ho
  refine ⟨_, F, hF, decodePackets_nodup m F p n _ (hF F (le_refl _)), fun k => ?_⟩
  rw [List.mem_eraseDups, List.mem_flatMap]
  constructor
  · rintro ⟨q, h1, h2⟩
    exact ⟨q, h1, isPacket_of_mem h.tile h2⟩
  · rintro ⟨q, h1, h2⟩
    exact ⟨q, h1, (mem_order h.tile _ ⟨(ho q h1).1, (ho q h1).2.1⟩ k).mpr h2⟩

/-- **C37.** Whatever the parameters, valid or not, no packet is ever visited twice. -/
theorem C37_never_twice (m : Mode) (fuel : Nat) (p : TileParams) (n : Nat) (l : List Pkt)
    (h : decodePackets m fuel p n = some (some l)) : l.Nodup := decodePackets_nodup m fuel p n l h

example : (decodePackets .checked 1000 ⟨0, 0, 13, 1, 0, 0, 13, 1, 1, [⟨2, 1, [(0, 0)]⟩, ⟨3, 1, [(0, 0)]⟩], 1, 2, []⟩ 0).isSome := by
  decide +kernel

/-- **C37.** Smaller steps divide larger ones whenever all subsampling factors are powers of two; in
particular for 4:4:4, 4:2:2 and 4:2:0 images. -/
theorem C37_power_of_two_subsampling (t : Tile) (cs : List CompParams)
    (h : ∀ cp ∈ cs, ∃ a b, cp.dx = 2 ^ a ∧ cp.dy = 2 ^ b) : Aligned t cs := by
  intro c r ax ay c' r' ax' ay' h1 h2
  have key : ∀ c r ax ay, axes t cs c r = some (ax, ay) → (∃ a, ax.step = 2 ^ a) ∧ ∃ b, ay.step = 2 ^ b := by
    intro c r ax ay h1
    unfold axes at h1
    cases hc : cs[c]? with
    | none => rw [hc] at h1; simp at h1
    | some cp =>
      rw [hc] at h1
      simp only at h1
      cases hr : cp.prc[r]? with
      | none => rw [hr] at h1; simp at h1
      | some q =>
        rw [hr] at h1
        simp only [Option.some.injEq, Prod.mk.injEq] at h1
        obtain ⟨rfl, rfl⟩ := h1
        obtain ⟨a, b, e1, e2⟩ := h cp (List.mem_of_getElem? hc)
        unfold Axis.step
        rw [e1, e2]
        exact ⟨⟨_, (Nat.pow_add _ _ _).symm⟩, ⟨_, (Nat.pow_add _ _ _).symm⟩⟩
  obtain ⟨⟨a, ea⟩, b, eb⟩ := key _ _ _ _ h1
  obtain ⟨⟨a', ea'⟩, b', eb'⟩ := key _ _ _ _ h2
  rw [ea, eb, ea', eb']
  exact ⟨fun hl => Nat.pow_dvd_pow 2 ((Nat.pow_le_pow_iff_right (by omega)).mp hl),
    fun hl => Nat.pow_dvd_pow 2 ((Nat.pow_le_pow_iff_right (by omega)).mp hl)⟩

/-- **C37.** The same holds whenever all components share one subsampling, whatever it is. -/
theorem C37_equal_subsampling (t : Tile) (cs : List CompParams) (dx dy : Nat)
    (h : ∀ cp ∈ cs, cp.dx = dx ∧ cp.dy = dy) : Aligned t cs := by
  intro c r ax ay c' r' ax' ay' h1 h2
  have key : ∀ c r ax ay, axes t cs c r = some (ax, ay) → (∃ a, ax.step = dx * 2 ^ a) ∧ ∃ b, ay.step = dy * 2 ^ b := by
    intro c r ax ay h1
    unfold axes at h1
    cases hc : cs[c]? with
    | none => rw [hc] at h1; simp at h1
    | some cp =>
      rw [hc] at h1
      simp only at h1
      cases hr : cp.prc[r]? with
      | none => rw [hr] at h1; simp at h1
      | some q =>
        rw [hr] at h1
        simp only [Option.some.injEq, Prod.mk.injEq] at h1
        obtain ⟨rfl, rfl⟩ := h1
        obtain ⟨e1, e2⟩ := h cp (List.mem_of_getElem? hc)
        unfold Axis.step
        rw [e1, e2]
        exact ⟨⟨_, rfl⟩, ⟨_, rfl⟩⟩
  have div : ∀ d a b : Nat, d * 2 ^ a ≤ d * 2 ^ b → d * 2 ^ a ∣ d * 2 ^ b := by
    intro d a b hl
    rcases Nat.eq_zero_or_pos d with rfl | hd
    · simp
    · exact Nat.mul_dvd_mul_left d (Nat.pow_dvd_pow 2
        ((Nat.pow_le_pow_iff_right (by omega)).mp (Nat.le_of_mul_le_mul_left hl hd)))
  obtain ⟨⟨a, ea⟩, b, eb⟩ := key _ _ _ _ h1
  obtain ⟨⟨a', ea'⟩, b', eb'⟩ := key _ _ _ _ h2
  rw [ea, eb, ea', eb']
  exact ⟨div _ _ _, div _ _ _⟩

example : ∃ cs : List CompParams, cs.length = 3 ∧ (∀ cp ∈ cs, ∃ a b, cp.dx = 2 ^ a ∧ cp.dy = 2 ^ b) ∧
    Aligned ⟨0, 0, 100, 100⟩ cs := by
  have h : ∀ cp ∈ ([⟨1, 1, [(15, 15)]⟩, ⟨2, 2, [(15, 15)]⟩, ⟨2, 2, [(15, 15)]⟩] : List CompParams),
      ∃ a b, cp.dx = 2 ^ a ∧ cp.dy = 2 ^ b := by
    intro cp hc
    simp at hc
    rcases hc with rfl | rfl
    · exact ⟨0, 0, rfl, rfl⟩
    · exact ⟨1, 1, rfl, rfl⟩
  exact ⟨_, rfl, h, C37_power_of_two_subsampling _ _ h⟩

/-- The 13x1 tile of `C37_unaligned_rpcl_misses`: components subsampled by 2 and by 3. -/
def unaligned : TileParams := ⟨0, 0, 13, 1, 0, 0, 13, 1, 1, [⟨2, 1, [(0, 0)]⟩, ⟨3, 1, [(0, 0)]⟩], 1, 2, []⟩

/-- **C37 is false without the alignment hypothesis**: subsampling 2 and 3 (both allowed by the codestream
syntax) makes RPCL step by 2 and pass over the precincts of the second component that start at odd
multiples of 3. Of 12 packets the decoder visits 10; it does not report an error. -/
theorem C37_unaligned_rpcl_misses :
    ∃ (p : TileParams), ParamsFit p 0 ∧ p.prg = 2 ∧ ∃ l, decodePackets .checked 1000 p 0 = some (some l) ∧
      ∃ q, IsPacket (tileRect p 0) p.comps (whole p) q ∧ q ∉ l := by
  refine ⟨unaligned, ?_, rfl, _, rfl, ⟨0, 0, 1, 1⟩, ?_, by decide +kernel⟩
  · have hc : ∀ cp ∈ unaligned.comps, CompFit cp := by
      intro cp h
      simp [unaligned] at h
      rcases h with rfl | rfl <;> exact ⟨by decide, by decide, by decide, by decide⟩
    refine ⟨?_, ?_, ?_, ?_, ?_, ?_, ?_, ?_, ?_, hc, ?_, ?_⟩ <;> simp [unaligned, tileRect]
  · unfold IsPacket
    decide +kernel

/-- The 1x1 tile of `C37_pcrl_wide_precincts`: 18 resolutions with the default precinct size 2^15. -/
def wide (prg : Int) : TileParams := ⟨0, 0, 1, 1, 0, 0, 1, 1, 1, [⟨1, 1, List.replicate 18 (15, 15)⟩], 1, prg, []⟩

/-- **C37 is false without the 32-bit hypothesis**: with 17 decomposition levels (33 resolutions are
allowed) and default precincts, RPCL visits all 18 packets of a 1x1 tile, PCRL 17 of them when overflow
checks are off and panics when they are on. -/
theorem C37_pcrl_wide_precincts :
    (∃ l, decodePackets .wrapping 1000 (wide 2) 0 = some (some l) ∧ l.length = 18) ∧
    (∃ l, decodePackets .wrapping 1000 (wide 3) 0 = some (some l) ∧ l.length = 17) ∧
    decodePackets .checked 1000 (wide 3) 0 = none := by
  refine ⟨⟨_, rfl, ?_⟩, ⟨_, rfl, ?_⟩, ?_⟩ <;> decide +kernel

/-- **C37.** A tile without a single precinct (for instance one whose components are subsampled away) has
no iterator: creation returns the null pointer, so the tile cannot be decoded. -/
theorem C37_no_precincts_fails (m : Mode) (fuel : Nat) (p : TileParams) (n : Nat) (h : ParamsFit p n)
    (hz : ∀ c r, numPrec (tileRect p n) p.comps c r = 0) : decodePackets m fuel p n = some none := by
  have hT := h.tile
  have hnl := h.nl
  have hmp : maxPrec (p.comps.map (specComp (tileRect p n))) = 0 := by
    obtain ⟨_, m2⟩ := maxPrec_spec (p.comps.map (specComp (tileRect p n)))
    by_contra hc
    rcases m2 with m2 | m2
    · exact hc m2
    · obtain ⟨cp, h1, q, h2, h3⟩ := m2
      obtain ⟨c, r, h4⟩ := table_numPrec h1 h2
      rw [hz c r] at h4
      rw [← h4] at h3
      exact hc (by simpa using h3)
  unfold decodePackets createDecode
  rw [tileBounds_eq h]
  simp only
  rw [mkComps_eq m (tileRect p n) hT.x hT.y hT.x1 hT.y1 p.comps hT.comps]
  simp [hmp]

example : ∃ p, ParamsFit p 0 ∧ p.comps ≠ [] ∧ 0 < p.x1 ∧ ∀ c r, numPrec (tileRect p 0) p.comps c r = 0 := by
  refine ⟨⟨1, 1, 2, 2, 1, 1, 1, 1, 1, [⟨4, 4, [(15, 15)]⟩], 1, 0, []⟩, ?_, by simp, by decide, ?_⟩
  · refine ⟨?_, ?_, ?_, ?_, ?_, ?_, ?_, ?_, ?_, ?_, ?_, ?_⟩ <;> simp [tileRect]
    exact ⟨by decide, by decide, by decide, by decide⟩
  · intro c r
    match c, r with
    | 0, 0 => decide
    | 0, _ + 1 => simp [numPrec, axes]
    | _ + 1, _ => simp [numPrec, axes]

end Jp2.Pi

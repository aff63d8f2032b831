import Verif.Jp2.TpWriteRead
import Verif.Jp2.TpWriteSafe
import Verif.Jp2.TpFullProps
/-!
# C67: the tile-parts the encoder writes
-/
namespace Jp2.Tp
open Jp2.Hdr (R Fail be be_len Enc User Writable SharedStyle Suits SameHeader Change cdiv)

/-- **C67.** A codestream the encoder writes is laid out as the standard wants it. Behind the main header (`headerWith`)
come the tile-parts, tile after tile, progression after progression; each has its tile, its number in the tile, the
number of parts of the tile and its own length; the header of the first one of a tile has the progression order
changes of the tile; if asked for, the header of every one has the lengths of its packets; each holds what the tile
coder gave for it. `EOC` ends it. If asked for, `TLM` in the main header has the tile and the length of every
tile-part. -/
theorem C67_codestream (c : Cfg) (e : Enc) (code : Coder) (ts : List WTile) (xs : List (List Change × List Nat))
    (junk old f : List UInt8) (hw : Writable e) (hsh : SharedStyle e) (hq : ∀ t ∈ e.tccps, t.qntsty ≤ 2)
    (h4 : c.tlm = true → e.rsiz ≠ 4) (hn : ts.length ≤ 65535)
    (h : List.Forall₂ (fun t x => WTileOk c e t x.1 x.2) ts xs) (hf : writeFile c e code ts junk old = .ok f) :
    ∃ ps, TilesOf c e code 0 xs ps ∧
      f = headerWith e (if c.tlm then tlmSegment ps else []) ++ (partsBytes false ps ++ be 2 0xFFD9) := by
  obtain ⟨ps, h1, _, h2, _⟩ := writeFile_is hw hsh hq h4 hn h hf
  exact ⟨ps, h1, h2⟩

/-- **C67.** What the encoder writes, the decoder takes apart again: it hands over every tile exactly once, with the bytes
the tile coder gave for its parts, in order, and with its progression order changes; all the rest of its parameters
are those of the main header, which are those of the encoder. The coder has to give at least one byte for the first
part of a tile (see `C67_empty_tile_refused`), and the changes have to be ones the decoder takes. -/
theorem C67_read_back (u : User) (hu : u.reduce < 64) (c : Cfg) (e : Enc) (code : Coder) (ts : List WTile)
    (xs : List (List Change × List Nat)) (junk old f : List UInt8) (hw : Writable e) (hsh : SharedStyle e)
    (hq : ∀ t ∈ e.tccps, t.qntsty ≤ 2) (hs : Suits u e) (h4 : c.tlm = true → e.rsiz ≠ 4)
    (hn : ts.length = cdiv (e.x1 - e.tx0) e.tdx * cdiv (e.y1 - e.ty0) e.tdy)
    (h : List.Forall₂ (fun t x => WTileOk c e t x.1 x.2) ts xs)
    (hpoc : ∀ x ∈ xs, x.1.length < 32 ∧ ∀ y ∈ x.1, y.Valid e.comps.length e.numlayers)
    (hsize : c.size < 2 ^ 32) (h0 : ∀ tile room o, code tile 0 0 0 room = .ok o → o.data ≠ [])
    (hf : writeFile c e code ts junk old = .ok f) (strict whole : Bool) (hwhole : whole = true → ts.length = 1) :
    ∃ d rest js, Hdr.readHeader u f = .ok (d, rest) ∧ SameHeader e d ∧ decodeFile u strict whole none f = .ok js ∧ (js.map (·.tile)).Nodup ∧
      (∀ i, i ∈ js.map (·.tile) ↔ i < ts.length) ∧
      ∀ j ∈ js, ∀ x, xs[j.tile]? = some x → Gave code j.tile 0 (schedule x.2) j.data ∧ j.ppt = none ∧
        j.tcp = { d.tcp with pocs := if 3 ≤ e.rsiz ∧ e.rsiz ≤ 6 then [] else x.1.map Change.poc } := by
  obtain ⟨ps, p1, p2, p3, p4⟩ := writeFile_is hw hsh hq h4 (by rw [hn]; exact hw.count) h hf
  have hlen := h.length_eq
  have hpos : 0 < ts.length := by
    rw [hn]
    have hx := hw.image_x; have hy := hw.image_y; have hx' := hw.tile_x; have hy' := hw.tile_y
    have one : ∀ a b, 0 < a → 0 < b → 0 < cdiv a b := fun a b ha hb => by
      unfold cdiv
      exact Nat.div_pos (by omega) hb
    exact Nat.mul_pos (one _ _ (by omega) (by omega)) (one _ _ (by omega) (by omega))
  have hx1 : ∀ x ∈ xs, 1 ≤ x.2.sum := fun x hx => by
    obtain ⟨t, _, ht⟩ := forall₂_get h x hx
    obtain ⟨n, h1, h2⟩ := ht.first
    have := le_sum (List.mem_of_head? h1)
    omega
  obtain ⟨p, ps', hps⟩ : ∃ p ps', ps = p :: ps' := by
    cases hc : ps with
    | cons p ps' => exact ⟨p, ps', rfl⟩
    | nil =>
      have := p1.shape.many 0 (xs[0]'(by omega)) (List.getElem?_eq_getElem (by omega))
      have h2 := hx1 _ (List.getElem_mem (l := xs) (n := 0) (by omega))
      rw [hc] at this
      unfold cnt at this
      simp only [List.countP_nil] at this
      omega
  obtain ⟨r, hr⟩ := partsBytes_start (p := p) (ps := ps')
  rw [← hps] at hr
  have htlm : ∃ d, Hdr.readHeader u f = .ok (d, r ++ be 2 0xFFD9) ∧ SameHeader e d ∧ d.ppm = false := by
    rw [p3, hr, List.append_assoc]
    cases hc : c.tlm with
    | false => exact read_with hw hsh hs hq (tb := []) (Hdr.Chunk.nil _ _) _
    | true =>
      obtain ⟨b1, _, b3⟩ := tlm_body (ps := ps) rfl
      rw [if_pos rfl, b3]
      exact read_with hw hsh hs hq (Hdr.chunk_tlm_any (p4 hc) _ b1) _
  obtain ⟨d, hd, hsame, _⟩ := htlm
  have hok := Hdr.C53_header_in_range u hu f _ d hd
  have htw : d.tw * d.th = ts.length := by
    rw [hn, hok.geom.count_x, hok.geom.count_y, hsame.image.2.2.1, hsame.image.2.2.2, hsame.tiles.1, hsame.tiles.2.1,
      hsame.tiles.2.2.1, hsame.tiles.2.2.2]
  have hinv : Hdr.Inv u d := by
    have := Hdr.readHeader_strong hu f
    rw [hd] at this
    exact this.2.1
  have hcl : d.comps.length = e.comps.length := by
    have := congrArg List.length hsame.comps
    simpa using this
  obtain ⟨g, g1, g2, _⟩ := p1.runs (u := u) (h := d) (want := wanted d.tw none) (fun k => rfl) hx1
    (fun x hx => pocSegs_to hinv hsame.pocs hcl hsame.layers (hpoc x hx).1 (hpoc x hx).2) (f := fun _ => { tcp := d.tcp }) (fun _ _ => rfl)
  obtain ⟨js, j1, j2, j3, j4⟩ := C65_tiles u hu strict whole false none f (r ++ be 2 0xFFD9) [] d hd ps g
    (by rw [List.append_nil, ← List.append_assoc, hr]) (by simp) (fun hc => ⟨rfl, by rw [htw]; exact hwhole hc⟩)
    (by rw [htw]; exact valid_of h hsize h0 p1 p2 _) g1
  refine ⟨d, _, js, hd, hsame, j1, j2, fun i => ?_, fun j hj x hx => ?_⟩
  · rw [j3]
    constructor
    · rintro ⟨_, q, hq, rfl⟩
      have := p1.shape.tile q hq
      omega
    · intro hi
      refine ⟨rfl, ?_⟩
      have := p1.shape.many i (xs[i]'(by omega)) (List.getElem?_eq_getElem (by omega))
      have h2 := hx1 _ (List.getElem_mem (l := xs) (n := i) (by omega))
      rw [Nat.zero_add] at this
      exact cnt_mem (by omega)
  · obtain ⟨k1, k2, k3⟩ := j4 j hj
    obtain ⟨bs, b1, b2⟩ := p1.block j.tile x hx
    have hg := g2 j.tile x hx
    rw [Nat.zero_add] at hg b2
    refine ⟨by rw [k1, b2]; have := b1.gave; rwa [Nat.zero_add] at this, ?_, ?_⟩
    · rw [k3, hg]; rfl
    · rw [k2, hg]; rfl

/-- **C67.** The bytes the encoder sets aside for packet lengths are enough: for a tile of at most `n` packets (one at least)
of fewer than 2^32 bytes in all, `6 ⌈n / 16382⌉ + 5 n` bytes hold the `PLT` segments of any of its parts, unless
there are more segments than can be numbered, which is refused. -/
theorem C67_packet_lengths_room (n : Nat) (hn : 1 ≤ n) (sizes : List Nat) (hl : sizes.length ≤ n) (hs : sizes.sum < 2 ^ 32) :
    writePlt sizes = .error .refused ∨
      ∃ m, writePlt sizes = .ok m ∧ m.length ≤ 6 * cdiv n 16382 + 5 * n := by
  have := writePlt_post hn hl hs
  cases h : writePlt sizes with
  | error x => rw [h] at this; exact Or.inl (congrArg _ this)
  | ok m => rw [h] at this; exact Or.inr ⟨m, rfl, this⟩

/-- **C67.** Writing a codestream never panics and never writes outside its buffers, whatever the tile coder gives, as long as
the coder itself is safe, stays in the room it is given and makes no more packets than were planned for (`CoderOk`).
(The encoder's buffer for a tile has at least 500 bytes.) -/
theorem C67_safe (c : Cfg) (e : Enc) (code : Coder) (ts : List WTile) (xs : List (List Change × List Nat)) (junk old : List UInt8)
    (hw : Writable e) (hsh : SharedStyle e) (hq : ∀ t ∈ e.tccps, t.qntsty ≤ 2) (hn : ts.length ≤ 65535)
    (h : List.Forall₂ (fun t x => WTileOk c e t x.1 x.2) ts xs) (hc : CoderOk c code) (hs : 500 ≤ c.size) (x : Fail)
    (hx : writeFile c e code ts junk old = .error x) : x = .refused := by
  have := writeFile_post junk old hw hsh hq hn h hc (by omega)
  rw [hx] at this
  exact this

/-! ## A case -/

/-- The header of `Hdr.exEnc`, with the order of resolutions, layers, components, positions. -/
def exHd : Enc := { Hdr.exEnc with prg := 1 }

theorem exHd_ok : Writable exHd :=
  have hw := Hdr.exEnc_ok.1
  ⟨hw.rsiz, hw.image_x, hw.image_y, hw.tile_x, hw.tile_y, hw.count, hw.comps_len, hw.comps, hw.csty, by decide, hw.layers, hw.mct, hw.tccps,
    hw.prcs_len, hw.style, hw.quant, hw.roi, hw.prt, hw.tlm, hw.profile, hw.comment⟩

/-- A tile of the image of `Hdr.exEnc` (two components, two resolutions, three layers) with these changes; only the numbers of
components, precincts and resolutions matter here. -/
def exTile (pocs : List Pi.Poc) : WTile :=
  { par := { x0 := 3, y0 := 2, x1 := 43, y1 := 32, cpTx0 := 1, cpTy0 := 0, tdx := 16, tdy := 16, tw := 3, comps := [], numlayers := 3,
             prg := 1, pocs := pocs }
    info := { b := (0, 0, 0, 0), cs := [⟨1, 1, []⟩, ⟨2, 2, []⟩], mp := 1, mr := 2, dx := 1, dy := 1 } }

/-- The lowest resolution first, then both. -/
def exChanges : List Change := [⟨0, 0, 3, 1, 2, 2⟩, ⟨0, 0, 3, 2, 2, 0⟩]

/-- Six tiles; the third has changes. -/
def exTiles : List WTile := [exTile [], exTile [], exTile (exChanges.map Change.poc), exTile [], exTile [], exTile []]

/-- Their changes, and the numbers of tile-parts: a new one is wanted for every resolution. -/
def exWants : List (List Change × List Nat) := [([], [2]), ([], [2]), (exChanges, [1, 2]), ([], [2]), ([], [2]), ([], [2])]

/-- A tile coder that writes what it is asked for: two packets, of three bytes and of one. -/
def exCoder : Coder := fun tile pino tp cur room =>
  if room < 4 then .error .refused else .ok ⟨[UInt8.ofNat tile, UInt8.ofNat pino, UInt8.ofNat tp, UInt8.ofNat cur], [3, 1]⟩

/-- `TLM` and `PLT` are wanted. -/
def exCfg : Cfg := { flag := some .res, tlm := true, plt := some 16, size := 1100 }

theorem exTiles_ok : List.Forall₂ (fun t x => WTileOk exCfg exHd t x.1 x.2) exTiles exWants := by
  have h0 : WTileOk exCfg exHd (exTile []) [] [2] := ⟨rfl, by decide, by simp, by decide +kernel, ⟨2, rfl, by decide⟩, by decide⟩
  have h1 : WTileOk exCfg exHd (exTile (exChanges.map Change.poc)) exChanges [1, 2] :=
    ⟨rfl, by decide, by decide, by decide +kernel, ⟨1, rfl, by decide⟩, by decide⟩
  exact .cons h0 (.cons h0 (.cons h1 (.cons h0 (.cons h0 (.cons h0 .nil)))))

theorem exCoder_ok : CoderOk exCfg exCoder := by
  refine ⟨fun tile pino tp cur room x h => ?_, fun tile pino tp cur room o h => ?_, fun tile pino tp cur room o h r hr => ?_⟩
  · unfold exCoder at h
    split at h <;> cases h
    rfl
  · unfold exCoder at h
    split at h <;> cases h
    simp only [List.length_cons, List.length_nil]
    omega
  · unfold exCoder at h
    split at h <;> cases h
    cases hr
    exact ⟨show [3, 1].sum < 2 ^ 32 by decide, 2, by decide, show [3, 1].length ≤ 2 by decide, by decide⟩

/-- The hypotheses of the theorems above are met by this case: -/
example : Writable exHd ∧ SharedStyle exHd ∧ (∀ t ∈ exHd.tccps, t.qntsty ≤ 2) ∧
    Suits { reduce := 1, ihdrW := 40, ihdrH := 30 } exHd ∧ exHd.rsiz ≠ 4 ∧
    exTiles.length = cdiv (exHd.x1 - exHd.tx0) exHd.tdx * cdiv (exHd.y1 - exHd.ty0) exHd.tdy ∧
    (∀ x ∈ exWants, x.1.length < 32 ∧ ∀ y ∈ x.1, y.Valid exHd.comps.length exHd.numlayers) ∧
    (∀ tile room o, exCoder tile 0 0 0 room = .ok o → o.data ≠ []) := by
  refine ⟨exHd_ok, Hdr.exEnc_ok.2.1, by decide, ⟨Hdr.exEnc_ok.2.2.reduce, Hdr.exEnc_ok.2.2.size⟩, by decide, by decide, ?_, fun tile room o h => ?_⟩
  · have h1 : ∀ y ∈ exChanges, y.Valid exHd.comps.length exHd.numlayers := by
      intro y hy
      simp only [exChanges, List.mem_cons, List.not_mem_nil, or_false] at hy
      rcases hy with rfl | rfl <;> exact ⟨by decide, by decide, by decide, by decide, by decide, by decide⟩
    intro x hx
    simp only [exWants, List.mem_cons, List.not_mem_nil, or_false] at hx
    rcases hx with rfl | rfl | rfl | rfl | rfl | rfl <;> first | exact ⟨by decide, h1⟩ | exact ⟨by decide, by simp⟩
  · unfold exCoder at h
    split at h <;> cases h
    simp

/-- it is written, -/
example : (writeFile exCfg exHd exCoder exTiles [] []).map (fun f => (f.length, f.drop (f.length - 27))) =
    .ok (516, be 2 0xFF90 ++ be 2 10 ++ be 2 5 ++ be 4 25 ++ be 1 1 ++ be 1 2 ++ [0xFF, 0x58, 0, 5, 0, 3, 1, 0xFF, 0x93, 5, 0, 1, 1] ++
      be 2 0xFFD9) := by
  decide +kernel

/-- and read. -/
example : ((writeFile exCfg exHd exCoder exTiles [] []) >>= fun f => seen (decodeFile { reduce := 1 } true false none f)) =
    .ok [(0, [0, 0, 0, 0, 0, 0, 1, 1], 0), (1, [1, 0, 0, 0, 1, 0, 1, 1], 0), (2, [2, 0, 0, 0, 2, 1, 0, 1, 2, 1, 1, 2], 2),
      (3, [3, 0, 0, 0, 3, 0, 1, 1], 0), (4, [4, 0, 0, 0, 4, 0, 1, 1], 0), (5, [5, 0, 0, 0, 5, 0, 1, 1], 0)] := by
  decide +kernel

/-- Packet lengths: three packets of 300, 5 and 2^32 - 306 bytes. -/
example : writePlt [300, 5, 2 ^ 32 - 306] = .ok ([0xFF, 0x58, 0, 11] ++ [0, 0x82, 0x2C, 5, 0x8F, 0xFF, 0xFF, 0xFD, 0x4E]) := by
  decide +kernel

/-! ## What is not so -/

/-- The same image in one tile. -/
def exOne : Enc := { exHd with tdx := 64, tdy := 64 }

/-- A file of one tile with these changes; `old` is what `TLM`'s buffer held before. -/
def exWrite (tlm : Bool) (code : Coder) (pocs : List Pi.Poc) (old : List UInt8) : R (List UInt8) :=
  writeFile { exCfg with tlm := tlm } exOne code [exTile pocs] [] old

/-- **C67** needs changes that ask for no more resolutions than there are. With one that asks for resolutions up to 4 of two,
and a tile-part for each resolution, the parts are counted before the change is cut down to what there is: two parts
are written that say there are four, and the last two of the four entries of `TLM` are whatever was in memory. -/
theorem C67_too_many_resolutions :
    (exWrite true exCoder [Change.poc ⟨0, 0, 3, 4, 2, 2⟩] [1, 2, 3, 4, 5, 6, 7, 8, 9, 10]).map (fun f => f.drop 85) =
      .ok (be 2 0xFF55 ++ be 2 24 ++ [0, 0x50] ++ [0, 0, 0, 0, 36, 0, 0, 0, 0, 25] ++ [1, 2, 3, 4, 5, 6, 7, 8, 9, 10] ++
        Hdr.stdRgns 2 0 exOne.tccps ++ Hdr.stdCom exOne.comment ++
        exPart 0 36 0 4 (Hdr.segment 0xFF5F (Change.bytes 2 ⟨0, 0, 3, 4, 2, 2⟩) ++ Hdr.segment 0xFF58 [0, 3, 1]) [0, 0, 0, 0] ++
        exPart 0 25 1 4 (Hdr.segment 0xFF58 [0, 3, 1]) [0, 0, 1, 1] ++ be 2 0xFFD9) := by
  decide +kernel

/-- **C67** needs fewer than 32 changes: 32 are written, but not read. -/
theorem C67_many_changes_refused :
    ((exWrite false exCoder (List.replicate 32 (Change.poc ⟨0, 0, 3, 1, 2, 2⟩)) []).map fun f => f.length) = .ok 1130 ∧
    ((exWrite false exCoder (List.replicate 32 (Change.poc ⟨0, 0, 3, 1, 2, 2⟩)) []) >>= fun f => seen (decodeFile {} true false none f)) =
      .error .refused := by
  constructor <;> decide +kernel

/-- **C67** needs a byte in each tile: a tile for which the coder gives nothing makes a file that is not read. -/
theorem C67_empty_tile_refused :
    ((exWrite false (fun _ _ _ _ _ => .ok ⟨[], []⟩) [] []) >>= fun f => seen (decodeFile {} true false none f)) = .error .refused := by
  decide +kernel

/-- The same with 257 layers, each in a tile-part of its own: `C67` needs at most 255 parts in a tile. -/
def exMany : R (List UInt8) :=
  writeFile { flag := some .lay, size := 60000 } { exOne with numlayers := 257, prg := 0 } exCoder
    [{ exTile [] with par := { (exTile []).par with numlayers := 257, prg := 0 } }] [] []

/-- **C67** needs at most 255 tile-parts in a tile: with 257, numbers and counts are cut to a byte without complaint, and of
what the coder gave the decoder gets the first two parts only. -/
theorem C67_many_parts_lost :
    exMany.map (fun f => f.length) = .ok 4728 ∧ (exMany >>= fun f => seen (decodeFile {} true false none f)) = .ok [(0, [0, 0, 0, 0, 0, 0, 1, 1], 0)] := by
  constructor <;> decide +kernel

end Jp2.Tp

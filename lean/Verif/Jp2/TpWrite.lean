import Verif.Jp2.Tp
import Verif.Jp2.PiEnc
/-!
# Writing tile-parts

File: `openjp2-rs/src/j2k.rs`. How the encoder writes a codestream: the main header (`Hdr.writeHeader`), for every tile its
tile-parts with the marker segments in their headers, `EOC`, and last the tile-part lengths into the `TLM` segment of the main
header.

Not modelled: the tile coder `opj_tcd_encode_tile`, which is a parameter here; the size of the buffer for a tile
(`opj_j2k_update_rates`) and the room set aside for `PLT`, which are parameters too; the stream (writing always succeeds);
memory allocation (always succeeds). Numbers of bytes are below 2^32 because the size of the buffer is, so the `u32`
counters do not wrap.
-/
namespace Jp2.Tp
open Jp2.Hdr (R be refuseIf Enc)

/-- Bytes written over others, from `pos` on. -/
def overwrite (f : List UInt8) (pos : Nat) (b : List UInt8) : List UInt8 := f.take pos ++ b ++ f.drop (pos + b.length)

/-- What the tile coder gives for one tile-part: its bytes, and the sizes of its packets. -/
structure Coded where
  data : List UInt8
  packets : List Nat

/-- `opj_tcd_encode_tile` as it is called by `opj_j2k_write_sod` (`j2k.rs:4181-4195`): the tile, the progression
(`cur_pino`), the tile-part within the progression (`tp_num`) and within the tile (`cur_tp_num`), the bytes it may write. -/
abbrev Coder := (tile pino tp cur room : Nat) → R Coded

/-- The parameters that matter here. `flag`: where new tile-parts are wanted; `tlm`: `TLM` is wanted; `plt`: `PLT` is
wanted, and the bytes set aside for it (`m_reserved_bytes_for_PLT`); `size`: the buffer of a tile
(`m_encoded_tile_size`). -/
structure Cfg where
  flag : Option Pi.Letter := none
  tlm : Bool := false
  plt : Option Nat := none
  size : Nat

/-- A tile: its parameters, among them the progression order changes, and what setting up its iterators computes. -/
structure WTile where
  par : Pi.TileParams
  info : Pi.TileInfo

/-- `opj_j2k_get_num_tp` for all progressions of a tile (`j2k.rs:839-901`). -/
def counts (flag : Option Pi.Letter) (t : WTile) : R (List Nat) :=
  match (Pi.encPocs t.par t.info).mapM (Pi.numTp flag t.par.prg) with
  | none => .error .panic
  | some l => .ok l

/-- The number of tile-parts of a tile, `m_nb_tile_parts` (`j2k.rs:968-977`). -/
def tileTotal (flag : Option Pi.Letter) (t : WTile) : R Nat := do
  let l ← counts flag t
  return l.sum % 2 ^ 32

/-- `opj_j2k_calculate_tp`, `j2k.rs:917-985`: the number of tile-parts of all tiles. -/
def allTotal (flag : Option Pi.Letter) : List WTile → R Nat
  | [] => .ok 0
  | t :: ts => do
    let l ← counts flag t
    let n ← allTotal flag ts
    return (l.sum + n) % 2 ^ 32

/-- `opj_int_min` of two `u32` taken as `i32`. -/
def min32 (a b : Nat) : Nat := if (a + 2 ^ 31) % 2 ^ 32 < (b + 2 ^ 31) % 2 ^ 32 then a else b

/-- The end of the loop of `opj_j2k_write_poc_in_memory` (`j2k.rs:2531-2544`): the changes are cut down to the layers,
resolutions and components there are, after they have been written. -/
def clampPoc (layers numres csiz : Nat) (p : Pi.Poc) : Pi.Poc :=
  { p with layno1 := min32 p.layno1 layers, resno1 := min32 p.resno1 numres, compno1 := min32 p.compno1 csiz }

/-- One entry of `POC` (`j2k.rs:2516-2530`). -/
def writeChange (csiz : Nat) (p : Pi.Poc) : List UInt8 :=
  be 1 p.resno0 ++ be (Hdr.room csiz) p.compno0 ++ be 2 p.layno1 ++ be 1 p.resno1 ++ be (Hdr.room csiz) p.compno1 ++
    be 1 (p.prg % 2 ^ 32).toNat

/-- The bytes of `opj_j2k_write_poc_in_memory`, `j2k.rs:2478-2549`. -/
def writePoc (csiz : Nat) (l : List Pi.Poc) : List UInt8 :=
  be 2 0xFF5F ++ be 2 (2 + (5 + 2 * Hdr.room csiz) * l.length) ++ l.flatMap (writeChange csiz)

/-- `opj_j2k_write_sot`, `j2k.rs:3551-3597`. The four bytes of `Psot` are left as they are in the buffer; here they are 0. -/
def writeSot (tile part nb avail : Nat) : R (List UInt8) := do
  refuseIf (avail < 12)
  return be 2 0xFF90 ++ be 2 10 ++ be 2 tile ++ [0, 0, 0, 0] ++ be 1 part ++ be 1 nb

/-- The loop over the groups behind the lowest one (`j2k.rs:4038-4043`), with `k` places left in the array. -/
def moreGroups : Nat → Nat → R (List UInt8)
  | _, 0 => .ok []
  | 0, _ + 1 => .error .panic
  | k + 1, n + 1 => do
    let l ← moreGroups k ((n + 1) / 128)
    return UInt8.ofNat ((n + 1) % 128 + 128) :: l

/-- The groups of a packet size, lowest first (`j2k.rs:4030-4043`). -/
def groups (n : Nat) : R (List UInt8) := do
  let l ← moreGroups 4 (n / 128)
  return UInt8.ofNat (n % 128) :: l

/-- A `PLT` segment of length `l` with number `z`. -/
def pltSegment (z l : Nat) (body : List UInt8) : List UInt8 := be 2 0xFF58 ++ be 2 l ++ be 1 z ++ body

/-- The loop of `opj_j2k_write_plt_in_memory` (`j2k.rs:4029-4080`): `z` and `l` are the number and length of the segment being
written, `body` its sizes so far, `done` the segments before it. -/
def packLoop : List Nat → Nat → Nat → List UInt8 → List UInt8 → R (List UInt8)
  | [], z, l, done, body => .ok (done ++ pltSegment z l body)
  | s :: ss, z, l, done, body => do
    let v ← groups s
    if 65535 < l + v.length then do
      refuseIf (z = 255)
      packLoop ss (z + 1) (3 + v.length) (done ++ pltSegment z l body) v.reverse
    else packLoop ss z (l + v.length) done (body ++ v.reverse)

/-- `opj_j2k_write_plt_in_memory`, `j2k.rs:4012-4088`. -/
def writePlt (sizes : List Nat) : R (List UInt8) := packLoop sizes 0 3 [] []

/-- The `PLT` segments, put before `SOD` (`j2k.rs:4198-4236`): it is a panic if they do not fit into the bytes set aside. -/
def pltPart (plt : Option Nat) (sizes : List Nat) : R (List UInt8) :=
  match plt with
  | none => .ok []
  | some r => do
    let m ← writePlt sizes
    if r < m.length then .error .panic else return m

/-- `opj_j2k_write_sod`, `j2k.rs:4101-4240`. A tile coder that writes more than it may is a panic. -/
def writeSod (plt : Option Nat) (code : Nat → R Coded) (avail : Nat) : R (List UInt8 × List UInt8) := do
  refuseIf (avail < 4)
  refuseIf (avail - 4 < plt.getD 0)
  let c ← code (avail - 4 - plt.getD 0)
  if avail - 4 - plt.getD 0 < c.data.length then .error .panic
  else do
    let m ← pltPart plt c.packets
    return (m, be 2 0xFF93 ++ c.data)

/-- Where writing a tile has got to: the number of the next tile-part, the bytes free in the buffer, the tile-parts, and the
buffer of the `TLM` entries of all tiles. -/
structure WState where
  cur : Nat
  avail : Nat
  out : List UInt8
  tlm : List UInt8

/-- `opj_j2k_update_tlm`, `j2k.rs:425-461`. -/
def tlmEntry (total tile len : Nat) : List UInt8 := be (if total ≤ 255 then 1 else 2) tile ++ be 4 len

/-- One tile-part: `opj_j2k_write_first_tile_part`, `j2k.rs:12655-12730`, with `poc` the bytes of `POC` if there is one, and
the bodies of the two loops of `opj_j2k_write_all_tile_parts`, `j2k.rs:12766-12828` and `12838-12895`, which do the same
without `POC`. Writing `SOT` or `POC` past the end of the buffer is an error; there is no check that `POC` fits. -/
def writePart (c : Cfg) (code : Coder) (total tile nb pino tp : Nat) (poc : List UInt8) (s : WState) : R WState := do
  let sot ← writeSot tile s.cur nb s.avail
  if s.avail < 12 + poc.length then .error .panic
  else do
    let (m, sod) ← writeSod c.plt (code tile pino tp s.cur) (s.avail - 12 - poc.length)
    let b := sot ++ (poc ++ (m ++ sod))
    return { cur := s.cur + 1, avail := s.avail - b.length, out := s.out ++ overwrite b 6 (be 4 b.length),
             tlm := if c.tlm then s.tlm ++ tlmEntry total tile b.length else s.tlm }

/-- `n` tile-parts of progression `pino` from `tp` on (`j2k.rs:12765`, `12837`). -/
def writeRun (c : Cfg) (code : Coder) (total tile nb pino : Nat) : Nat → Nat → WState → R WState
  | 0, _, s => .ok s
  | n + 1, tp, s => do
    let s ← writePart c code total tile nb pino tp [] s
    writeRun c code total tile nb pino n (tp + 1) s

/-- The progressions from `pino` on (`j2k.rs:12832-12900`). -/
def writeRuns (c : Cfg) (code : Coder) (total tile nb : Nat) : List Nat → Nat → WState → R WState
  | [], _, s => .ok s
  | n :: l, pino, s => do
    let s ← writeRun c code total tile nb pino n 0 s
    writeRuns c code total tile nb l (pino + 1) s

/-- The number of resolutions of the first component, `(*l_tcp).tccps.offset(0)` (`j2k.rs:2499`). -/
def numres0 (e : Enc) : Nat := (e.tccps.head?.map (·.numres)).getD 0

/-- Whether the first tile-part of a tile gets a `POC` (`j2k.rs:12690-12693`): none in the cinema profiles. -/
def hasPoc (e : Enc) (t : WTile) : Bool := !(decide (3 ≤ e.rsiz) && decide (e.rsiz ≤ 6)) && !t.par.pocs.isEmpty

/-- The tile after its `POC` has been written. -/
def clamped (e : Enc) (t : WTile) : WTile :=
  if hasPoc e t then { t with par := { t.par with pocs := t.par.pocs.map (clampPoc e.numlayers (numres0 e) e.comps.length) } } else t

/-- `opj_j2k_post_write_tile`, `j2k.rs:12520-12580`, with `opj_j2k_pre_write_tile` (`12337-12370`),
`opj_j2k_write_first_tile_part` and `opj_j2k_write_all_tile_parts` (`12736-12905`). -/
def writeTile (c : Cfg) (e : Enc) (code : Coder) (total tile : Nat) (t : WTile) (tlm : List UInt8) : R (List UInt8 × List UInt8) := do
  let nb ← tileTotal c.flag t
  let s ← writePart c code total tile nb 0 0 (if hasPoc e t then writePoc e.comps.length t.par.pocs else []) ⟨0, c.size, [], tlm⟩
  let ns ← counts c.flag (clamped e t)
  match ns with
  | [] => .error .panic
  | n :: ns => do
    let s ← writeRun c code total tile nb 0 (n - 1) 1 s
    let s ← writeRuns c code total tile nb ns 1 s
    return (s.out, s.tlm)

/-- The loop of `opj_j2k_encode`, `j2k.rs:12188-12270`, over the tiles. -/
def writeTiles (c : Cfg) (e : Enc) (code : Coder) (total : Nat) : List WTile → Nat → List UInt8 → R (List UInt8 × List UInt8)
  | [], _, tlm => .ok ([], tlm)
  | t :: ts, tile, tlm => do
    let (a, tlm) ← writeTile c e code total tile t tlm
    let (b, tlm) ← writeTiles c e code total ts (tile + 1) tlm
    return (a ++ b, tlm)

/-- `m_tlm_start`: how much has been written when `opj_j2k_write_tlm` begins (`j2k.rs:3509`). -/
def tlmStart (e : Enc) (junk : List UInt8) : R Nat := do
  let cod ← Hdr.writeCod e
  let qcd ← Hdr.writeQcd e
  let cocs ← Hdr.writeCocs e junk 1 e.tccps.tail
  let qccs ← Hdr.writeQccs e 1 e.tccps.tail
  return (be 2 0xFF4F ++ Hdr.writeSiz e ++ cod ++ qcd ++ cocs ++ qccs).length

/-- `opj_j2k_write_updated_tlm`, `j2k.rs:12914-12951`. The buffer has been allocated for six bytes per tile-part
(`j2k.rs:4782`) and not been cleared: behind the entries it holds `old`. Writing more entries than there is room for is a
panic. -/
def updateTlm (e : Enc) (junk old : List UInt8) (total : Nat) (tlm f : List UInt8) : R (List UInt8) := do
  if 6 * total < tlm.length then .error .panic
  else do
    let start ← tlmStart e junk
    return overwrite f (start + 6) ((tlm ++ old).take ((if total ≤ 255 then 5 else 6) * total))

/-- `opj_j2k_start_compress`, `opj_j2k_encode` and `opj_j2k_end_compress` (`j2k.rs:12167-12335`): the whole codestream. -/
def writeFile (c : Cfg) (e : Enc) (code : Coder) (ts : List WTile) (junk old : List UInt8) : R (List UInt8) := do
  let total ← allTotal c.flag ts
  let h ← Hdr.writeHeader { e with tlm := if c.tlm then some total else none } junk
  let (b, tlm) ← writeTiles c e code total ts 0 []
  let f := h ++ (b ++ be 2 0xFFD9)
  if c.tlm then updateTlm e junk old total tlm f else return f

end Jp2.Tp

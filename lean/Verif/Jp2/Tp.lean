import Verif.Jp2.Hdr
/-!
# Tile-parts: `openjp2-rs/src/j2k.rs`

How the decoder goes through the tile-parts after the main header, collects the bytes of each tile and hands
the tiles over for decoding: `opj_j2k_read_tile_header`, `opj_j2k_read_sot`, `opj_j2k_read_sod`,
`opj_j2k_read_ppt`, `opj_j2k_merge_ppt`, `opj_j2k_read_plt`, `opj_j2k_need_nb_tile_parts_correction`,
`opj_j2k_decode_tile`, `opj_j2k_decode_tiles`.

The marker handlers shared with the main header are those of `Hdr`, run on the parameters of the tile. The
stream is a file: bytes, the position of the file, and the offset the library believes in, which are not the
same after a short read. Not modelled: the codestream index, messages, allocation failure, and the decoding of
a tile itself (`opj_tcd_init_decode_tile`, `opj_tcd_decode_tile`, `opj_j2k_update_image_data`), which is taken
to succeed: what is recorded of it is the input it gets.
-/
namespace Jp2.Tp
open Jp2.Hdr (R Fail User refuseIf)

/-! ## The stream -/

/-- A `Stream` over a file, `stream.rs:246-266`: the file, `pos` of the file and `m_byte_offset`;
`m_stream_length` is the length of the file. -/
structure Src where
  data : List UInt8
  pos : Nat
  off : Nat
deriving DecidableEq, Repr

/-- `get_bytes_left`, `stream.rs:392-403`. The `assert!` there is `off ≤ length`. -/
def Src.left (s : Src) : R Nat := if s.off ≤ s.data.length then .ok (s.data.length - s.off) else .error .panic

/-- `opj_stream_read_data` on a file, `stream.rs:344-365`: a short read consumes the rest of the file, returns
no byte and leaves the offset (see `C36`). `none` is the short read. -/
def Src.read (s : Src) (n : Nat) : Option (List UInt8) × Src :=
  if n ≤ s.data.length - s.pos then
    (some ((s.data.drop s.pos).take n), { s with pos := s.pos + n, off := s.off + n })
  else (none, { s with pos := max s.pos s.data.length })

/-- `opj_stream_skip`, `stream.rs:405-433`; `false` for a refusal, which moves nothing. -/
def Src.skip (s : Src) (n : Nat) : Bool × Src :=
  if 0 < s.data.length ∧ s.data.length < s.off + n then (false, s)
  else (true, { s with pos := s.pos + n, off := s.off + n })

/-- `opj_stream_seek`, `stream.rs:435-448`: the file moves by the difference of the offsets. -/
def Src.seek (s : Src) (o : Nat) : R Src :=
  if s.pos + o < s.off then .error .refused else .ok { s with pos := s.pos + o - s.off, off := o }

/-- `opj_stream_read_data` into the header buffer, where a short read is an error. The check against
`get_number_byte_left` before a larger buffer is allocated (`j2k.rs:9169-9180`) refuses no more than the read does,
the offset never being ahead of the file. -/
def Src.load (s : Src) (n : Nat) (buf : List UInt8) : R (List UInt8 × Src) :=
  match s.read n with
  | (some bs, s) => .ok (bs ++ buf.drop n, s)
  | (none, _) => .error .refused

/-! ## The decoder -/

/-- The states of `J2KState` after the main header, without the bit `DATA` (`ready` below). -/
inductive St where
  | tphsot
  | tph
  | neoc
  | eoc
deriving DecidableEq, Repr

/-- `opj_tcp_t` of a tile: the coding parameters, `m_current_tile_part_number`, `m_nb_tile_parts`, `m_data`
with the bytes read (`m_data_size` many) and the size of the allocation, `ppt`, `ppt_markers`, `ppt_buffer`. -/
structure Tile where
  tcp : Hdr.Tcp
  part : Int := -1
  nb : Nat := 0
  data : Option (List UInt8) := none
  cap : Nat := 0
  ppt : Bool := false
  ppts : List (Option (List UInt8)) := []
  pptBuf : Option (List UInt8) := none
deriving DecidableEq, Repr

/-- The decoder: what the main header left, the tiles, and the fields of `m_decoder`. `only` is
`m_tile_ind_to_dec`; `wx0`, `wx1`, `wy0`, `wy1` are `m_start_tile_x` and the others. -/
structure Dec where
  h : Hdr.Dec
  tiles : List Tile
  cur : Nat := 0
  st : St := .tphsot
  ready : Bool := false
  sot : Nat := 0
  last : Bool := false
  can : Bool := false
  skip : Bool := false
  corr : Bool := false
  checked : Bool := false
  only : Option Nat := none
  wx0 : Nat := 0
  wx1 : Nat
  wy0 : Nat := 0
  wy1 : Nat
  strict : Bool := true
deriving DecidableEq, Repr

/-- `opj_j2k_copy_default_tcp_and_create_tcd`, `j2k.rs:8463-8640`: every tile starts with the parameters of the
main header. The window is that of `opj_j2k_read_siz` (`j2k.rs:1424-1427`), all tiles. -/
def start (h : Hdr.Dec) (strict : Bool) : Dec :=
  { h := h, tiles := List.replicate (h.tw * h.th) { tcp := h.tcp }, wx1 := h.tw, wy1 := h.th, strict := strict }

/-- `tcps.offset(i)`. -/
def tileAt (d : Dec) (i : Nat) : R Tile :=
  match d.tiles[i]? with
  | some t => .ok t
  | none => .error .oob

/-- Update of the current tile. -/
def put (d : Dec) (t : Tile) : Dec := { d with tiles := d.tiles.set d.cur t }

/-! ## `SOT` -/

/-- `opj_j2k_get_sot_values`, `j2k.rs:3609-3643`. -/
def sotValues (p : List UInt8) (size : Nat) : R (Nat × Nat × Nat × Nat) := do
  refuseIf (size ≠ 8)
  let (tile, p) ← Hdr.next 2 p
  let (len, p) ← Hdr.next 4 p
  let (part, p) ← Hdr.next 1 p
  let (num, _) ← Hdr.next 1 p
  return (tile, len, part, num)

/-- Whether the data of tile `i` are skipped, `j2k.rs:3795-3807`. -/
def skipped (d : Dec) (i : Nat) : Bool :=
  match d.only with
  | none => i % d.h.tw < d.wx0 || d.wx1 ≤ i % d.h.tw || i / d.h.tw < d.wy0 || d.wy1 ≤ i / d.h.tw
  | some k => i != k

/-- The number of tile-parts of the tile after `SOT`, `j2k.rs:3751-3777`: `num` is `TNsot`. -/
def newNb (d : Dec) (t : Tile) (part num : Nat) : R Nat := do
  refuseIf (t.nb ≠ 0 ∧ t.nb ≤ part)
  if num ≠ 0 then
    let num := num + (if d.corr then 1 else 0)
    refuseIf (num ≤ part)
    return num
  else return t.nb

/-- `opj_j2k_read_sot`, `j2k.rs:3652-3960`. -/
def readSot (d : Dec) (p : List UInt8) (size : Nat) : R Dec := do
  let (tile, len, part, num) ← sotValues p size
  refuseIf (d.h.tw * d.h.th ≤ tile)
  let t ← tileAt d tile
  refuseIf ((d.only = none ∨ d.only = some tile) ∧ t.part + 1 ≠ part)
  refuseIf (len ≠ 0 ∧ len < 14 ∧ len ≠ 12)
  let last := d.last || len == 0
  let nb ← newNb d t part num
  let d := { d with
    cur := tile, last := last, can := d.can || (nb != 0 && nb == part + 1),
    sot := if last then 0 else (len + (2 ^ 32 - 12)) % 2 ^ 32, st := .tph, skip := skipped d tile }
  return put d { t with part := part, nb := nb }

/-! ## The other markers of a tile-part header -/

/-- The loop of `opj_j2k_read_plt`, `j2k.rs:2965-2977`: the length under construction, as `u32`. -/
def pltLoop : Nat → List UInt8 → Nat → R Nat
  | 0, _, acc => .ok acc
  | n + 1, p, acc => do
    let (v, p) ← Hdr.next 1 p
    if v &&& 0x80 ≠ 0 then pltLoop n p ((acc ||| (v &&& 0x7F)) * 128 % 2 ^ 32) else pltLoop n p 0

/-- `opj_j2k_read_plt`, `j2k.rs:2940-2983`: the lengths are checked and dropped. -/
def readPlt (d : Dec) (p : List UInt8) (size : Nat) : R Dec := do
  refuseIf (size < 1)
  let (_, p) ← Hdr.next 1 p
  let acc ← pltLoop (size - 1) p 0
  refuseIf (acc ≠ 0)
  return d

/-- `opj_j2k_read_ppt`, `j2k.rs:3280-3370`. -/
def readPpt (d : Dec) (p : List UInt8) (size : Nat) : R Dec := do
  refuseIf (size < 2)
  refuseIf (d.h.ppm = true)
  let t ← tileAt d d.cur
  let (z, p) ← Hdr.next 1 p
  let ms := t.ppts ++ List.replicate (z + 1 - t.ppts.length) none
  match ms[z]? with
  | none => .error .oob
  | some (some _) => .error .refused
  | some none =>
    let data ← Hdr.bytesAt (size - 1) p
    return put d { t with ppt := true, ppts := ms.set z (some data) }

/-- `J2KMarker::handler` in the state `TPH`, `j2k.rs:395-431`, for the handlers shared with the main header: they
work on the parameters of the current tile, e.g. `j2k.rs:1705-1710`. -/
def handleShared (u : User) (m : Nat) (d : Dec) (p : List UInt8) (size : Nat) : R Dec := do
  let t ← tileAt d d.cur
  let h ← Hdr.handle u m { d.h with tcp := t.tcp } p size
  return put { d with h := { h with tcp := d.h.tcp } } { t with tcp := h.tcp }

/-- `m_state & states() != NONE`, `j2k.rs:366-393`, in the states after the main header. -/
def allowed (st : St) (m : Nat) : Bool :=
  match st with
  | .tphsot => m == 0xFF90
  | .tph => !([0xFF90, 0xFF51, 0xFF55, 0xFF57, 0xFF60, 0xFF91, 0xFF63, 0xFF78, 0xFF50, 0xFF59].contains m)
  | .neoc => false
  | .eoc => false

/-- `J2KMarker::handler`, `j2k.rs:395-431`. -/
def handle (u : User) (m : Nat) (d : Dec) (p : List UInt8) (size : Nat) : R Dec :=
  if m = 0xFF90 then readSot d p size
  else if m = 0xFF58 then readPlt d p size
  else if m = 0xFF61 then readPpt d p size
  else handleShared u m d p size

/-- The marker after a segment, `j2k.rs:9265-9300`: after a skipped `SOT`, the rest of the tile-part is skipped
and the marker is `SOD`; otherwise it is read. -/
def nextMarker (d : Dec) (s : Src) : R (Nat × Dec × Src) :=
  if d.skip then
    match s.skip d.sot with
    | (true, s) => .ok (0xFF93, d, s)
    | (false, _) => .error .refused
  else do
    let (buf, s) ← s.load 2 d.h.buf
    let (m, _) ← Hdr.next 2 buf
    return (m, { d with h := { d.h with buf := buf } }, s)

/-- A segment of a tile-part header whose marker and length have been read, `j2k.rs:9129-9300`. -/
def segment (u : User) (m len : Nat) (d : Dec) (s : Src) : R (Nat × Dec × Src) := do
  let d := { d with sot := if d.st = St.tph then (d.sot + (2 ^ 32 - (len + 2) % 2 ^ 32)) % 2 ^ 32 else d.sot }
  refuseIf (allowed d.st m = false)
  let (buf, s) ← s.load (len - 2) d.h.buf
  let d ← handle u m { d with h := { d.h with buf := buf } } buf (len - 2)
  nextMarker d s

/-- The inner loop of `opj_j2k_read_tile_header`, `j2k.rs:9083-9302`, up to `SOD` or the end of the file. Every round
takes two bytes; running out of `fuel` is a panic, which does not happen. -/
def header (u : User) : Nat → Nat → Dec → Src → R (Nat × Dec × Src)
  | 0, _, _, _ => .error .panic
  | fuel + 1, m, d, s => do
    if m = 0xFF93 then return (m, d, s)
    let left ← s.left
    if left = 0 then return (m, { d with st := .neoc }, s)
    let (buf, s) ← s.load 2 d.h.buf
    let d := { d with h := { d.h with buf := buf } }
    let (len, _) ← Hdr.next 2 buf
    refuseIf (len < 2)
    let left ← s.left
    if m = 0x8080 ∧ left = 0 then return (m, { d with st := .neoc }, s)
    let (m, d, s) ← segment u m len d s
    header u fuel m d s

/-! ## `SOD` -/

/-- The length of the data, `j2k.rs:4264-4276`. -/
def sodLength (d : Dec) (left : Nat) : Nat :=
  if d.last then (left + (2 ^ 32 - 2)) % 2 ^ 32 else if 2 ≤ d.sot then d.sot - 2 else d.sot

/-- The room for `n` more bytes and the margin of two, `j2k.rs:4284-4352`: the size of the allocation. -/
def sodRoom (d : Dec) (t : Tile) (n left : Nat) : R Nat := do
  refuseIf (left < n ∧ d.strict = true)
  refuseIf (2 ^ 32 - 1 - 2 < n)
  match t.data with
  | none => return n + 2
  | some old => do
    refuseIf (2 ^ 32 - 1 - 2 - n < old.length)
    return old.length + n + 2

/-- Store what was read at the end of the data, `j2k.rs:4391-4412`. -/
def sodStore (d : Dec) (t : Tile) (n cap : Nat) (s : Src) : R (Dec × Src) := do
  let old := t.data.getD []
  if cap < old.length + n then .error .oob
  else
    match s.read n with
    | (some bs, s) => return ({ put d { t with data := some (old ++ bs), cap := cap } with st := .tphsot }, s)
    | (none, s) => return ({ put d { t with data := some old, cap := cap } with st := .neoc }, s)

/-- `opj_j2k_read_sod`, `j2k.rs:4247-4415`. -/
def readSod (d : Dec) (s : Src) : R (Dec × Src) := do
  let t ← tileAt d d.cur
  let left ← s.left
  let n := sodLength d left
  let d := { d with sot := n }
  if n = 0 then return ({ d with st := .tphsot }, s)
  else
    let cap ← sodRoom d t n left
    sodStore d t n cap s

/-! ## One tile -/

/-- The loop of `opj_j2k_need_nb_tile_parts_correction`, `j2k.rs:8953-9044`: whether another tile-part of tile `tile`
follows whose number is the announced number of tile-parts; `back` is the offset to return to. -/
def needCorrection (tile back : Nat) : Nat → Src → R (Bool × Src)
  | 0, _ => .error .panic
  | fuel + 1, s => do
    match s.read 2 with
    | (none, s) => do
      let s ← s.seek back
      return (false, s)
    | (some b, s) => do
      let (m, _) ← Hdr.next 2 b
      if m ≠ 0xFF90 then
        let s ← s.seek back
        return (false, s)
      else
        let (b, s) ← s.load 2 []
        let (len, _) ← Hdr.next 2 b
        refuseIf (len ≠ 10)
        let (b, s) ← s.load 8 []
        let (i, tot, part, num) ← sotValues b 8
        if i = tile then
          let s ← s.seek back
          return (part == num, s)
        else if tot < 14 then
          let s ← s.seek back
          return (false, s)
        else
          match s.skip (tot - 12) with
          | (false, s) => do
            let s ← s.seek back
            return (false, s)
          | (true, s) => needCorrection tile back fuel s

/-- The correction of the number of tile-parts, `j2k.rs:9334-9365`. -/
def correct (d : Dec) : Dec :=
  { d with can := false, corr := true,
           tiles := d.tiles.map fun t => { t with nb := if t.nb ≠ 0 then (t.nb + 1) % 2 ^ 32 else t.nb } }

/-- After the header of a tile-part: the data, or the end of a skipped part, `j2k.rs:9310-9382`. -/
def body (d : Dec) (s : Src) : R (Dec × Src) :=
  if d.skip then return ({ d with skip := false, can := false, st := .tphsot }, s)
  else do
    let (d, s) ← readSod d s
    if d.can = true ∧ d.checked = false then
      let (need, s) ← needCorrection d.cur s.off (s.data.length + 1) s
      let d := { d with checked := true }
      return (if need then correct d else d, s)
    else return (d, s)

/-- The tile-part of a file without `EOC` that is taken for the last one, `j2k.rs:9392-9419`. -/
def spot6 (d : Dec) : Option Nat :=
  if d.cur + 1 = d.h.tw * d.h.th then d.tiles.findIdx? fun t => t.part == 0 && t.nb == 0 else none

/-- The outer loop of `opj_j2k_read_tile_header`, `j2k.rs:9081-9430`. -/
def gather (u : User) : Nat → Nat → Dec → Src → R (Nat × Dec × Src)
  | 0, _, _, _ => .error .panic
  | fuel + 1, m, d, s => do
    if d.can = true ∨ m = 0xFFD9 then return (m, d, s)
    let (m, d, s) ← header u (s.data.length + 1) m d s
    let left ← s.left
    if left = 0 ∧ d.st = .neoc then return (m, d, s)
    let (d, s) ← body d s
    if d.can = true then return (m, d, s)
    match s.read 2 with
    | (some b, s) => do
      let buf := b ++ d.h.buf.drop 2
      let (m, _) ← Hdr.next 2 buf
      gather u fuel m { d with h := { d.h with buf := buf } } s
    | (none, s) =>
      match spot6 d with
      | some i => return (0xFFD9, { d with cur := i, st := .eoc }, s)
      | none => .error .refused

/-- The first tile with data from tile `i` on, `j2k.rs:9440-9448`. -/
def firstWithData (d : Dec) (i : Nat) : Nat := i + (d.tiles.drop i).findIdx fun t => t.data.isSome

/-- `opj_j2k_merge_ppt`, `j2k.rs:3410-3466`: the packed headers in the order of their index. -/
def mergePpt (t : Tile) : R Tile := do
  refuseIf (t.pptBuf.isSome = true)
  if t.ppt = false then return t
  let out := t.ppts.flatMap fun m => m.getD []
  refuseIf (out = [])
  return { t with ppts := [], pptBuf := some out }

/-- The end of `opj_j2k_read_tile_header`, `j2k.rs:9431-9480`: `goOn` is false when no tile is left. -/
def choose (m : Nat) (d : Dec) : R (Bool × Dec) := do
  let d := if m = 0xFFD9 ∧ ¬ (d.st = .eoc) then { d with cur := 0, st := .eoc } else d
  let d := if d.can then d else { d with cur := firstWithData d d.cur }
  if d.can = false ∧ d.cur = d.h.tw * d.h.th then return (false, d)
  let t ← tileAt d d.cur
  let t ← mergePpt t
  return (true, { put d t with ready := true })

/-- `opj_j2k_read_tile_header`, `j2k.rs:9051-9437`. -/
def readTileHeader (u : User) (d : Dec) (s : Src) : R (Bool × Dec × Src) := do
  refuseIf (d.ready = true ∨ (d.st ≠ .eoc ∧ d.st ≠ .tphsot))
  let (m, d, s) ← gather u (s.data.length + 2) (if d.st = .eoc then 0xFFD9 else 0xFF90) d s
  let (goOn, d) ← choose m d
  return (goOn, d, s)

/-- What the decoding of a tile gets: the tile, its coding parameters, the data of its tile-parts and the packed packet
headers. -/
structure Job where
  tile : Nat
  tcp : Hdr.Tcp
  data : List UInt8
  ppt : Option (List UInt8)
deriving DecidableEq, Repr

/-- The marker after a decoded tile, `j2k.rs:9505-9540`. -/
def afterTile (d : Dec) (s : Src) : R (Dec × Src) := do
  let left ← s.left
  if left = 0 ∧ d.st = .neoc then return (d, s)
  if d.st = .eoc then return (d, s)
  match s.read 2 with
  | (none, _) => .error .refused
  | (some b, s) => do
    let (m, _) ← Hdr.next 2 b
    if m = 0xFFD9 then return ({ d with cur := 0, st := .eoc }, s)
    else if m ≠ 0xFF90 then
      let left ← s.left
      refuseIf (left ≠ 0)
      return ({ d with st := .neoc }, s)
    else return (d, s)

/-- `opj_j2k_decode_tile`, `j2k.rs:9441-9540`, with a decoding of the tile that succeeds. -/
def decodeTile (d : Dec) (i : Nat) (s : Src) : R (Job × Dec × Src) := do
  refuseIf (d.ready = false ∨ i ≠ d.cur)
  let t ← tileAt d i
  match t.data with
  | none => .error .refused
  | some data => do
    let (d, s) ← afterTile { d with can := false, ready := false } s
    return (⟨i, t.tcp, data, t.pptBuf⟩, d, s)

/-- `opj_j2k_tcp_data_destroy`, `j2k.rs:8857-8865`. -/
def destroy (d : Dec) (i : Nat) : R Dec := do
  let t ← tileAt d i
  return { d with tiles := d.tiles.set i { t with data := none } }

/-- The loop of `opj_j2k_decode_tiles`, `j2k.rs:11593-11640`, at most `n` more tiles. The short cut for data kept from
an earlier call (`j2k.rs:11594-11600`) is not taken in a first call. With a single tile the data may be kept at
the end (`j2k.rs:11618-11626`), which is not observable in this call. -/
def tilesLoop (u : User) : Nat → Dec → Src → R (List Job)
  | 0, _, _ => .ok []
  | n + 1, d, s => do
    let (goOn, d, s) ← readTileHeader u d s
    if goOn = false then return []
    let i := d.cur
    let (job, d, s) ← decodeTile d i s
    let d ← destroy d i
    let left ← s.left
    if left = 0 ∧ d.st = .neoc then return [job]
    let rest ← tilesLoop u n d s
    return job :: rest

/-- `opj_j2k_decode_tiles`, `j2k.rs:11537-11645`: the tiles in the order they are decoded. `whole` says that the image
is one tile at the origin and all of it is wanted (`j2k.rs:11549-11556`); `index` of the tile is 0 if `read_tile_header`
did not set it. -/
def decodeTiles (u : User) (whole : Bool) (d : Dec) (s : Src) : R (List Job) :=
  if whole then do
    let (goOn, d, s) ← readTileHeader u d s
    let (job, _, _) ← decodeTile d (if goOn then d.cur else 0) s
    return [job]
  else tilesLoop u (d.h.tw * d.h.th) d s

/-- The tiles wanted: columns `x0` up to `x1` and rows `y0` up to `y1` of the grid of tiles, as `opj_j2k_set_decode_area`
(`j2k.rs:9892-10110`) leaves them. -/
structure Window where
  x0 : Nat
  x1 : Nat
  y0 : Nat
  y1 : Nat
deriving DecidableEq, Repr

/-- The decoder with a window. -/
def withWindow (d : Dec) : Option Window → Dec
  | none => d
  | some w => { d with wx0 := w.x0, wx1 := w.x1, wy0 := w.y0, wy1 := w.y1 }

/-- A whole codestream from a file: `opj_read_header`, an area if one is set, and `opj_decode`, `j2k.rs:8868-8895` and
`11722-11800`. The tiles as they are handed over for decoding. -/
def decodeFile (u : User) (strict whole : Bool) (w : Option Window) (file : List UInt8) : R (List Job) := do
  let (h, rest) ← Hdr.readHeader u file
  decodeTiles u whole (withWindow (start h strict) w) ⟨file, file.length - rest.length, file.length - rest.length⟩

end Jp2.Tp

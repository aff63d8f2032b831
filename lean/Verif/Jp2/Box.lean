import Verif.Jp2.Hdr
/-!
# The JP2 file format: `openjp2-rs/src/jp2.rs`

The boxes around a codestream: reading (`opj_jp2_read_header` up to the call of `opj_j2k_read_header`, and the
readers of all boxes) and writing (`opj_jp2_setup_encoder` as far as it fills in the boxes, the box writers, and
the file they make). A call ends early as in `Hdr.lean`: refused (`return 0`), a panic, or an access outside a
buffer. Messages and allocation failure are not modelled; after a refusal nothing of the codec is used again, so
the values set before it are not kept.
-/
namespace Jp2.Box
open Hdr (Fail R refuseIf be)

/-! ## Data -/

/-- `opj_jp2_cdef_info`. -/
structure Def where
  cn : Nat
  typ : Nat
  asoc : Nat
deriving DecidableEq, Repr

/-- `opj_jp2_cmap_comp`. -/
structure Map where
  cmp : Nat
  mtyp : Nat
  pcol : Nat
deriving DecidableEq, Repr

/-- `opj_jp2_pclr` (`types.rs:281-288`); a channel is its size in bits and its sign. -/
structure Pclr where
  nrEntries : Nat
  nrChannels : Nat
  channel : List (Nat × Nat)
  entries : List Nat
  cmap : List Map
deriving DecidableEq, Repr

/-- `opj_jp2` (`types.rs:238-268`) with `opj_jp2_color`, and the fields of the codestream decoder the boxes set
(`ihdr_w`, `ihdr_h`). `comps` holds the `bpcc` of each component. -/
structure Codec where
  w : Nat := 0
  h : Nat := 0
  bpc : Nat := 0
  c : Nat := 0
  unkC : Nat := 0
  ipr : Nat := 0
  meth : Nat := 0
  approx : Nat := 0
  enumcs : Nat := 0
  precedence : Nat := 0
  brand : Nat := 0
  minversion : Nat := 0
  cl : List Nat := []
  comps : List Nat := []
  state : Nat := 0
  imgState : Nat := 0
  hasJp2h : Bool := false
  hasIhdr : Bool := false
  icc : Option (List UInt8) := none
  iccLen : Nat := 0
  cdef : Option (List Def) := none
  pclr : Option Pclr := none
  hasColr : Bool := false
  ihdrW : Nat := 0
  ihdrH : Nat := 0
deriving DecidableEq, Repr

/-! ## Box types, `consts.rs:261-330` -/

def tJP : Nat := 0x6A502020
def tFTYP : Nat := 0x66747970
def tJP2H : Nat := 0x6A703268
def tIHDR : Nat := 0x69686472
def tCOLR : Nat := 0x636F6C72
def tJP2C : Nat := 0x6A703263
def tPCLR : Nat := 0x70636C72
def tCMAP : Nat := 0x636D6170
def tCDEF : Nat := 0x63646566
def tBPCC : Nat := 0x62706363
def tJP2 : Nat := 0x6A703220

/-- `Jp2BoxType::is_file_header`, `consts.rs:290-297`. -/
def isFile (t : Nat) : Bool := t == tJP || t == tFTYP || t == tJP2H

/-- `Jp2BoxType::is_image_header`, `consts.rs:299-309`. -/
def isImage (t : Nat) : Bool := t == tIHDR || t == tCOLR || t == tBPCC || t == tPCLR || t == tCMAP || t == tCDEF

/-! ## Reading -/

/-- `buf.read_uN::<BigEndian>().expect(…)` on a slice: the value and the rest; a panic if the slice is too short. -/
def rd (nb : Nat) (p : List UInt8) : R (Nat × List UInt8) :=
  if nb ≤ p.length then .ok (Cio.fromBe (p.take nb), p.drop nb) else .error .panic

/-- `Jp2BoxHeader` as read: `length`, `ty` (as the number in the file), `header_length`. -/
structure Head where
  length : Nat
  ty : Nat
  hlen : Nat
deriving DecidableEq, Repr

/-- `Jp2BoxHeader::read`, `jp2.rs:58-97`: the header, unless it cannot be read, and what is left of the input.
A read that cannot be met in full uses up the input. -/
def readHead (maxSize : Nat) (p : List UInt8) : Option Head × List UInt8 :=
  if p.length < 8 then (none, [])
  else
    let len := Cio.fromBe (p.take 4)
    let ty := Cio.fromBe ((p.drop 4).take 4)
    let q := p.drop 8
    if len = 0 then
      if maxSize = 0 then (none, q)
      else if 2 ^ 32 - 1 < maxSize then (none, q)
      else (some ⟨maxSize, ty, 8⟩, q)
    else if len = 1 then
      if q.length < 8 then (none, [])
      else if Cio.fromBe (q.take 4) ≠ 0 then (none, q.drop 8)
      else (some ⟨Cio.fromBe ((q.drop 4).take 4), ty, 16⟩, q.drop 8)
    else (some ⟨len, ty, 8⟩, q)

/-- `opj_jp2_read_ihdr`, `jp2.rs:171-236`. -/
def readIhdr (j : Codec) (buf : List UInt8) : R Codec :=
  if j.comps ≠ [] then .ok j
  else do
    refuseIf (buf.length ≠ 14)
    let (h, p) ← rd 4 buf
    let (w, p) ← rd 4 p
    let (n, p) ← rd 2 p
    refuseIf (h < 1 ∨ w < 1 ∨ n < 1)
    refuseIf (16384 < n)
    let (bpc, p) ← rd 1 p
    let (c, p) ← rd 1 p
    let (unkC, p) ← rd 1 p
    let (ipr, _) ← rd 1 p
    return { j with h := h, w := w, comps := List.replicate n 0, bpc := bpc, c := c, unkC := unkC, ipr := ipr,
                    ihdrW := w, ihdrH := h, hasIhdr := true }

/-- The loop of `opj_jp2_read_bpcc`, `jp2.rs:298-301`. -/
def readBytes : Nat → List UInt8 → R (List Nat)
  | 0, _ => .ok []
  | n + 1, p => do
    let (v, p) ← rd 1 p
    let rest ← readBytes n p
    return v :: rest

/-- `opj_jp2_read_bpcc`, `jp2.rs:286-303`. -/
def readBpcc (j : Codec) (buf : List UInt8) : R Codec := do
  refuseIf (buf.length ≠ j.comps.length)
  let vs ← readBytes j.comps.length buf
  return { j with comps := vs }

/-- The channels of `opj_jp2_read_pclr`, `jp2.rs:661-666`. -/
def readChannels : Nat → List UInt8 → R (List (Nat × Nat) × List UInt8)
  | 0, p => .ok ([], p)
  | n + 1, p => do
    let (v, p) ← rd 1 p
    let (rest, p) ← readChannels n p
    return ((v % 128 + 1, v / 128) :: rest, p)

/-- Bytes of an entry, `jp2.rs:670-674`. -/
def entryBytes (size : Nat) : Nat := min ((size + 7) / 8) 4

/-- One row of the palette, `jp2.rs:668-681`: `None` when the data is cut short. -/
def readRow : List (Nat × Nat) → List UInt8 → R (List Nat × List UInt8)
  | [], p => .ok ([], p)
  | c :: cs, p => do
    refuseIf (p.length < entryBytes c.1)
    let (v, p) ← rd (entryBytes c.1) p
    let (rest, p) ← readRow cs p
    return (v :: rest, p)

/-- The rows of the palette, `jp2.rs:667-682`, one after the other. -/
def readRows (cs : List (Nat × Nat)) : Nat → List UInt8 → R (List Nat)
  | 0, _ => .ok []
  | n + 1, p => do
    let (row, p) ← readRow cs p
    let rest ← readRows cs n p
    return row ++ rest

/-- `nr_channels * nr_channels` on bytes (`jp2.rs:659`): a panic when checked, of no effect otherwise. -/
def squareU8 (m : Mode) (n : Nat) : R Unit := if m = .checked ∧ 256 ≤ n * n then .error .panic else .ok ()

/-- `opj_jp2_read_pclr`, `jp2.rs:630-686`. -/
def readPclr (m : Mode) (j : Codec) (buf : List UInt8) : R Codec := do
  refuseIf (j.pclr.isSome)
  refuseIf (buf.length < 3)
  let (n, p) ← rd 2 buf
  refuseIf (n = 0 ∨ 1024 < n)
  let (k, p) ← rd 1 p
  refuseIf (k = 0)
  refuseIf (p.length < k)
  squareU8 m k
  let (cs, p) ← readChannels k p
  let es ← readRows cs n p
  return { j with pclr := some ⟨n, k, cs, es, []⟩ }

/-- The loop of `opj_jp2_read_cmap`, `jp2.rs:717-727`. -/
def readMaps : Nat → List UInt8 → R (List Map)
  | 0, _ => .ok []
  | n + 1, p => do
    let (cmp, p) ← rd 2 p
    let (mtyp, p) ← rd 1 p
    let (pcol, p) ← rd 1 p
    let rest ← readMaps n p
    return ⟨cmp, mtyp, pcol⟩ :: rest

/-- `opj_jp2_read_cmap`, `jp2.rs:696-730`. -/
def readCmap (j : Codec) (buf : List UInt8) : R Codec :=
  match j.pclr with
  | none => .error .refused
  | some pc => do
    refuseIf (pc.cmap ≠ [])
    refuseIf (buf.length < pc.nrChannels * 4)
    let ms ← readMaps pc.nrChannels buf
    return { j with pclr := some { pc with cmap := ms } }

/-- The loop of `opj_jp2_read_cdef`, `jp2.rs:831-846`. -/
def readDefs : Nat → List UInt8 → R (List Def)
  | 0, _ => .ok []
  | n + 1, p => do
    let (cn, p) ← rd 2 p
    let (typ, p) ← rd 2 p
    let (asoc, p) ← rd 2 p
    let rest ← readDefs n p
    return ⟨cn, typ, asoc⟩ :: rest

/-- `opj_jp2_read_cdef`, `jp2.rs:801-849`. -/
def readCdef (j : Codec) (buf : List UInt8) : R Codec := do
  refuseIf (j.cdef.isSome)
  refuseIf (buf.length < 2)
  let (n, p) ← rd 2 buf
  refuseIf (n = 0)
  refuseIf (p.length < n * 6)
  let ds ← readDefs n p
  return { j with cdef := some ds }

/-- `u32::to_ne_bytes` on a little-endian machine. -/
def ne (v : Nat) : List UInt8 := (be 4 v).reverse

/-- The CIELab parameters kept as a colour profile, `jp2.rs:894-945`: seven numbers if exactly 28 bytes are left. -/
def cielab (p : List UInt8) : R (List UInt8) :=
  if p.length = 28 then do
    let (rl, p) ← rd 4 p
    let (ol, p) ← rd 4 p
    let (ra, p) ← rd 4 p
    let (oa, p) ← rd 4 p
    let (rb, p) ← rd 4 p
    let (ob, p) ← rd 4 p
    let (il, _) ← rd 4 p
    return ne 14 ++ ne 0 ++ ne rl ++ ne ol ++ ne ra ++ ne oa ++ ne rb ++ ne ob ++ ne il
  else if p ≠ [] then
    .ok (ne 14 ++ ne 0x44454600 ++ ne 0 ++ ne 0 ++ ne 0 ++ ne 0 ++ ne 0 ++ ne 0 ++ ne 0x443530)
  else
    .ok (ne 14 ++ ne 0 ++ ne 0 ++ ne 0 ++ ne 0 ++ ne 0 ++ ne 0 ++ ne 0x443530)

/-- The enumerated colour space of `opj_jp2_read_colr`, `jp2.rs:875-947`. -/
def readEnum (j : Codec) (p : List UInt8) : R Codec := do
  refuseIf (p.length < 4)
  let (e, p) ← rd 4 p
  if e = 14 then do
    let icc ← cielab p
    return { j with enumcs := e, icc := some icc, iccLen := 0, hasColr := true }
  else return { j with enumcs := e, hasColr := true }

/-- `opj_jp2_read_colr`, `jp2.rs:857-959`. -/
def readColr (j : Codec) (buf : List UInt8) : R Codec := do
  refuseIf (buf.length < 3)
  if j.hasColr then return j
  else do
    let (meth, p) ← rd 1 buf
    let (prec, p) ← rd 1 p
    let (approx, p) ← rd 1 p
    let j := { j with meth := meth, precedence := prec, approx := approx }
    if meth = 1 then readEnum j p
    else if meth = 2 then return { j with iccLen := p.length % 2 ^ 32, icc := some p, hasColr := true }
    else return j

/-- `opj_jp2_read_jp`, `jp2.rs:1637-1660`. -/
def readJp (j : Codec) (buf : List UInt8) : R Codec := do
  refuseIf (j.state ≠ 0)
  refuseIf (buf.length ≠ 4)
  let (v, _) ← rd 4 buf
  refuseIf (v ≠ 0x0D0A870A)
  return { j with state := j.state ||| 1 }

/-- The compatibility list of `opj_jp2_read_ftyp`, `jp2.rs:1696-1703`. -/
def readCl : Nat → List UInt8 → R (List Nat)
  | 0, _ => .ok []
  | n + 1, p => do
    let (v, p) ← rd 4 p
    let rest ← readCl n p
    return v :: rest

/-- `opj_jp2_read_ftyp`, `jp2.rs:1668-1706`. -/
def readFtyp (j : Codec) (buf : List UInt8) : R Codec := do
  refuseIf (j.state ≠ 1)
  refuseIf (buf.length < 8)
  let (br, p) ← rd 4 buf
  let (mv, p) ← rd 4 p
  refuseIf (p.length % 4 ≠ 0)
  let cl ← readCl (p.length / 4) p
  return { j with brand := br, minversion := mv, cl := cl, state := j.state ||| 2 }

/-- `read_content` for the boxes of the image header, `jp2.rs:104-140`. Any other box is ignored. -/
def readImage (m : Mode) (ty : Nat) (j : Codec) (buf : List UInt8) : R Codec :=
  if ty = tIHDR then readIhdr j buf
  else if ty = tCOLR then readColr j buf
  else if ty = tBPCC then readBpcc j buf
  else if ty = tPCLR then readPclr m j buf
  else if ty = tCDEF then readCdef j buf
  else if ty = tCMAP then readCmap j buf
  else .ok j

/-- One box inside `jp2h`, `jp2.rs:1776-1783`: boxes that do not belong to the image header only leave a mark. -/
def subBox (m : Mode) (h : Head) (j : Codec) (content : List UInt8) : R Codec :=
  if isImage h.ty then readImage m h.ty j content
  else .ok { j with imgState := j.imgState ||| 0x7FFFFFFF }

/-- The loop of `opj_jp2_read_jp2h`, `jp2.rs:1753-1787`: the codec and whether there was an `ihdr` box. -/
def readSubs (m : Mode) : Nat → Bool → Codec → List UInt8 → R (Codec × Bool)
  | 0, _, _, _ => .error .panic
  | fuel + 1, seen, j, buf =>
    if buf = [] then .ok (j, seen)
    else
      match readHead 0 buf with
      | (none, _) => .error .refused
      | (some h, p) => do
        refuseIf (h.length < h.hlen)
        refuseIf (p.length < h.length - h.hlen)
        let j ← subBox m h j (p.take (h.length - h.hlen))
        readSubs m fuel (seen || h.ty == tIHDR) j (p.drop (h.length - h.hlen))

/-- `opj_jp2_read_jp2h`, `jp2.rs:1742-1797`. -/
def readJp2h (m : Mode) (j : Codec) (buf : List UInt8) : R Codec := do
  refuseIf (j.state &&& 2 ≠ 2)
  let (j, seen) ← readSubs m (buf.length + 1) false { j with imgState := 0 } buf
  refuseIf (seen = false)
  return { j with state := j.state ||| 4, hasJp2h := true }

/-- `read_content`, `jp2.rs:104-140`. -/
def readContent (m : Mode) (ty : Nat) (j : Codec) (buf : List UInt8) : R Codec :=
  if ty = tJP then readJp j buf
  else if ty = tFTYP then readFtyp j buf
  else if ty = tJP2H then readJp2h m j buf
  else readImage m ty j buf

/-- The input stream: what is still to come, `m_byte_offset` and `m_stream_length` (0 if it was never told). -/
structure St where
  rest : List UInt8
  off : Nat
  len : Nat
deriving DecidableEq, Repr

/-- A stream on a file, whose length is known. -/
def St.file (data : List UInt8) : St := ⟨data, 0, data.length⟩

/-- `opj_stream_get_number_byte_left`, `stream.rs:392-403`. -/
def St.left (s : St) : R Nat :=
  if s.len < s.off then .error .panic else .ok (if s.len = 0 then 0 else s.len - s.off)

/-- The stream after some of it was used up, with `rest` left. -/
def St.to (s : St) (rest : List UInt8) : St := { s with rest := rest, off := s.off + (s.rest.length - rest.length) }

/-- `opj_stream_skip`, `stream.rs:405-433`; a skip past the end of a stream of unknown length leaves nothing. -/
def St.skip (s : St) (n : Nat) : Option St :=
  if 0 < s.len ∧ s.len < s.off + n then none else some { s with rest := s.rest.drop n, off := s.off + n }

/-- What a box at file level leads to: the loop goes on or ends. -/
inductive Next where
  | more (j : Codec) (s : St)
  | done (j : Codec) (s : St)
deriving DecidableEq, Repr

/-- A box of the file that is read, `jp2.rs:1504-1534`. -/
def fileBox (m : Mode) (h : Head) (j : Codec) (s : St) : R Next := do
  let left ← s.left
  refuseIf (left < h.length - h.hlen)
  refuseIf (s.rest.length < h.length - h.hlen)
  let j ← readContent m h.ty j (s.rest.take (h.length - h.hlen))
  return .more j (s.to (s.rest.drop (h.length - h.hlen)))

/-- A box of the image header met outside `jp2h` and in front of it, `jp2.rs:1484-1501`. -/
def misplaced (h : Head) (j : Codec) (s : St) : R Next :=
  match s.skip (h.length - h.hlen) with
  | none => .error .refused
  | some s => .ok (.more { j with state := j.state ||| 0x7FFFFFFF } s)

/-- A box of no known type, `jp2.rs:1535-1574`. -/
def otherBox (h : Head) (j : Codec) (s : St) : R Next := do
  refuseIf (j.state &&& 1 = 0)
  refuseIf (j.state &&& 2 = 0)
  let j := { j with state := j.state ||| 0x7FFFFFFF }
  match s.skip (h.length - h.hlen) with
  | none => if j.state &&& 8 ≠ 0 then return .done j s else .error .refused
  | some s => return .more j s

/-- The body of the loop of `opj_jp2_read_header_procedure` behind the header of a box, `jp2.rs:1457-1575`. -/
def oneBox (m : Mode) (h : Head) (j : Codec) (s : St) : R Next :=
  if h.ty = tJP2C then do
    refuseIf (j.state &&& 4 = 0)
    return .done { j with state := j.state ||| 8 } s
  else do
    refuseIf (h.length = 0)
    refuseIf (h.length < h.hlen)
    if isFile h.ty then fileBox m h j s
    else if isImage h.ty then
      if j.state &&& 4 ≠ 0 then fileBox m h j s else misplaced h j s
    else otherBox h j s

/-- `opj_jp2_read_header_procedure`, `jp2.rs:1449-1578`, with `Jp2BoxHeader::from_stream`, `:39-47`. -/
def readBoxes (m : Mode) : Nat → Codec → St → R (Codec × St)
  | 0, _, _ => .error .panic
  | fuel + 1, j, s => do
    let left ← s.left
    match readHead left s.rest with
    | (none, p) => return (j, s.to p)
    | (some h, p) =>
      match ← oneBox m h j (s.to p) with
      | .done j s => return (j, s)
      | .more j s => readBoxes m fuel j s

/-- `opj_jp2_read_header` up to the codestream, `jp2.rs:1799-1834`: the codec and the stream at the codestream. -/
def readFile (m : Mode) (j : Codec) (s : St) : R (Codec × St) := do
  let (j, s) ← readBoxes m (s.rest.length + 1) j s
  refuseIf (j.hasJp2h = false)
  refuseIf (j.hasIhdr = false)
  return (j, s)

/-- The main header of the codestream in a file: `opj_jp2_read_header`, `jp2.rs:1799-1836`. -/
def readHeader (u : Hdr.User) (s : St) : R (Codec × Hdr.Dec × List UInt8) := do
  let (j, s) ← readFile u.mode {} s
  let (d, rest) ← Hdr.readHeader { u with ihdrW := j.ihdrW, ihdrH := j.ihdrH } s.rest
  return (j, d, rest)

/-- `OPJ_CLRSPC_…` set on the image, `jp2.rs:1846-1858` (`openjpeg.rs`: unknown -1, sRGB 1, gray 2, sYCC 3, e-YCC 4,
CMYK 5). -/
def colorSpace (j : Codec) : Int :=
  if j.enumcs = 16 then 1 else if j.enumcs = 17 then 2 else if j.enumcs = 18 then 3
  else if j.enumcs = 24 then 4 else if j.enumcs = 12 then 5 else -1

/-! ## Writing -/

/-- A component of the image to encode, as far as the boxes depend on it. -/
structure Source where
  prec : Nat
  sgnd : Nat
  alpha : Nat
deriving DecidableEq, Repr

/-- The image to encode. -/
structure Image where
  x0 : Nat
  y0 : Nat
  x1 : Nat
  y1 : Nat
  colorSpace : Int
  iccLen : Nat
  comps : List Source
deriving DecidableEq, Repr

/-- Bit depth byte of a component, `jp2.rs:1221-1224, 1241-1243`. -/
def depthByte (c : Source) : Nat := ((c.prec + (2 ^ 32 - 1)) % 2 ^ 32 + c.sgnd * 128 % 2 ^ 32) % 2 ^ 32

/-- `enumcs` chosen for an image without a profile, `jp2.rs:1246-1262`; it keeps its old value for other colour spaces. -/
def enumOf (cs : Int) (old : Nat) : Nat := if cs = 1 then 16 else if cs = 2 then 17 else if cs = 3 then 18 else old

/-- Number of components marked as opacity, and the last of them (`jp2.rs:1266-1275`). -/
def alphas (cs : List Source) : List Nat := (List.range cs.length).filter fun i => (cs[i]?.map Source.alpha).getD 0 ≠ 0

/-- Colour channels of an enumerated space that can be given a `cdef` box (`jp2.rs:1277-1282`). -/
def colors (enumcs : Nat) : Option Nat := if enumcs = 16 ∨ enumcs = 18 then some 3 else if enumcs = 17 then some 1 else none

/-- One entry of the channel definition, `jp2.rs:1312-1332`. -/
def defOf (cs : List Source) (col i : Nat) : Def :=
  if i < col then ⟨i, 0, i + 1⟩ else if (cs[i]?.map Source.alpha).getD 0 ≠ 0 then ⟨i, 1, 0⟩ else ⟨i, 65535, 65535⟩

/-- The channel definition box the encoder makes, `jp2.rs:1266-1335`. -/
def cdefOf (cs : List Source) (enumcs : Nat) : Option (List Def) :=
  match alphas cs with
  | [a] =>
    match colors enumcs with
    | none => none
    | some col =>
      if cs.length < col + 1 then none
      else if a < col then none
      else some ((List.range cs.length).map (defOf cs col))
  | _ => none

/-- `opj_jp2_setup_encoder`, `jp2.rs:1177-1340`, on a new codec; the setting up of the codestream is `Hdr.Enc`. -/
def setup (im : Image) : R Codec := do
  refuseIf (im.comps.length < 1 ∨ 16384 < im.comps.length)
  match im.comps with
  | [] => .error .panic
  | c0 :: cs =>
    let d0 := (c0.prec + (2 ^ 32 - 1)) % 2 ^ 32
    let e := if im.iccLen ≠ 0 then 0 else enumOf im.colorSpace 0
    return {
      brand := tJP2, minversion := 0, cl := [tJP2]
      h := (im.y1 + 2 ^ 32 - im.y0) % 2 ^ 32
      w := (im.x1 + 2 ^ 32 - im.x0) % 2 ^ 32
      bpc := if cs.all (fun c => (c.prec + (2 ^ 32 - 1)) % 2 ^ 32 == d0) then depthByte c0 else 255
      c := 7, unkC := 0, ipr := 0
      comps := im.comps.map depthByte
      meth := if im.iccLen ≠ 0 then 2 else 1
      enumcs := e
      cdef := cdefOf im.comps e
      precedence := 0, approx := 0 }

/-- `Jp2BoxHeader::write` in front of a body, `jp2.rs:99-102`: the length counts the header. -/
def boxed (ty : Nat) (len : Nat) (body : List UInt8) : List UInt8 := be 4 len ++ be 4 ty ++ body

/-- `opj_jp2_write_ihdr`, `jp2.rs:242-262`. -/
def writeIhdr (j : Codec) : List UInt8 :=
  boxed tIHDR 22 (be 4 j.h ++ be 4 j.w ++ be 2 j.comps.length ++ be 1 j.bpc ++ be 1 j.c ++ be 1 j.unkC ++ be 1 j.ipr)

/-- `opj_jp2_write_bpcc`, `jp2.rs:267-275`. -/
def writeBpcc (j : Codec) : List UInt8 := boxed tBPCC (8 + j.comps.length) (j.comps.flatMap fun b => be 1 b)

/-- `opj_jp2_write_cdef`, `jp2.rs:307-327`. -/
def writeCdef (ds : List Def) : R (List UInt8) :=
  if ds = [] then .error .panic
  else .ok (boxed tCDEF (10 + ds.length * 6) (be 2 ds.length ++ ds.flatMap fun d => be 2 d.cn ++ be 2 d.typ ++ be 2 d.asoc))

/-- `opj_jp2_write_colr`, `jp2.rs:330-364`. -/
def writeColr (j : Codec) : R (List UInt8) :=
  if j.meth % 256 = 1 then
    .ok (boxed tCOLR 15 (be 1 j.meth ++ be 1 j.precedence ++ be 1 j.approx ++ be 4 j.enumcs))
  else if j.meth % 256 = 2 then
    if j.iccLen = 0 then .error .panic
    else .ok (boxed tCOLR (11 + j.iccLen) (be 1 j.meth ++ be 1 j.precedence ++ be 1 j.approx ++ j.icc.getD []))
  else .error .panic

/-- The `cdef` box, if there is one (`jp2.rs:1029-1031`). -/
def writeCdefIf : Option (List Def) → R (List UInt8)
  | none => .ok []
  | some ds => writeCdef ds

/-- `opj_jp2_write_jp2h`, `jp2.rs:1016-1058`. -/
def writeJp2h (j : Codec) : R (List UInt8) := do
  let bpcc := if j.bpc = 255 then writeBpcc j else []
  let colr ← writeColr j
  let cdef ← writeCdefIf j.cdef
  let body := writeIhdr j ++ bpcc ++ colr ++ cdef
  return boxed tJP2H (8 + body.length) body

/-- `opj_jp2_write_ftyp`, `jp2.rs:1067-1090`. -/
def writeFtyp (j : Codec) : List UInt8 :=
  boxed tFTYP (16 + 4 * j.cl.length) (be 4 j.brand ++ be 4 j.minversion ++ j.cl.flatMap fun v => be 4 v)

/-- `opj_jp2_write_jp`, `jp2.rs:1135-1154`. -/
def writeJp : List UInt8 := boxed tJP 12 (be 4 0x0D0A870A)

/-- `opj_jp2_default_validation`, `jp2.rs:1407-1440`, for a stream that can seek. -/
def valid (j : Codec) : Bool :=
  j.state == 0 && j.imgState == 0 && !j.cl.isEmpty && decide (0 < j.h) && decide (0 < j.w) &&
  j.comps.all (fun b => decide (b % 128 < 38)) && decide (0 < j.meth ∧ j.meth < 3)

/-- The file: `opj_jp2_start_compress` (validation, then `jP`, `ftyp`, `jp2h`, and 8 bytes skipped, `jp2.rs:1594-1626,
1894-1910`), the codestream, and the header of the `jp2c` box written into the gap by `opj_jp2_end_compress`
(`:1100-1126`). No `iptr` box (`jpip_on` is 0). -/
def writeFile (j : Codec) (codestream : List UInt8) : R (List UInt8) := do
  refuseIf (valid j = false)
  let jp2h ← writeJp2h j
  return writeJp ++ writeFtyp j ++ jp2h ++ boxed tJP2C ((8 + codestream.length) % 2 ^ 32) codestream

end Jp2.Box

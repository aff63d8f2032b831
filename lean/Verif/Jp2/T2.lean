import Verif.Jp2.Tgt
import Verif.Jp2.Math
import Verif.Jp2.T1
/-!
# Packets: `openjp2-rs/src/t2.rs`

One call of `opj_t2_encode_packet`, `opj_t2_decode_packet` or `opj_t2_skip_packet`. A call works on the precinct `precno` of
every band of one resolution; the model passes just these precincts, so the checks of `precno` against the number of precincts
are left out. Buffers are lists of bytes; a pointer into a code block's buffer is an offset. Index records (`cstr_info`,
`p_pack_info`), log messages and allocation failures are left out.
-/
namespace Jp2.T2
open Jp2.Bio Jp2.Tgt

/-- How a call can end early: a panic or an access outside an allocation, or `return 0`. -/
inductive Err where
  | panic
  | refused
deriving DecidableEq, Repr

/-- Result of a helper that can panic. -/
def ofOpt {α : Type} : Option α → Except Err α
  | none => .error .panic
  | some a => .ok a

/-! ## Encoder -/

/-- `opj_tcd_layer_t`; `off` stands for the pointer `data`, an offset into the block's bytes. -/
structure Layer where
  numpasses : Nat
  len : Nat
  off : Nat
deriving DecidableEq, Repr

/-- `opj_tcd_cblk_enc_t`; `data` are the bytes from the pointer `data` on. -/
structure EncCblk where
  data : List UInt8
  numbps : Nat
  passes : List T1.Pass
  layers : List Layer
  numpasses : Nat
  numlenbits : Nat

/-- `opj_tcd_precinct_t` with the encoder's blocks; `nodes` is the number of nodes of either tree, 0 for a null tree. -/
structure EncPrec where
  nodes : Nat
  incl : Mem Node
  imsb : Mem Node
  cblks : List EncCblk

/-- A band as one packet sees it. -/
structure EncBand where
  numbps : Int
  empty : Bool
  prec : EncPrec

/-- `x as i32` for a `u32`. -/
def asI32 (x : Nat) : Int := if x < 2 ^ 31 then x else (x : Int) - 2 ^ 32

/-- Overflow-checked `i32` arithmetic. -/
def chk (x : Int) : Option Int := if -2 ^ 31 ≤ x ∧ x < 2 ^ 31 then some x else none

/-- The block loop of `t2.rs:681-691`: the zero bit planes of every block. -/
def setImsb (numbps : Int) : Nat → List EncCblk → Mem Node → Option (Mem Node)
  | _, [], t => some t
  | k, c :: cs, t =>
    (chk (numbps - asI32 c.numbps)).bind fun v => (setvalue t k v).bind fun t => setImsb numbps (k + 1) cs t

/-- The body of `t2.rs:662-692` for one band that is not empty. -/
def startPrec (numbps : Int) (p : EncPrec) : Option EncPrec :=
  (reset p.nodes p.incl).bind fun incl =>
  (reset p.nodes p.imsb).bind fun imsb =>
  (setImsb numbps 0 p.cblks imsb).map fun imsb =>
  { p with incl := incl, imsb := imsb, cblks := p.cblks.map fun c => { c with numpasses := 0 } }

/-- `f` on the precincts of the bands that are not empty. -/
def onBands (f : Int → EncPrec → Option EncPrec) : List EncBand → Option (List EncBand)
  | [] => some []
  | b :: bs =>
    (if b.empty then some b else (f b.numbps b.prec).map fun p => { b with prec := p }).bind fun b =>
    (onBands f bs).map fun bs => b :: bs

/-- The first block loop of a band's header, `t2.rs:728-738`: a block contributing for the first time gets the number of the
layer as its value in the inclusion tree. -/
def setIncl (layno : Nat) : Nat → List EncCblk → Mem Node → Option (Mem Node)
  | _, [], t => some t
  | k, c :: cs, t =>
    (c.layers[layno]?).bind fun ly =>
    (if c.numpasses = 0 ∧ ly.numpasses ≠ 0 then setvalue t k (asI32 layno) else some t).bind fun t =>
    setIncl layno (k + 1) cs t

/-- The first loop over the passes of a layer, `t2.rs:770-796`: how much the length indicator has to grow. -/
def incrementLoop (nlb : Nat) : Nat → Nat → Int → List T1.Pass → Option Int
  | _, _, inc, [] => some inc
  | nump, len, inc, p :: l =>
    let nump := (nump + 1) % 2 ^ 32
    let len := (len + p.len) % 2 ^ 32
    if p.term ∨ l = [] then
      (Math.intFloorlog2 (asI32 len)).bind fun a =>
      (Math.intFloorlog2 (asI32 nump)).bind fun b =>
      incrementLoop nlb 0 0 (max inc ((a : Int) + 1 - (asI32 nlb + b))) l
    else incrementLoop nlb nump len inc l

/-- The second loop, `t2.rs:803-829`: the lengths. -/
def lengthsLoop (nlb : Nat) : Bio → Nat → Nat → List T1.Pass → Option Bio
  | s, _, _, [] => some s
  | s, nump, len, p :: l =>
    let nump := (nump + 1) % 2 ^ 32
    let len := (len + p.len) % 2 ^ 32
    if p.term ∨ l = [] then
      (Math.intFloorlog2 (asI32 nump)).bind fun b =>
      (write s len ((nlb + b) % 2 ^ 32)).bind fun s =>
      lengthsLoop nlb s 0 0 l
    else lengthsLoop nlb s nump len l

/-- The passes a layer adds, `t2.rs:770-776`; the encoder's array holds `c.passes`. -/
def layerPasses (c : EncCblk) (ly : Layer) : Option (List T1.Pass) :=
  if c.numpasses + ly.numpasses ≤ c.passes.length then some ((c.passes.drop c.numpasses).take ly.numpasses) else none

/-- The part of a block's header after the inclusion and zero bit plane information, `t2.rs:768-829`. -/
def encLengths (s : Bio) (nlb : Nat) (n : Nat) (ps : List T1.Pass) : Option (Bio × Nat) :=
  (putnumpasses s n).bind fun s =>
  (incrementLoop nlb 0 0 0 ps).bind fun inc =>
  (putcommacode s inc.toNat).bind fun s =>
  let nlb := (nlb + inc.toNat) % 2 ^ 32
  (lengthsLoop nlb s 0 0 ps).map fun s => (s, nlb)

/-- What the encoder's header loop carries. -/
structure EncSt where
  s : Bio
  incl : Mem Node
  imsb : Mem Node

/-- The header of one block, `t2.rs:742-832`. -/
def encBlock (layno k : Nat) (q : EncSt) (c : EncCblk) : Option (EncSt × EncCblk) :=
  (c.layers[layno]?).bind fun ly =>
  (if c.numpasses = 0 then (encode q.s q.incl k (asI32 ((layno + 1) % 2 ^ 32))).map fun (s, t) => { q with s := s, incl := t }
   else (putbit q.s (if ly.numpasses ≠ 0 then 1 else 0)).map fun s => { q with s := s }).bind fun q =>
  if ly.numpasses = 0 then some (q, c) else
  (if c.numpasses = 0 then (encode q.s q.imsb k 999).map fun (s, t) => ({ q with s := s, imsb := t }, 3)
   else some (q, c.numlenbits)).bind fun (q, nlb) =>
  (layerPasses c ly).bind fun ps =>
  (encLengths q.s nlb ly.numpasses ps).map fun (s, nlb) => ({ q with s := s }, { c with numlenbits := nlb })

/-- The second block loop of a band's header, `t2.rs:739-833`. -/
def encBlocks (layno : Nat) : Nat → EncSt → List EncCblk → Option (EncSt × List EncCblk)
  | _, q, [] => some (q, [])
  | k, q, c :: cs =>
    (encBlock layno k q c).bind fun (q, c) => (encBlocks layno (k + 1) q cs).map fun (q, cs) => (q, c :: cs)

/-- The header of one band, `t2.rs:726-833`. -/
def encPrec (layno : Nat) (s : Bio) (p : EncPrec) : Option (Bio × EncPrec) :=
  (setIncl layno 0 p.cblks p.incl).bind fun incl =>
  (encBlocks layno 0 ⟨s, incl, p.imsb⟩ p.cblks).map fun (q, cs) =>
  (q.s, { p with incl := q.incl, imsb := q.imsb, cblks := cs })

/-- The header of all bands, `t2.rs:707-836`. -/
def encBands (layno : Nat) : Bio → List EncBand → Option (Bio × List EncBand)
  | s, [] => some (s, [])
  | s, b :: bs =>
    (if b.empty then some (s, b) else (encPrec layno s b.prec).map fun (s, p) => (s, { b with prec := p })).bind fun (s, b) =>
    (encBands layno s bs).map fun (s, bs) => (s, b :: bs)

/-- The body of the blocks of one band, `t2.rs:886-934`, in the mode `FINAL_PASS`; `room` is `length`. -/
def bodyBlocks (layno : Nat) : Nat → List EncCblk → Except Err (List UInt8 × Nat × List EncCblk)
  | room, [] => .ok ([], room, [])
  | room, c :: cs => do
    let ly ← ofOpt (c.layers[layno]?)
    if ly.numpasses = 0 then
      let (out, room, cs) ← bodyBlocks layno room cs
      return (out, room, c :: cs)
    if room < ly.len then throw .refused
    if c.data.length < ly.off + ly.len then throw .panic
    let (out, room, cs) ← bodyBlocks layno (room - ly.len) cs
    return ((c.data.drop ly.off).take ly.len ++ out, room, { c with numpasses := (c.numpasses + ly.numpasses) % 2 ^ 32 } :: cs)

/-- The packet body, `t2.rs:877-938`. -/
def bodyBands (layno : Nat) : Nat → List EncBand → Except Err (List UInt8 × Nat × List EncBand)
  | room, [] => .ok ([], room, [])
  | room, b :: bs => do
    if b.empty then
      let (out, room, bs) ← bodyBands layno room bs
      return (out, room, b :: bs)
    let (o1, room, cs) ← bodyBlocks layno room b.prec.cblks
    let (o2, room, bs) ← bodyBands layno room bs
    return (o1 ++ o2, room, { b with prec := { b.prec with cblks := cs } } :: bs)

/-- The SOP marker segment, `t2.rs:634-657`. -/
def sop (packno : Nat) : List UInt8 := [0xFF, 0x91, 0, 4, UInt8.ofNat (packno >>> 8 &&& 0xFF), UInt8.ofNat (packno &&& 0xFF)]

/-- `opj_t2_encode_packet`, `t2.rs:604-945`: the bytes written to `dest` and the bands afterwards. -/
def encodePacket (csty packno layno : Nat) (bands : List EncBand) (dest : List UInt8) : Except Err (List UInt8 × List EncBand) := do
  if csty &&& 2 ≠ 0 ∧ dest.length < 6 then throw .refused
  let o1 := if csty &&& 2 ≠ 0 then sop packno else []
  let bands ← ofOpt (if layno = 0 then onBands startPrec bands else some bands)
  let s ← ofOpt (putbit (initEnc (dest.drop o1.length)) 1)
  let (s, bands) ← ofOpt (encBands layno s bands)
  let (s, ok) ← ofOpt (flush s)
  if ok = false then throw .refused
  let room := dest.length - o1.length - numbytes s
  if csty &&& 4 ≠ 0 ∧ room < 2 then throw .refused
  let o2 : List UInt8 := if csty &&& 4 ≠ 0 then [0xFF, 0x92] else []
  let (o3, _, bands) ← bodyBands layno (room - o2.length) bands
  return (o1 ++ s.mem.take (numbytes s) ++ o2 ++ o3, bands)

/-! ## Decoder -/

/-- `opj_tcd_seg_t`. -/
structure Seg where
  len : Nat := 0
  numpasses : Nat := 0
  realNumPasses : Nat := 0
  maxpasses : Nat := 0
  numnewpasses : Nat := 0
  newlen : Nat := 0
deriving DecidableEq, Repr

/-- `opj_tcd_cblk_dec_t`: `segs` is the allocated array (`m_current_max_segs` long), `chunks` the first `numchunks` chunks, by
content. -/
structure DecCblk where
  segs : List Seg := []
  numsegs : Nat := 0
  realNumSegs : Nat := 0
  numnewpasses : Nat := 0
  numlenbits : Nat := 0
  numbps : Nat := 0
  Mb : Nat := 0
  chunks : List (List UInt8) := []
deriving DecidableEq, Repr

/-- `opj_tcd_precinct_t` with the decoder's blocks. -/
structure DecPrec where
  nodes : Nat
  incl : Mem Node
  imsb : Mem Node
  cblks : List DecCblk

/-- A band as one packet sees it. -/
structure DecBand where
  numbps : Int
  empty : Bool
  prec : DecPrec

/-- `opj_t2_init_seg`, `t2.rs:1661-1712`. -/
def initSeg (segs : List Seg) (index cblksty : Nat) (first : Bool) : Option (List Seg) :=
  let segs := if segs.length < index + 1 then segs ++ List.replicate 10 ({} : Seg) else segs
  if segs.length ≤ index then none else
  (if cblksty &&& 4 ≠ 0 then some 1
   else if cblksty &&& 1 ≠ 0 then
     if first then some 10
     else if index = 0 then none
     else (segs[index - 1]?).map fun p => if p.maxpasses = 1 ∨ p.maxpasses = 10 then 2 else 1
   else some 109).map fun m =>
  segs.set index { maxpasses := m }

/-- The body of `t2.rs:1039-1060` for one band that is not empty. -/
def startDec (p : DecPrec) : Option DecPrec :=
  (reset p.nodes p.incl).bind fun incl =>
  (reset p.nodes p.imsb).map fun imsb =>
  { p with incl := incl, imsb := imsb, cblks := p.cblks.map fun c => { c with numsegs := 0, realNumSegs := 0 } }

def startDecBands : List DecBand → Option (List DecBand)
  | [] => some []
  | b :: bs =>
    (if b.empty then some b else (startDec b.prec).map fun p => { b with prec := p }).bind fun b =>
    (startDecBands bs).map fun bs => b :: bs

/-- The number of passes the next segment takes, `t2.rs:1243-1248` (high throughput, style bit 0x40) and `1293-1301`. -/
def takePasses (cblksty segno : Nat) (sg : Seg) (n : Int) : Int :=
  if cblksty &&& 0x40 ≠ 0 then (if segno = 0 then 1 else n)
  else min (asI32 ((2 ^ 32 + sg.maxpasses - sg.numpasses) % 2 ^ 32)) n

/-- The segment loops `t2.rs:1239-1289` and `1290-1342`. `n` is the `i32` of that name; the loop is cut off (`panic`) after
`fuel` turns. -/
def segLoop (cblksty nlb : Nat) : Nat → Bio → List Seg → Nat → Int → Except Err (Bio × List Seg)
  | 0, _, _, _, _ => .error .panic
  | fuel + 1, s, segs, segno, n => do
    let sg ← ofOpt (segs[segno]?)
    let m := takePasses cblksty segno sg n
    let mu := (m % 2 ^ 32).toNat
    let fl ← ofOpt (Math.uintFloorlog2 mu)
    let bits := (nlb + fl) % 2 ^ 32
    if 32 < bits then throw .refused
    let (v, s) ← ofOpt (read s bits)
    let segs := segs.set segno { sg with numnewpasses := mu, newlen := v }
    let n ← ofOpt (chk (n - m))
    if 0 < n then
      let segs ← ofOpt (initSeg segs (segno + 1) cblksty false)
      segLoop cblksty nlb fuel s segs (segno + 1) n
    else return (s, segs)

/-- Which segment new passes go to first, `t2.rs:1209-1238`: the segments and the index. -/
def firstSeg (cblksty : Nat) (c : DecCblk) : Option (List Seg × Nat) :=
  if c.numsegs = 0 then (initSeg c.segs 0 cblksty true).map fun segs => (segs, 0)
  else
    (c.segs[c.numsegs - 1]?).bind fun sg =>
    if sg.numpasses = sg.maxpasses then (initSeg c.segs c.numsegs cblksty false).map fun segs => (segs, c.numsegs)
    else some (c.segs, c.numsegs - 1)

/-- What the decoder's header loop carries. -/
structure DecSt where
  s : Bio
  incl : Mem Node
  imsb : Mem Node

/-- The zero bit planes of a block, `t2.rs:1182-1201`; `firstTrue` is the loop, bounded by 1001 turns (see `C30`). `numbps as u32 + 1`
panics when it overflows. -/
def readImsb (bandbps : Int) (k : Nat) (q : DecSt) (c : DecCblk) : Option (DecSt × DecCblk) :=
  (firstTrue 1001 0 q.s q.imsb k).bind fun (i, s, t) =>
  let nb : Nat := Int.toNat (bandbps % 2 ^ 32)
  if nb + 1 < 2 ^ 32 then
    (if (nb : Int) + 1 < i then (chk (bandbps + 1)).bind fun a => (chk (a - i)).map fun r => (r % 2 ^ 32).toNat
     else some (nb + 1 - i.toNat)).map fun r =>
    ({ q with s := s, imsb := t }, { c with Mb := nb, numbps := r, numlenbits := 3 })
  else none

/-- The header of one block, `t2.rs:1158-1344`. -/
def decBlock (cblksty layno : Nat) (bandbps : Int) (k : Nat) (q : DecSt) (c : DecCblk) : Except Err (DecSt × DecCblk) := do
  let (included, q) ← ofOpt (
    if c.numsegs = 0 then (decode q.s q.incl k (asI32 ((layno + 1) % 2 ^ 32))).map fun (b, s, t) => (b, { q with s := s, incl := t })
    else (read q.s 1).map fun (b, s) => (decide (b ≠ 0), { q with s := s }))
  if included = false then return (q, { c with numnewpasses := 0 })
  let (q, c) ← ofOpt (if c.numsegs = 0 then readImsb bandbps k q c else some (q, c))
  let (n, s) ← ofOpt (getnumpasses q.s)
  let (inc, s) ← ofOpt (getcommacode s)
  let nlb := (c.numlenbits + inc) % 2 ^ 32
  let (segs, segno) ← ofOpt (firstSeg cblksty c)
  let (s, segs) ← segLoop cblksty nlb 165 s segs segno n
  return ({ q with s := s }, { c with numnewpasses := n, numlenbits := nlb, segs := segs })

/-- The block loop of a band's header, `t2.rs:1154-1346`. -/
def decBlocks (cblksty layno : Nat) (bandbps : Int) : Nat → DecSt → List DecCblk → Except Err (DecSt × List DecCblk)
  | _, q, [] => .ok (q, [])
  | k, q, c :: cs => do
    let (q, c) ← decBlock cblksty layno bandbps k q c
    let (q, cs) ← decBlocks cblksty layno bandbps (k + 1) q cs
    return (q, c :: cs)

/-- The header of all bands, `t2.rs:1148-1351`. -/
def decBands (cblksty layno : Nat) : Bio → List DecBand → Except Err (Bio × List DecBand)
  | s, [] => .ok (s, [])
  | s, b :: bs => do
    if b.empty then
      let (s, bs) ← decBands cblksty layno s bs
      return (s, b :: bs)
    let (q, cs) ← decBlocks cblksty layno b.numbps 0 ⟨s, b.prec.incl, b.prec.imsb⟩ b.prec.cblks
    let (s, bs) ← decBands cblksty layno q.s bs
    return (s, { b with prec := { b.prec with incl := q.incl, imsb := q.imsb, cblks := cs } } :: bs)

/-- Does a two-byte marker stand at offset `i`? `t2.rs:1068-1076`, `1119-1130` and `1360-1371`. -/
def hasMarker (l : List UInt8) (i : Nat) (b : UInt8) : Bool := l[i]? = some 0xFF && l[i + 1]? = some b

/-- The length of the SOP marker segment skipped, `t2.rs:1066-1078`. -/
def sopLen (csty : Nat) (src : List UInt8) : Nat :=
  if csty &&& 2 ≠ 0 ∧ 6 ≤ src.length ∧ hasMarker src 0 0x91 then 6 else 0

/-- The length of the EPH marker skipped, `t2.rs:1117-1131` and `1358-1372`: `hdr` is the data the header is in, `n` the bytes
read from it. -/
def ephLen (csty : Nat) (hdr : List UInt8) (n : Nat) : Nat :=
  if csty &&& 4 ≠ 0 ∧ 2 ≤ hdr.length - n ∧ hasMarker hdr n 0x92 then 2 else 0

/-- What reading a packet header gives. -/
structure Header where
  present : Bool
  read : Nat
  packed : Option (List UInt8)
  bands : List DecBand

/-- The end of `opj_t2_read_packet_header`, `t2.rs:1112-1146` and `1352-1388`: where the data continues. -/
def endHeader (csty skip : Nat) (packed : Option (List UInt8)) (hdr : List UInt8) (n : Nat) (present : Bool) (bands : List DecBand) : Header :=
  let m := n + ephLen csty hdr n
  match packed with
  | none => ⟨present, skip + m, none, bands⟩
  | some _ => ⟨present, skip, some (hdr.drop m), bands⟩

/-- `opj_t2_read_packet_header`, `t2.rs:1002-1389`. `packed` is the data of the PPM or PPT markers, if there are any: then the
header comes from there. -/
def readHeader (csty cblksty layno : Nat) (packed : Option (List UInt8)) (bands : List DecBand) (src : List UInt8) : Except Err Header := do
  let bands ← ofOpt (if layno = 0 then startDecBands bands else some bands)
  let skip := sopLen csty src
  let hdr := packed.getD (src.drop skip)
  let (b, s) ← ofOpt (read (initDec hdr) 1)
  if b = 0 then
    let (s, _) ← ofOpt (inalign s)
    return endHeader csty skip packed hdr (numbytes s) false bands
  let (s, bands) ← decBands cblksty layno s bands
  let (s, ok) ← ofOpt (inalign s)
  if ok = false then throw .refused
  return endHeader csty skip packed hdr (numbytes s) true bands

/-- State while reading a packet body: the bytes left and `partial_buffer`. -/
structure BodySt where
  rest : List UInt8
  cut : Bool

/-- The segment loop of `opj_t2_read_packet_data`, `t2.rs:1446-1538`, cut off (`panic`) after `fuel` turns; `i` is the index of
`l_seg`. -/
def dataLoop (strict : Bool) : Nat → BodySt → DecCblk → Nat → Except Err (BodySt × DecCblk)
  | 0, _, _, _ => .error .panic
  | fuel + 1, q, c, i => do
    let sg ← ofOpt (c.segs[i]?)
    let np := (sg.numpasses + sg.numnewpasses) % 2 ^ 32
    let left := (2 ^ 32 + c.numnewpasses - sg.numnewpasses) % 2 ^ 32
    if q.rest.length < sg.newlen ∨ q.cut = true then
      if strict then throw .refused
      let c := { c with chunks := [], segs := c.segs.set i { sg with numpasses := np }, numnewpasses := left,
                        numsegs := if 0 < left then (c.numsegs + 1) % 2 ^ 32 else c.numsegs }
      return ({ q with cut := true }, c)
    let c := { c with chunks := c.chunks ++ [q.rest.take sg.newlen],
                      segs := c.segs.set i { sg with len := (sg.len + sg.newlen) % 2 ^ 32, numpasses := np, realNumPasses := np },
                      numnewpasses := left, numsegs := if 0 < left then (c.numsegs + 1) % 2 ^ 32 else c.numsegs }
    let q := { q with rest := q.rest.drop sg.newlen }
    if left = 0 then return (q, c)
    dataLoop strict fuel q c (i + 1)

/-- Which segment the data goes to first, `t2.rs:1433-1445` and `1592-1604`: the index and `numsegs`. -/
def dataSeg (c : DecCblk) : Option (Nat × Nat) :=
  if c.numsegs = 0 then some (0, 1)
  else (c.segs[c.numsegs - 1]?).map fun sg =>
    if sg.numpasses = sg.maxpasses then (c.numsegs, c.numsegs + 1) else (c.numsegs - 1, c.numsegs)

/-- One block of the packet body, `t2.rs:1422-1543`. -/
def dataBlock (strict : Bool) (q : BodySt) (c : DecCblk) : Except Err (BodySt × DecCblk) := do
  let c := if q.cut then { c with chunks := [] } else c
  if c.numnewpasses = 0 then return (q, c)
  let (i, ns) ← ofOpt (dataSeg c)
  let (q, c) ← dataLoop strict 165 q { c with numsegs := ns } i
  return (q, { c with realNumSegs := c.numsegs })

def dataBlocks (strict : Bool) : BodySt → List DecCblk → Except Err (BodySt × List DecCblk)
  | q, [] => .ok (q, [])
  | q, c :: cs => do
    let (q, c) ← dataBlock strict q c
    let (q, cs) ← dataBlocks strict q cs
    return (q, c :: cs)

def dataBands (strict : Bool) : BodySt → List DecBand → Except Err (BodySt × List DecBand)
  | q, [] => .ok (q, [])
  | q, b :: bs => do
    if b.empty then
      let (q, bs) ← dataBands strict q bs
      return (q, b :: bs)
    let (q, cs) ← dataBlocks strict q b.prec.cblks
    let (q, bs) ← dataBands strict q bs
    return (q, { b with prec := { b.prec with cblks := cs } } :: bs)

/-- `opj_t2_read_packet_data`, `t2.rs:1390-1554`: the number of bytes read and the bands. -/
def readData (strict : Bool) (bands : List DecBand) (src : List UInt8) : Except Err (Nat × List DecBand) := do
  let (q, bands) ← dataBands strict ⟨src, false⟩ bands
  return (if q.cut then src.length else src.length - q.rest.length, bands)

/-- `opj_t2_decode_packet`, `t2.rs:535-589`: the number of bytes read, the packed headers left and the bands. -/
def decodePacket (csty cblksty layno : Nat) (strict : Bool) (packed : Option (List UInt8)) (bands : List DecBand) (src : List UInt8) :
    Except Err (Nat × Option (List UInt8) × List DecBand) := do
  let h ← readHeader csty cblksty layno packed bands src
  if h.present then
    let (n, bands) ← readData strict h.bands (src.drop h.read)
    return (h.read + n, h.packed, bands)
  return (h.read, h.packed, h.bands)

/-! ## Skipping -/

/-- How the loops of `opj_t2_skip_packet_data` end early: `return 0`, `return 1` in the middle, or a panic. -/
structure SkipSt where
  read : Nat
  stop : Bool

/-- The segment loop of `opj_t2_skip_packet_data`, `t2.rs:1605-1646`; `max` is `p_max_length`. -/
def skipLoop (strict : Bool) (max : Nat) : Nat → SkipSt → DecCblk → Nat → Except Err (SkipSt × DecCblk)
  | 0, _, _, _ => .error .panic
  | fuel + 1, q, c, i => do
    let sg ← ofOpt (c.segs[i]?)
    let r := (q.read + sg.newlen) % 2 ^ 32
    if r < q.read ∨ max < r then
      if strict then throw .refused
      return ({ q with stop := true }, c)
    let left := (2 ^ 32 + c.numnewpasses - sg.numnewpasses) % 2 ^ 32
    let c := { c with segs := c.segs.set i { sg with numpasses := (sg.numpasses + sg.numnewpasses) % 2 ^ 32 },
                      numnewpasses := left, numsegs := if 0 < left then (c.numsegs + 1) % 2 ^ 32 else c.numsegs }
    if left = 0 then return ({ q with read := r }, c)
    skipLoop strict max fuel { q with read := r } c (i + 1)

/-- One block, `t2.rs:1586-1650`. -/
def skipBlock (strict : Bool) (max : Nat) (q : SkipSt) (c : DecCblk) : Except Err (SkipSt × DecCblk) := do
  if q.stop = true ∨ c.numnewpasses = 0 then return (q, c)
  let (i, ns) ← ofOpt (dataSeg c)
  skipLoop strict max 165 q { c with numsegs := ns } i

def skipBlocks (strict : Bool) (max : Nat) : SkipSt → List DecCblk → Except Err (SkipSt × List DecCblk)
  | q, [] => .ok (q, [])
  | q, c :: cs => do
    let (q, c) ← skipBlock strict max q c
    let (q, cs) ← skipBlocks strict max q cs
    return (q, c :: cs)

def skipBands (strict : Bool) (max : Nat) : SkipSt → List DecBand → Except Err (SkipSt × List DecBand)
  | q, [] => .ok (q, [])
  | q, b :: bs => do
    if b.empty then
      let (q, bs) ← skipBands strict max q bs
      return (q, b :: bs)
    let (q, cs) ← skipBlocks strict max q b.prec.cblks
    let (q, bs) ← skipBands strict max q bs
    return (q, { b with prec := { b.prec with cblks := cs } } :: bs)

/-- `opj_t2_skip_packet`, `t2.rs:946-1000`, with `opj_t2_skip_packet_data`, `t2.rs:1556-1655`. -/
def skipPacket (csty cblksty layno : Nat) (strict : Bool) (packed : Option (List UInt8)) (bands : List DecBand) (src : List UInt8) :
    Except Err (Nat × Option (List UInt8) × List DecBand) := do
  let h ← readHeader csty cblksty layno packed bands src
  if h.present then
    let (q, bands) ← skipBands strict (src.length - h.read) ⟨0, false⟩ h.bands
    return (h.read + q.read, h.packed, bands)
  return (h.read, h.packed, h.bands)

end Jp2.T2

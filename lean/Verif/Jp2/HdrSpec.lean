import Verif.Jp2.Hdr
import Verif.Jp2.Tcd
/-!
# What a main header has to satisfy (Tables A.9 to A.30 of ITU-T T.800, as far as the code insists on them),
and what it means for a header to be read back
-/
namespace Jp2.Hdr

/-- `⌈a / b⌉`. -/
def cdiv (a b : Nat) : Nat := (a + b - 1) / b

/-- A component as `SIZ` may describe it, with the size of the image area in its samples, reduced. -/
structure CompOk (u : User) (d : Dec) (c : Comp) : Prop where
  prec : 1 ≤ c.prec ∧ c.prec ≤ 31
  sgnd : c.sgnd ≤ 1
  dx : 1 ≤ c.dx ∧ c.dx ≤ 255
  dy : 1 ≤ c.dy ∧ c.dy ≤ 255
  factor : c.factor = u.reduce
  x0 : c.x0 = cdiv d.x0 c.dx
  y0 : c.y0 = cdiv d.y0 c.dy
  w : c.w = cdiv (cdiv d.x1 c.dx - cdiv d.x0 c.dx) (2 ^ u.reduce)
  h : c.h = cdiv (cdiv d.y1 c.dy - cdiv d.y0 c.dy) (2 ^ u.reduce)

/-- The reference grid: image area, first tile overlapping it, tiles counted, components in range. -/
structure GeomOk (u : User) (d : Dec) : Prop where
  image_x : d.x0 < d.x1 ∧ d.x1 < 2 ^ 32
  image_y : d.y0 < d.y1 ∧ d.y1 < 2 ^ 32
  tile_x : d.tx0 ≤ d.x0 ∧ d.x0 < d.tx0 + d.tdx ∧ d.tdx < 2 ^ 32
  tile_y : d.ty0 ≤ d.y0 ∧ d.y0 < d.ty0 + d.tdy ∧ d.tdy < 2 ^ 32
  count_x : d.tw = cdiv (d.x1 - d.tx0) d.tdx
  count_y : d.th = cdiv (d.y1 - d.ty0) d.tdy
  count : 0 < d.tw ∧ 0 < d.th ∧ d.tw * d.th ≤ 65535
  comps_len : 1 ≤ d.comps.length ∧ d.comps.length ≤ 16384
  comps : ∀ c ∈ d.comps, CompOk u d c

/-- Coding style of one component. -/
structure StyleOk (u : User) (t : Tccp) : Prop where
  numres : 1 ≤ t.numres ∧ t.numres ≤ 33
  reduce : u.reduce < t.numres
  cblkw : 2 ≤ t.cblkw ∧ t.cblkw ≤ 10
  cblkh : 2 ≤ t.cblkh ∧ t.cblkh ≤ 10
  cblk : t.cblkw + t.cblkh ≤ 12
  cblksty : t.cblksty < 128
  qmfbid : t.qmfbid ≤ 1
  prcs : ∀ r q, t.prcs[r]? = some q → r < t.numres → q.1 ≤ 15 ∧ q.2 ≤ 15 ∧ (0 < r → 0 < q.1 ∧ 0 < q.2)

/-- Quantization of one component. -/
structure QuantOk (t : Tccp) : Prop where
  qntsty : t.qntsty ≤ 31
  numgbits : t.numgbits ≤ 7
  steps_len : t.steps.length = 97
  steps : ∀ s ∈ t.steps, s.1 ≤ 31 ∧ s.2 ≤ 2047

/-- A progression order change. -/
structure PocOk (n : Nat) (p : Pi.Poc) : Prop where
  resno : p.resno0 ≤ 255 ∧ p.resno1 ≤ 255
  layno : p.layno0 = 0 ∧ p.layno1 ≤ 65535
  comp : p.compno0 ≤ 65535 ∧ p.compno1 ≤ n
  prg : 0 ≤ p.prg ∧ p.prg ≤ 255

/-- A header that is complete and in range. -/
structure HeaderOk (u : User) (d : Dec) : Prop where
  geom : GeomOk u d
  csty : d.tcp.csty ≤ 7
  prg : -1 ≤ d.tcp.prg ∧ d.tcp.prg ≤ 4
  layers : 1 ≤ d.tcp.numlayers ∧ d.tcp.numlayers ≤ 65535
  mct : d.tcp.mct ≤ 1
  tccps : d.tcp.tccps.length = d.comps.length
  style : ∀ t ∈ d.tcp.tccps, StyleOk u t
  quant : ∀ t ∈ d.tcp.tccps, QuantOk t
  roi : ∀ t ∈ d.tcp.tccps, t.roishift ≤ 255
  prcs : ∀ t ∈ d.tcp.tccps, t.prcs.length = 33
  pocs_len : d.tcp.pocs.length < 32
  pocs : ∀ p ∈ d.tcp.pocs, PocOk d.comps.length p
  matrix : ∀ e vs, d.tcp.matrix = some (e, vs) → vs.length = d.comps.length * d.comps.length

/-! ## Reading back -/

/-- Parameters the encoder can put into a main header. -/
structure Writable (e : Enc) : Prop where
  rsiz : e.rsiz < 2 ^ 16
  image_x : e.x0 < e.x1 ∧ e.x1 < 2 ^ 32
  image_y : e.y0 < e.y1 ∧ e.y1 < 2 ^ 32
  tile_x : e.tx0 ≤ e.x0 ∧ e.x0 < e.tx0 + e.tdx ∧ e.tdx < 2 ^ 32
  tile_y : e.ty0 ≤ e.y0 ∧ e.y0 < e.ty0 + e.tdy ∧ e.tdy < 2 ^ 32
  count : cdiv (e.x1 - e.tx0) e.tdx * cdiv (e.y1 - e.ty0) e.tdy ≤ 65535
  comps_len : 1 ≤ e.comps.length ∧ e.comps.length ≤ 16384
  comps : ∀ c ∈ e.comps, (1 ≤ c.prec ∧ c.prec ≤ 31) ∧ c.sgnd ≤ 1 ∧ (1 ≤ c.dx ∧ c.dx ≤ 255) ∧ (1 ≤ c.dy ∧ c.dy ≤ 255)
  csty : e.csty ≤ 7
  prg : e.prg ≤ 4
  layers : 1 ≤ e.numlayers ∧ e.numlayers ≤ 65535
  mct : e.mct ≤ 1
  tccps : e.tccps.length = e.comps.length
  prcs_len : ∀ t ∈ e.tccps, t.prcs.length = 33
  style : ∀ t ∈ e.tccps, StyleOk {} t
  quant : ∀ t ∈ e.tccps, QuantOk t
  roi : ∀ t ∈ e.tccps, t.roishift ≤ 255
  /-- Precinct sizes are given for every component or for none (`j2k.rs`, `opj_j2k_setup_encoder`). -/
  prt : ∀ t ∈ e.tccps, t.csty = e.csty % 2
  /-- Bytes a `TLM` and a `COM` marker segment can hold. -/
  tlm : ∀ n, e.tlm = some n → n ≤ 10921
  /-- No profile that adds `POC` or custom component transforms to the main header. -/
  profile : (e.rsiz = 4 → e.tlm = none) ∧ ¬ (e.rsiz / 0x8000 % 2 = 1 ∧ e.rsiz / 0x100 % 2 = 1)
  comment : ∀ c, e.comment = some c → c.length ≤ 65531

/-- All components share one coding style, which is how `opj_j2k_setup_encoder` fills them in. -/
def SharedStyle (e : Enc) : Prop :=
  ∀ a ∈ e.tccps, ∀ b ∈ e.tccps, a.numres = b.numres ∧ a.cblkw = b.cblkw ∧ a.cblkh = b.cblkh ∧ a.cblksty = b.cblksty ∧
    a.qmfbid = b.qmfbid ∧ a.prcs.take a.numres = b.prcs.take b.numres

/-- The step size of band `b` that the parameters mean (equations E-5 and Table A.28): reversible: an exponent;
derived: from the first band; expounded: exponent and mantissa. -/
def stepOf (t : Tccp) (b : Nat) : Option (Nat × Nat) :=
  if t.qntsty = 0 then (t.steps[b]?).map fun s => (s.1, 0)
  else if t.qntsty = 1 then (t.steps[0]?).map fun s => (s.1 - (b - 1) / 3, s.2)
  else t.steps[b]?

/-- The precinct size of resolution `r` the parameters mean: the largest one if none is given. -/
def precinctOf (t : Tccp) (r : Nat) : Option (Nat × Nat) := if t.csty % 2 = 1 then t.prcs[r]? else some (15, 15)

/-- A component read from a header means the component written. -/
structure SameTccp (w r : Tccp) : Prop where
  csty : r.csty = w.csty
  numres : r.numres = w.numres
  cblkw : r.cblkw = w.cblkw
  cblkh : r.cblkh = w.cblkh
  cblksty : r.cblksty = w.cblksty
  qmfbid : r.qmfbid = w.qmfbid
  prcs : ∀ i < w.numres, r.prcs[i]? = precinctOf w i
  qntsty : r.qntsty = w.qntsty
  numgbits : r.numgbits = w.numgbits
  steps : ∀ b < 3 * w.numres - 2, r.steps[b]? = stepOf w b
  roishift : r.roishift = w.roishift

/-- The level shift of a component: half the range of unsigned samples, none for signed ones. -/
def levelShift (c : Comp) : Int := if c.sgnd = 0 then 2 ^ (c.prec - 1) else 0

/-- A decoder knows what the encoder wrote. -/
structure SameHeader (e : Enc) (d : Dec) : Prop where
  rsiz : d.rsiz = e.rsiz
  image : d.x0 = e.x0 ∧ d.y0 = e.y0 ∧ d.x1 = e.x1 ∧ d.y1 = e.y1
  tiles : d.tdx = e.tdx ∧ d.tdy = e.tdy ∧ d.tx0 = e.tx0 ∧ d.ty0 = e.ty0
  comps : d.comps.map (fun c => (c.prec, c.sgnd, c.dx, c.dy)) = e.comps.map fun c => (c.prec, c.sgnd, c.dx, c.dy)
  csty : d.tcp.csty = e.csty
  prg : d.tcp.prg = e.prg
  layers : d.tcp.numlayers = e.numlayers
  mct : d.tcp.mct = e.mct
  pocs : d.tcp.pocs = []
  tccps : List.Forall₂ SameTccp e.tccps d.tcp.tccps
  shift : d.tcp.tccps.map Tccp.dcShift = e.comps.map levelShift

/-- Settings of the decoder that suit a header: no more resolutions discarded than there are, and no other size
announced by an enclosing file. -/
structure Suits (u : User) (e : Enc) : Prop where
  reduce : ∀ t ∈ e.tccps, u.reduce < t.numres
  size : u.dump = true ∨ u.ihdrW = 0 ∨ u.ihdrH = 0 ∨ (u.ihdrW = e.x1 - e.x0 ∧ u.ihdrH = e.y1 - e.y0)

/-! ## Packed packet headers -/

/-- One series of packed packet headers: its length in four bytes, then its data. -/
def series (data : List UInt8) : List UInt8 := Cio.toBe 4 data.length ++ data

/-- The places where a series may be cut when it is spread over marker segments: anywhere but inside its length. -/
def pieces (data : List UInt8) : List (List UInt8) := Cio.toBe 4 data.length :: data.map fun b => [b]

/-- The `PPM` marker segment with number `z` that holds the pieces `ps`. -/
def ppmSegment (z : Nat) (ps : List (List UInt8)) : List UInt8 :=
  be 2 0xFF60 ++ be 2 (ps.flatten.length + 3) ++ be 1 z ++ ps.flatten

/-! ## Marker segments -/

/-- A marker segment: the marker, the length of what follows it, the body. -/
def segment (m : Nat) (body : List UInt8) : List UInt8 := be 2 m ++ be 2 (body.length + 2) ++ body

/-- An even number of bytes whose 16-bit words all lie below the range of markers. -/
def Quiet : List UInt8 → Prop
  | a :: _ :: l => a ≠ 0xFF ∧ Quiet l
  | [] => True
  | [_] => False

/-! ## Geometry for the tile decoder -/

/-- What packet iteration takes from a header. -/
def packetParams (d : Dec) : Pi.TileParams :=
  ⟨d.x0, d.y0, d.x1, d.y1, d.tx0, d.ty0, d.tdx, d.tdy, d.tw,
    List.zipWith (fun c t => ⟨c.dx, c.dy, t.prcs.take t.numres⟩) d.comps d.tcp.tccps, d.tcp.numlayers, d.tcp.prg, d.tcp.pocs⟩

/-- What the structure of a tile is built from; `szPrec` and `szBlk` are the sizes of two structures in memory. -/
def tileParams (d : Dec) (szPrec szBlk : Nat) : Tcd.Params :=
  ⟨d.x0, d.y0, d.x1, d.y1, d.tx0, d.ty0, d.tdx, d.tdy, d.tw,
    List.zipWith (fun c t => ⟨c.dx, c.dy, t.prcs.take t.numres, t.cblkw, t.cblkh⟩) d.comps d.tcp.tccps, szPrec, szBlk⟩

end Jp2.Hdr

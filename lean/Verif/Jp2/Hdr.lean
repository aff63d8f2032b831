import Verif.Jp2.Cio
import Verif.Jp2.Pi
/-!
# The main header of a codestream: `openjp2-rs/src/j2k.rs`

Reading (`opj_j2k_read_header_procedure` with all its marker handlers) and writing
(`opj_j2k_setup_header_writing` and the marker writers it lists).

`u32` values are `Nat`, wrapped where the Rust wraps. The pointer a handler walks through the header buffer
is the suffix of the buffer it points at; the buffer keeps the bytes left over from earlier segments, as in
the code. The stream is the list of bytes still to come; a read that cannot be met in full is an error, as
every caller here makes it. Not modelled: allocation failure (except of zero bytes, which the allocator of
`malloc.rs:129-143` refuses), the codestream index, messages.
-/
namespace Jp2.Hdr

/-- How a call can end early: `return 0`, a panic, or an access outside a buffer. -/
inductive Fail where
  | refused
  | panic
  | oob
deriving DecidableEq, Repr

abbrev R := Except Fail

/-- `if c { return 0 }`. -/
def refuseIf (c : Prop) [Decidable c] : R Unit := if c then .error .refused else .ok ()

/-- `opj_read_bytes(p, &mut v, nb); p = p.offset(nb)` (`cio.rs:55-69`): the value and the advanced pointer. -/
def next (nb : Nat) (p : List UInt8) : R (Nat × List UInt8) :=
  match Cio.readBytes p 0 nb with
  | some v => .ok (v, p.drop nb)
  | none => .error .oob

/-- `memcpy(dst, p, n)` as the source sees it. -/
def bytesAt (n : Nat) (p : List UInt8) : R (List UInt8) := if n ≤ p.length then .ok (p.take n) else .error .oob

/-- Assign `new` to the first elements of a fixed-size array, index by index. -/
def put {α : Type} (old new : List α) : R (List α) :=
  if new.length ≤ old.length then .ok (new ++ old.drop new.length) else .error .panic

/-! ## Data -/

/-- `opj_image_comp`: the fields the header sets. -/
structure Comp where
  prec : Nat
  sgnd : Nat
  dx : Nat
  dy : Nat
  factor : Nat := 0
  x0 : Nat := 0
  y0 : Nat := 0
  w : Nat := 0
  h : Nat := 0
deriving DecidableEq, Repr

/-- `opj_tccp` (`types.rs`): precinct exponents (width, height) in an array of 33, step sizes (exponent,
mantissa) in an array of 97. -/
structure Tccp where
  csty : Nat := 0
  numres : Nat := 0
  cblkw : Nat := 0
  cblkh : Nat := 0
  cblksty : Nat := 0
  qmfbid : Nat := 0
  prcs : List (Nat × Nat) := List.replicate 33 (0, 0)
  qntsty : Nat := 0
  numgbits : Nat := 0
  steps : List (Nat × Nat) := List.replicate 97 (0, 0)
  roishift : Nat := 0
  dcShift : Int := 0
deriving DecidableEq, Repr

/-- `opj_mct_data`: `m_data` is null exactly when `data` is empty. -/
structure MctRec where
  index : Nat
  atype : Nat
  etype : Nat
  data : List UInt8
deriving DecidableEq, Repr

/-- `opj_simple_mcc_decorrelation_data`: the two pointers are indices into the array of MCT records. -/
structure MccRec where
  index : Nat := 0
  nbComps : Nat := 0
  deco : Option Nat := none
  offs : Option Nat := none
  irrev : Bool := false
deriving DecidableEq, Repr

/-- `opj_tcp`, the default one (`m_default_tcp`). `POC` is true exactly when `pocs` is not empty, `numpocs` is
one less than its length. `mccSpare` is the array element behind the last counted MCC record; `matrix` holds
the raw elements of the decoding matrix with their type. -/
structure Tcp where
  csty : Nat := 0
  prg : Int := 0
  numlayers : Nat := 0
  toDecode : Nat := 0
  mct : Nat := 0
  pocs : List Pi.Poc := []
  tccps : List Tccp := []
  mcts : List MctRec := []
  mccs : List MccRec := []
  mccSpare : MccRec := {}
  matrix : Option (Nat × List Nat) := none
deriving DecidableEq, Repr

/-- The decoder: image, coding parameters, default tile parameters, `m_state` (`siz` is false in `MHSIZ`,
true in `MH`), which of the required markers were seen, packed packet headers, and the header buffer. -/
structure Dec where
  rsiz : Nat := 0
  x0 : Nat := 0
  y0 : Nat := 0
  x1 : Nat := 0
  y1 : Nat := 0
  tdx : Nat := 0
  tdy : Nat := 0
  tx0 : Nat := 0
  ty0 : Nat := 0
  tw : Nat := 0
  th : Nat := 0
  comps : List Comp := []
  tcp : Tcp := {}
  siz : Bool := false
  hasSiz : Bool := false
  hasCod : Bool := false
  hasQcd : Bool := false
  ppm : Bool := false
  ppms : List (Option (List UInt8)) := []
  ppmData : List UInt8 := []
  buf : List UInt8 := List.replicate 1000 0
deriving DecidableEq, Repr

/-- What the caller set before: `cp_reduce`, `cp_layer`, the dump flag (`j2k.rs:6080-6085`), the size given by
an enclosing JP2 file (`ihdr_w`, `ihdr_h`), the build mode, and the conversion of an MCT element (type, bit
pattern) to `i32` (`j2k.rs:551-623`), which involves floating point and stays abstract. -/
structure User where
  reduce : Nat := 0
  layer : Nat := 0
  dump : Bool := false
  ihdrW : Nat := 0
  ihdrH : Nat := 0
  mode : Mode := .checked
  toInt : Nat → Nat → Int := fun _ v => v

/-! ## `SIZ` -/

/-- `opj_uint_ceildivpow2`, `math.rs:54-56`, in both build modes. -/
def ceildivpow2 (m : Mode) (a b : Nat) : R Nat :=
  match Pi.shl64 m 1 b with
  | none => .error .panic
  | some one =>
    match Pi.shr64 m ((a + one + (2 ^ 64 - 1)) % 2 ^ 64) b with
    | none => .error .panic
    | some v => .ok (v % 2 ^ 32)

/-- `opj_uint_ceildiv`, `math.rs:58-65`. -/
def ceildiv (a b : Nat) : R Nat := if b = 0 then .error .panic else .ok ((a + b - 1) / b % 2 ^ 32)

/-- `opj_uint_adds`, `math.rs:90-92`. -/
def adds (a b : Nat) : Nat := min (a + b) (2 ^ 32 - 1)

/-- The components of `SIZ`, `j2k.rs:1321-1378`. -/
def readComps (u : User) : Nat → List UInt8 → R (List Comp)
  | 0, _ => .ok []
  | n + 1, p => do
    let (s, p) ← next 1 p
    let (dx, p) ← next 1 p
    let (dy, p) ← next 1 p
    refuseIf (dx < 1 ∨ 255 < dx ∨ dy < 1 ∨ 255 < dy)
    refuseIf (31 < s % 128 + 1)
    let rest ← readComps u n p
    return ⟨s % 128 + 1, s / 128, dx, dy, u.reduce, 0, 0, 0, 0⟩ :: rest

/-- One component of `opj_image_comp_header_update`, `image.rs:397-408`; `x0 … y1` are the bounds computed
before the loop. -/
def updateComp (m : Mode) (x0 y0 x1 y1 : Nat) (c : Comp) : R Comp := do
  let cx0 ← ceildiv x0 c.dx
  let cy0 ← ceildiv y0 c.dy
  let cx1 ← ceildiv x1 c.dx
  let cy1 ← ceildiv y1 c.dy
  let w ← ceildivpow2 m ((cx1 + 2 ^ 32 - cx0) % 2 ^ 32) c.factor
  let h ← ceildivpow2 m ((cy1 + 2 ^ 32 - cy0) % 2 ^ 32) c.factor
  return { c with w := w, h := h, x0 := cx0, y0 := cy0 }

/-- The loop of `opj_image_comp_header_update`. -/
def updateComps (m : Mode) (x0 y0 x1 y1 : Nat) : List Comp → R (List Comp)
  | [] => .ok []
  | c :: cs => do
    let c ← updateComp m x0 y0 x1 y1 c
    let cs ← updateComps m x0 y0 x1 y1 cs
    return c :: cs

/-- `opj_image_comp_header_update`, `image.rs:379-410`. -/
def headerUpdate (m : Mode) (d : Dec) : R Dec := do
  let x0 := max d.tx0 d.x0
  let y0 := max d.ty0 d.y0
  let x1 := (d.tx0 + (d.tw + (2 ^ 32 - 1)) % 2 ^ 32 * d.tdx) % 2 ^ 32
  let y1 := (d.ty0 + (d.th + (2 ^ 32 - 1)) % 2 ^ 32 * d.tdy) % 2 ^ 32
  let cs ← updateComps m x0 y0 (min (adds x1 d.tdx) d.x1) (min (adds y1 d.tdy) d.y1) d.comps
  return { d with comps := cs }

/-- `opj_j2k_read_siz`, `j2k.rs:1181-1507`. `m_discard_tiles` is false while a header is read; the per-tile
structures, which start out zeroed, are not part of the model. -/
def readSiz (u : User) (d : Dec) (p : List UInt8) (size : Nat) : R Dec := do
  refuseIf (size < 36)
  let nb := (size - 36) / 3
  refuseIf ((size - 36) % 3 ≠ 0)
  let (rsiz, p) ← next 2 p
  let (x1, p) ← next 4 p
  let (y1, p) ← next 4 p
  let (x0, p) ← next 4 p
  let (y0, p) ← next 4 p
  let (tdx, p) ← next 4 p
  let (tdy, p) ← next 4 p
  let (tx0, p) ← next 4 p
  let (ty0, p) ← next 4 p
  let (n, p) ← next 2 p
  refuseIf (¬ n < 16385)
  refuseIf (n ≠ nb)
  refuseIf (x1 ≤ x0 ∨ y1 ≤ y0)
  refuseIf (tdx = 0 ∨ tdy = 0)
  refuseIf (x0 < tx0 ∨ y0 < ty0 ∨ adds tx0 tdx ≤ x0 ∨ adds ty0 tdy ≤ y0)
  refuseIf (u.dump = false ∧ 0 < u.ihdrW ∧ 0 < u.ihdrH ∧ (u.ihdrW ≠ x1 - x0 ∨ u.ihdrH ≠ y1 - y0))
  -- `opj_calloc(0, …)` returns null
  refuseIf (n = 0)
  let comps ← readComps u n p
  let tw ← ceildiv (x1 - tx0) tdx
  let th ← ceildiv (y1 - ty0) tdy
  refuseIf (tw = 0 ∨ th = 0 ∨ 65535 / th < tw)
  let tccps := comps.map fun c => { dcShift := if c.sgnd = 0 then 2 ^ (c.prec - 1) else 0 : Tccp }
  headerUpdate u.mode { d with
    rsiz := rsiz, x0 := x0, y0 := y0, x1 := x1, y1 := y1, tdx := tdx, tdy := tdy, tx0 := tx0, ty0 := ty0,
    tw := tw, th := th, comps := comps, tcp := { d.tcp with tccps := tccps }, siz := true }

/-! ## `COD`, `COC` -/

/-- The precinct sizes, `j2k.rs:10440-10452`; `i` is the resolution. -/
def readPrcs : Nat → Nat → List UInt8 → R (List (Nat × Nat))
  | 0, _, _ => .ok []
  | n + 1, i, p => do
    let (v, p) ← next 1 p
    refuseIf (i ≠ 0 ∧ (v % 16 = 0 ∨ v / 16 = 0))
    let rest ← readPrcs n (i + 1) p
    return (v % 16, v / 16) :: rest

/-- `opj_j2k_read_SPCod_SPCoc`, `j2k.rs:10338-10468`, on the parameters of one component: the new parameters
and what is left of the segment. -/
def readSPCod (u : User) (t : Tccp) (p : List UInt8) (size : Nat) : R (Tccp × Nat) := do
  refuseIf (size < 5)
  let (r, p) ← next 1 p
  refuseIf (33 < r + 1)
  refuseIf (r + 1 ≤ u.reduce)
  let (w, p) ← next 1 p
  let (h, p) ← next 1 p
  refuseIf (10 < w + 2 ∨ 10 < h + 2 ∨ 12 < w + 2 + (h + 2))
  let (s, p) ← next 1 p
  refuseIf (s / 128 % 2 ≠ 0)
  let (q, p) ← next 1 p
  refuseIf (1 < q)
  if t.csty % 2 ≠ 0 then
    refuseIf (size - 5 < r + 1)
    let new ← readPrcs (r + 1) 0 p
    let prcs ← put t.prcs new
    return ({ t with numres := r + 1, cblkw := w + 2, cblkh := h + 2, cblksty := s, qmfbid := q, prcs := prcs },
      size - 5 - (r + 1))
  else
    let prcs ← put t.prcs (List.replicate (r + 1) (15, 15))
    return ({ t with numres := r + 1, cblkw := w + 2, cblkh := h + 2, cblksty := s, qmfbid := q, prcs := prcs },
      size - 5)

/-- `opj_j2k_copy_tile_component_parameters` on one component, `j2k.rs:10494-10513`. -/
def copyStyle (ref t : Tccp) : R Tccp := do
  let prcs ← put t.prcs (ref.prcs.take ref.numres)
  return { t with numres := ref.numres, cblkw := ref.cblkw, cblkh := ref.cblkh, cblksty := ref.cblksty,
                  qmfbid := ref.qmfbid, prcs := prcs }

/-- A loop over the components behind the first. -/
def mapR {α β : Type} (f : α → R β) : List α → R (List β)
  | [] => .ok []
  | a :: l => do
    let b ← f a
    let r ← mapR f l
    return b :: r

/-- `opj_j2k_read_cod`, `j2k.rs:1695-1790`. -/
def readCod (u : User) (d : Dec) (p : List UInt8) (size : Nat) : R Dec := do
  refuseIf (size < 5)
  let (csty, p) ← next 1 p
  refuseIf (7 < csty)
  let (g, p) ← next 1 p
  let (nl, p) ← next 2 p
  refuseIf (nl < 1 ∨ 65535 < nl)
  let (mct, p) ← next 1 p
  refuseIf (1 < mct)
  match d.tcp.tccps.map (fun t => { t with csty := csty % 2 }) with
  | [] => .error .oob
  | t :: ts =>
    let (t, left) ← readSPCod u t p (size - 5)
    refuseIf (left ≠ 0)
    let ts ← mapR (copyStyle t) ts
    return { d with tcp := { d.tcp with
      csty := csty, prg := if g ≤ 4 then (g : Int) else -1, numlayers := nl,
      toDecode := if u.layer ≠ 0 then u.layer else nl, mct := mct, tccps := t :: ts } }

/-- Bytes taken by a component number. -/
def room (n : Nat) : Nat := if n ≤ 256 then 1 else 2

/-- `tccps.offset(i)`: the component with number `i`. -/
def comp (d : Dec) (i : Nat) : R Tccp :=
  match d.tcp.tccps[i]? with
  | some t => .ok t
  | none => .error .oob

/-- Store the parameters of component `i`. -/
def setComp (d : Dec) (i : Nat) (t : Tccp) : Dec := { d with tcp := { d.tcp with tccps := d.tcp.tccps.set i t } }

/-- `opj_j2k_read_coc`, `j2k.rs:2007-2069`. -/
def readCoc (u : User) (d : Dec) (p : List UInt8) (size : Nat) : R Dec := do
  let rm := room d.comps.length
  refuseIf (size < rm + 1)
  let (i, p) ← next rm p
  refuseIf (d.comps.length ≤ i)
  let (c, p) ← next 1 p
  let t ← comp d i
  let (t, left) ← readSPCod u { t with csty := c } p (size - (rm + 1))
  refuseIf (left ≠ 0)
  return setComp d i t

/-! ## `QCD`, `QCC` -/

/-- Step sizes without quantization, `j2k.rs:10799-10807`. -/
def readSteps1 : Nat → List UInt8 → R (List (Nat × Nat))
  | 0, _ => .ok []
  | n + 1, p => do
    let (v, p) ← next 1 p
    let rest ← readSteps1 n p
    return (v / 8, 0) :: rest

/-- Step sizes with quantization, `j2k.rs:10813-10822`. -/
def readSteps2 : Nat → List UInt8 → R (List (Nat × Nat))
  | 0, _ => .ok []
  | n + 1, p => do
    let (v, p) ← next 2 p
    let rest ← readSteps2 n p
    return (v / 2048, v % 2048) :: rest

/-- The step sizes derived from the first one, `j2k.rs:10828-10842`. -/
def derive : List (Nat × Nat) → List (Nat × Nat)
  | [] => []
  | s :: l => s :: (List.range l.length).map fun k => (s.1 - k / 3, s.2)

/-- `opj_j2k_read_SQcd_SQcc`, `j2k.rs:10729-10845`. -/
def readSQcd (t : Tccp) (p : List UInt8) (size : Nat) : R (Tccp × Nat) := do
  refuseIf (size < 1)
  let (v, p) ← next 1 p
  let size := size - 1
  let q := v % 32
  let n := if q = 1 then 1 else if q = 0 then size else size / 2
  if q = 0 then
    let new ← readSteps1 n p
    let steps ← put t.steps (new.take 97)
    refuseIf (size < n)
    return ({ t with qntsty := q, numgbits := v / 32, steps := steps }, size - n)
  else
    let new ← readSteps2 n p
    let steps ← put t.steps (new.take 97)
    refuseIf (size < 2 * n)
    return ({ t with qntsty := q, numgbits := v / 32, steps := if q = 1 then derive steps else steps }, size - 2 * n)

/-- `opj_j2k_copy_tile_quantization_parameters` on one component, `j2k.rs:10866-10879`. -/
def copyQuant (ref t : Tccp) : Tccp :=
  { t with qntsty := ref.qntsty, numgbits := ref.numgbits, steps := ref.steps }

/-- `opj_j2k_read_qcd`, `j2k.rs:2159-2184`. -/
def readQcd (d : Dec) (p : List UInt8) (size : Nat) : R Dec := do
  match d.tcp.tccps with
  | [] => .error .panic
  | t :: ts =>
    let (t, left) ← readSQcd t p size
    refuseIf (left ≠ 0)
    return { d with tcp := { d.tcp with tccps := t :: ts.map (copyQuant t) } }

/-- `opj_j2k_read_qcc`, `j2k.rs:2347-2401`. -/
def readQcc (d : Dec) (p : List UInt8) (size : Nat) : R Dec := do
  let rm := room d.comps.length
  refuseIf (size < rm)
  let (i, p) ← next rm p
  refuseIf (d.comps.length ≤ i)
  let t ← comp d i
  let (t, left) ← readSQcd t p (size - rm)
  refuseIf (left ≠ 0)
  return setComp d i t

/-! ## The other markers -/

/-- The progression order changes of one segment, `j2k.rs:2727-2753`. -/
def readPocs (rm nl nc : Nat) : Nat → List UInt8 → R (List Pi.Poc)
  | 0, _ => .ok []
  | n + 1, p => do
    let (r0, p) ← next 1 p
    let (c0, p) ← next rm p
    let (l1, p) ← next 2 p
    let (r1, p) ← next 1 p
    let (c1, p) ← next rm p
    let (g, p) ← next 1 p
    let rest ← readPocs rm nl nc n p
    return { resno0 := r0, compno0 := c0, layno1 := min l1 nl, resno1 := r1, compno1 := min c1 nc,
             prg := g : Pi.Poc } :: rest

/-- `opj_j2k_read_poc`, `j2k.rs:2667-2757`. -/
def readPoc (d : Dec) (p : List UInt8) (size : Nat) : R Dec := do
  let rm := room d.comps.length
  let chunk := 5 + 2 * rm
  refuseIf (size / chunk = 0 ∨ size % chunk ≠ 0)
  refuseIf (32 ≤ size / chunk + d.tcp.pocs.length)
  let new ← readPocs rm d.tcp.numlayers d.comps.length (size / chunk) p
  return { d with tcp := { d.tcp with pocs := d.tcp.pocs ++ new } }

/-- `opj_j2k_read_rgn`, `j2k.rs:4530-4590`. -/
def readRgn (d : Dec) (p : List UInt8) (size : Nat) : R Dec := do
  let rm := room d.comps.length
  refuseIf (size ≠ 2 + rm)
  let (i, p) ← next rm p
  let (_, p) ← next 1 p
  refuseIf (d.comps.length ≤ i)
  let (s, _) ← next 1 p
  let t ← comp d i
  return setComp d i { t with roishift := s }

/-- `opj_j2k_read_crg`, `j2k.rs:2764-2795`. -/
def readCrg (d : Dec) (size : Nat) : R Dec := do
  refuseIf (size ≠ d.comps.length * 4 % 2 ^ 32)
  return d

/-- `opj_j2k_read_tlm`, `j2k.rs:2811-2859`. -/
def readTlm (d : Dec) (p : List UInt8) (size : Nat) : R Dec := do
  refuseIf (size < 2)
  let (_, p) ← next 1 p
  let (s, _) ← next 1 p
  refuseIf ((size - 2) % ((s / 64 % 2 + 1) * 2 + s / 16 % 4) ≠ 0)
  return d

/-- `opj_j2k_read_plm`, `j2k.rs:2873-2926`. -/
def readPlm (d : Dec) (size : Nat) : R Dec := do
  refuseIf (size < 1)
  return d

/-- The loop of `opj_j2k_read_cbd`, `j2k.rs:6002-6015`. -/
def readDepths : List Comp → List UInt8 → R (List Comp)
  | [], _ => .ok []
  | c :: cs, p => do
    let (v, p) ← next 1 p
    refuseIf (31 < v % 128 + 1)
    let cs ← readDepths cs p
    return { c with sgnd := v / 128 % 2, prec := v % 128 + 1 } :: cs

/-- `opj_j2k_read_cbd`, `j2k.rs:5975-6019`. -/
def readCbd (d : Dec) (p : List UInt8) (size : Nat) : R Dec := do
  refuseIf (size ≠ d.comps.length + 2)
  let (n, p) ← next 2 p
  refuseIf (n ≠ d.comps.length)
  let comps ← readDepths d.comps p
  return { d with comps := comps }

/-- `opj_j2k_read_ppm`, `j2k.rs:2998-3080`. -/
def readPpm (d : Dec) (p : List UInt8) (size : Nat) : R Dec := do
  refuseIf (size < 2)
  let (z, p) ← next 1 p
  let ms := d.ppms ++ List.replicate (z + 1 - d.ppms.length) none
  match ms[z]? with
  | none => .error .oob
  | some (some _) => .error .refused
  | some none =>
    let data ← bytesAt (size - 1) p
    return { d with ppm := true, ppms := ms.set z (some data) }

/-- `MCTElementType::size`, `j2k.rs:90-97`. -/
def elemSize (t : Nat) : Nat := if t = 0 then 2 else if t = 1 then 4 else if t = 2 then 4 else 8

/-- The search of an MCT record by its index, `j2k.rs:5184-5191` (also `:5613-5622`, `:5632-5641`). -/
def findMct (i : Nat) : List MctRec → Nat → Option Nat
  | [], _ => none
  | r :: l, k => if r.index = i then some k else findMct i l (k + 1)

/-- The record to fill: the one with this index, or a new one (`j2k.rs:5184-5261`). -/
def mctSlot (ms : List MctRec) (i : Nat) : Nat × List MctRec :=
  match findMct i ms 0 with
  | some k => (k, ms)
  | none => (ms.length, ms ++ [⟨i, 0, 0, []⟩])

/-- `opj_j2k_read_mct`, `j2k.rs:5145-5290`. Growing the array moves the records but not their order; the
pointers kept in counted MCC records are moved along. -/
def readMct (d : Dec) (p : List UInt8) (size : Nat) : R Dec := do
  refuseIf (size < 2)
  let (z, p) ← next 2 p
  if z ≠ 0 then return d
  refuseIf (size ≤ 6)
  let (v, p) ← next 2 p
  let (k, recs) := mctSlot d.tcp.mcts (v % 256)
  let (y, p) ← next 2 p
  if y ≠ 0 then
    return { d with tcp := { d.tcp with mcts := recs.set k ⟨v % 256, v / 256 % 4, v / 1024 % 4, []⟩ } }
  let data ← bytesAt (size - 6) p
  return { d with tcp := { d.tcp with mcts := recs.set k ⟨v % 256, v / 256 % 4, v / 1024 % 4, data⟩ } }

/-- The loop that checks the component numbers of a collection, `j2k.rs:5551-5564` and `:5591-5604`: `none` is
the early `return 1`. -/
def readIdx (nb : Nat) : Nat → Nat → List UInt8 → R (Option (List UInt8))
  | 0, _, p => .ok (some p)
  | n + 1, j, p => do
    let (v, p) ← next nb p
    if v ≠ j then return none
    readIdx nb n (j + 1) p

/-- What `opj_j2k_read_mcc` makes of the record: the record, and whether the marker was used up to its end
(only then a new record is counted). -/
structure MccOut where
  rcd : MccRec
  counted : Bool

/-- An array named by a collection, `j2k.rs:5609-5626` and `:5627-5645`; index 0 names none. -/
def mccArray (ms : List MctRec) (i : Nat) : R (Option Nat) :=
  if i ≠ 0 then
    match findMct i ms 0 with
    | none => .error .refused
    | some k => .ok (some k)
  else .ok none

/-- The arrays named by a collection, `j2k.rs:5603-5645`. -/
def mccArrays (d : Dec) (r : MccRec) (v : Nat) : R MccRec := do
  let deco ← mccArray d.tcp.mcts (v % 256)
  let offs ← mccArray d.tcp.mcts (v / 256 % 256)
  return { r with irrev := (v / 65536 % 2 == 0), deco := deco, offs := offs }

/-- One collection, `j2k.rs:5524-5650`. The record, and the size left unless the marker was left early. -/
def readCollection (d : Dec) (r : MccRec) (p : List UInt8) (size : Nat) : R (MccRec × Option Nat) := do
  refuseIf (size < 3)
  let (x, p) ← next 1 p
  if x ≠ 1 then return (r, none)
  let (nc, p) ← next 2 p
  let size := size - 3
  let r := { r with nbComps := nc % 32768 }
  refuseIf (size < (1 + nc / 32768) * r.nbComps + 2)
  let size := size - ((1 + nc / 32768) * r.nbComps + 2)
  let some p ← readIdx (1 + nc / 32768) r.nbComps 0 p | return (r, none)
  let (nc, p) ← next 2 p
  if nc % 32768 ≠ r.nbComps then return (r, none)
  refuseIf (size < (1 + nc / 32768) * r.nbComps + 3)
  let size := size - ((1 + nc / 32768) * r.nbComps + 3)
  let some p ← readIdx (1 + nc / 32768) r.nbComps 0 p | return (r, none)
  let (v, _) ← next 3 p
  let r ← mccArrays d r v
  return (r, some size)

/-- The search of an MCC record. -/
def findMcc (i : Nat) : List MccRec → Nat → Option Nat
  | [], _ => none
  | r :: l, k => if r.index = i then some k else findMcc i l (k + 1)

/-- The body of `opj_j2k_read_mcc` behind the search, `j2k.rs:5508-5660`. -/
def readMccBody (d : Dec) (r : MccRec) (p : List UInt8) (size : Nat) : R MccOut := do
  let (y, p) ← next 2 p
  if y ≠ 0 then return ⟨r, false⟩
  let (q, p) ← next 2 p
  if 1 < q then return ⟨r, false⟩
  if q = 0 then
    refuseIf (size - 7 ≠ 0)
    return ⟨r, true⟩
  let (r, left) ← readCollection d r p (size - 7)
  match left with
  | none => return ⟨r, false⟩
  | some left =>
    refuseIf (left ≠ 0)
    return ⟨r, true⟩

/-- `opj_j2k_read_mcc`, `j2k.rs:5408-5661`. -/
def readMcc (d : Dec) (p : List UInt8) (size : Nat) : R Dec := do
  refuseIf (size < 2)
  let (z, p) ← next 2 p
  if z ≠ 0 then return d
  refuseIf (size < 7)
  let (i, p) ← next 1 p
  match findMcc i d.tcp.mccs 0 with
  | some k =>
    match d.tcp.mccs[k]? with
    | none => .error .oob
    | some r =>
      let o ← readMccBody d { r with index := i } p size
      return { d with tcp := { d.tcp with mccs := d.tcp.mccs.set k o.rcd } }
  | none =>
    let o ← readMccBody d { d.tcp.mccSpare with index := i } p size
    if o.counted then
      return { d with tcp := { d.tcp with mccs := d.tcp.mccs ++ [o.rcd], mccSpare := {} } }
    else return { d with tcp := { d.tcp with mccSpare := o.rcd } }

/-- `read_to_float`/`read_to_int32`, `j2k.rs:463-623`: the raw elements. Each element is read with
`opj_read_bytes`, `opj_read_float` or `opj_read_double`. -/
def readElems (sz : Nat) : Nat → List UInt8 → R (List Nat)
  | 0, _ => .ok []
  | n + 1, p => do
    let b ← bytesAt sz p
    let rest ← readElems sz n (p.drop sz)
    return Cio.fromBe b :: rest

/-- The decoding matrix, `j2k.rs:5820-5845`. -/
def addMatrix (d : Dec) : Option Nat → R Dec
  | none => .ok d
  | some k => do
    match d.tcp.mcts[k]? with
    | none => .error .oob
    | some m =>
      let n := d.comps.length
      refuseIf (m.data.length ≠ elemSize m.etype * n * n % 2 ^ 32)
      let vs ← readElems (elemSize m.etype) (n * n % 2 ^ 32) m.data
      return { d with tcp := { d.tcp with matrix := some (m.etype, vs) } }

/-- The level shifts, `j2k.rs:5846-5880`. -/
def addOffsets (u : User) (d : Dec) : Option Nat → R Dec
  | none => .ok d
  | some k => do
    match d.tcp.mcts[k]? with
    | none => .error .oob
    | some m =>
      refuseIf (m.data.length ≠ elemSize m.etype * d.comps.length % 2 ^ 32)
      let vs ← readElems (elemSize m.etype) d.comps.length m.data
      return { d with tcp := { d.tcp with
        tccps := List.zipWith (fun t v => { t with dcShift := u.toInt m.etype v }) d.tcp.tccps vs } }

/-- `opj_j2k_add_mct`, `j2k.rs:5788-5885`. The search never moves on from the first record. -/
def addMct (u : User) (d : Dec) (i : Nat) : R Dec := do
  match d.tcp.mccs with
  | [] => return d
  | r :: _ =>
    if r.index ≠ i then return d
    if r.nbComps ≠ d.comps.length then return d
    let d ← addMatrix d r.deco
    addOffsets u d r.offs

/-- `opj_j2k_read_mco`, `j2k.rs:5735-5787`. -/
def readMco (u : User) (d : Dec) (p : List UInt8) (size : Nat) : R Dec := do
  refuseIf (size < 1)
  let (n, p) ← next 1 p
  if 1 < n then return d
  refuseIf (size ≠ n + 1)
  let d := { d with tcp := { d.tcp with
    tccps := d.tcp.tccps.map fun t => { t with dcShift := 0 }, matrix := none } }
  if n = 0 then return d
  let (i, _) ← next 1 p
  addMct u d i

/-! ## The marker loop -/

/-- `J2KMarker::is_unknown` of `J2KMarker::from`, `j2k.rs:271-303, 359-364`. -/
def known (m : Nat) : Bool :=
  [0xFF4F, 0xFF90, 0xFF93, 0xFFD9, 0xFF50, 0xFF51, 0xFF52, 0xFF53, 0xFF59, 0xFF5E, 0xFF5C, 0xFF5D, 0xFF5F, 0xFF55,
   0xFF57, 0xFF58, 0xFF60, 0xFF61, 0xFF91, 0xFF92, 0xFF63, 0xFF64, 0xFF78, 0xFF75, 0xFF74, 0xFF77].contains m

/-- `m_state & states() != NONE`, `j2k.rs:366-393`, in the states `MHSIZ` and `MH`. -/
def allowed (siz : Bool) (m : Nat) : Bool :=
  if siz then !([0xFF51, 0xFF58, 0xFF61, 0xFF91].contains m) else m == 0xFF51

/-- `J2KMarker::handler`, `j2k.rs:395-431`, for the states of the main header. -/
def handle (u : User) (m : Nat) (d : Dec) (p : List UInt8) (size : Nat) : R Dec :=
  if m = 0xFF51 then readSiz u d p size
  else if m = 0xFF52 then readCod u d p size
  else if m = 0xFF53 then readCoc u d p size
  else if m = 0xFF5E then readRgn d p size
  else if m = 0xFF5C then readQcd d p size
  else if m = 0xFF5D then readQcc d p size
  else if m = 0xFF5F then readPoc d p size
  else if m = 0xFF55 then readTlm d p size
  else if m = 0xFF57 then readPlm d size
  else if m = 0xFF60 then readPpm d p size
  else if m = 0xFF63 then readCrg d size
  else if m = 0xFF64 then .ok d
  else if m = 0xFF74 then readMct d p size
  else if m = 0xFF75 then readMcc d p size
  else if m = 0xFF77 then readMco u d p size
  else if m = 0xFF78 then readCbd d p size
  else if m = 0xFF50 then .ok d
  else if m = 0xFF59 then .ok d
  else .error .refused

/-- `opj_stream_read_data` into the header buffer, with the preceding `opj_realloc` if the buffer is too small
(`j2k.rs:8344-8372`). The rest of the buffer keeps its bytes. -/
def load (n : Nat) (buf s : List UInt8) : R (List UInt8 × List UInt8) :=
  if s.length < n then .error .refused else .ok (s.take n ++ buf.drop n, s.drop n)

/-- `opj_j2k_read_unk`, `j2k.rs:4995-5060`: the next known marker, two bytes at a time. `fuel` bounds the
rounds by the length of the stream. -/
def readUnk : Nat → Dec → List UInt8 → R (Nat × Dec × List UInt8)
  | 0, _, _ => .error .panic
  | fuel + 1, d, s => do
    let (buf, s) ← load 2 d.buf s
    let d := { d with buf := buf }
    let (m, _) ← next 2 buf
    if m < 0xFF00 then readUnk fuel d s
    else
      refuseIf (allowed d.siz m = false)
      if known m then return (m, d, s) else readUnk fuel d s

/-- The body of the loop of `opj_j2k_read_header_procedure` for the marker `m`, `j2k.rs:8301-8415`: the next
marker. -/
def readSegment (u : User) (m : Nat) (d : Dec) (s : List UInt8) : R (Nat × Dec × List UInt8) := do
  let d := { d with hasSiz := d.hasSiz || m == 0xFF51, hasCod := d.hasCod || m == 0xFF52,
                    hasQcd := d.hasQcd || m == 0xFF5C }
  refuseIf (allowed d.siz m = false)
  let (buf, s) ← load 2 d.buf s
  let (len, _) ← next 2 buf
  refuseIf (len < 2)
  let (buf, s) ← load (len - 2) buf s
  let d ← handle u m { d with buf := buf } buf (len - 2)
  let (buf, s) ← load 2 d.buf s
  let (m, _) ← next 2 buf
  return (m, { d with buf := buf }, s)

/-- The loop of `opj_j2k_read_header_procedure`, `j2k.rs:8274-8416`. Running out of `fuel` is reported as a panic;
with the length of the stream as fuel it does not happen (`C53_header_total`). -/
def readMarkers (u : User) : Nat → Nat → Dec → List UInt8 → R (Dec × List UInt8)
  | 0, m, d, s => if m = 0xFF90 then .ok (d, s) else .error .panic
  | fuel + 1, m, d, s => do
    if m = 0xFF90 then return (d, s)
    refuseIf (m < 0xFF00)
    if known m then
      let (m, d, s) ← readSegment u m d s
      readMarkers u fuel m d s
    else
      let (m, d, s) ← readUnk (s.length + 1) d s
      if m = 0xFF90 then return (d, s)
      let (m, d, s) ← readSegment u m d s
      readMarkers u fuel m d s

/-! ## Packed packet headers -/

/-- The inner loop of the first pass of `opj_j2k_merge_ppm`, `j2k.rs:3127-3156`: the total size and what is
still missing of the last series. Each round takes 4 bytes; `fuel` is the number of bytes. -/
def ppmSizes : Nat → List UInt8 → Nat → R (Nat × Nat)
  | 0, _, _ => .error .panic
  | fuel + 1, data, total => do
    refuseIf (data.length < 4)
    let (n, data) ← next 4 data
    refuseIf (2 ^ 32 - 1 - n < total)
    if n ≤ data.length then
      if data.length - n = 0 then return (total + n, 0) else ppmSizes fuel (data.drop n) (total + n)
    else return (total + n, n - data.length)

/-- The first pass of `opj_j2k_merge_ppm`, `j2k.rs:3107-3160`. -/
def ppmPass1 : List (Option (List UInt8)) → Nat → Nat → R (Nat × Nat)
  | [], total, rem => .ok (total, rem)
  | none :: ms, total, rem => ppmPass1 ms total rem
  | some data :: ms, total, rem => do
    if data.length ≤ rem then ppmPass1 ms total (rem - data.length)
    else
      let (total, rem) ← ppmSizes ((data.drop rem).length + 1) (data.drop rem) total
      ppmPass1 ms total rem

/-- `memcpy` to the end of what has been written of a buffer of `cap` bytes. -/
def copyOut (cap : Nat) (out src : List UInt8) : R (List UInt8) :=
  if out.length + src.length ≤ cap then .ok (out ++ src) else .error .oob

/-- The inner loop of the second pass, `j2k.rs:3211-3256`. -/
def ppmCopy (cap : Nat) : Nat → List UInt8 → List UInt8 → R (List UInt8 × Nat)
  | 0, _, _ => .error .panic
  | fuel + 1, data, out => do
    refuseIf (data.length < 4)
    let (n, data) ← next 4 data
    if n ≤ data.length then
      let src ← bytesAt n data
      let out ← copyOut cap out src
      if data.length - n = 0 then return (out, 0) else ppmCopy cap fuel (data.drop n) out
    else
      let out ← copyOut cap out data
      return (out, n - data.length)

/-- The second pass of `opj_j2k_merge_ppm`, `j2k.rs:3173-3264`. -/
def ppmPass2 (cap : Nat) : List (Option (List UInt8)) → List UInt8 → Nat → R (List UInt8)
  | [], out, _ => .ok out
  | none :: ms, out, rem => ppmPass2 cap ms out rem
  | some data :: ms, out, rem => do
    if data.length ≤ rem then
      let out ← copyOut cap out data
      ppmPass2 cap ms out (rem - data.length)
    else
      let src ← bytesAt rem data
      let out ← copyOut cap out src
      let (out, rem) ← ppmCopy cap ((data.drop rem).length + 1) (data.drop rem) out
      ppmPass2 cap ms out rem

/-- `opj_j2k_merge_ppm`, `j2k.rs:3092-3273`. -/
def mergePpm (d : Dec) : R Dec := do
  if d.ppm = false then return d
  let (total, rem) ← ppmPass1 d.ppms 0 0
  refuseIf (rem ≠ 0)
  -- `opj_malloc(0)` returns null
  refuseIf (total = 0)
  let out ← ppmPass2 total d.ppms [] 0
  return { d with ppms := [], ppmData := out }

/-- `opj_j2k_read_header_procedure`, `j2k.rs:8240-8445`, from a stream of bytes: the decoder, and the stream
behind the first `SOT` marker. -/
def readHeader (u : User) (s : List UInt8) : R (Dec × List UInt8) := do
  let d : Dec := {}
  -- `opj_j2k_read_soc`, `j2k.rs:1028-1067`
  refuseIf (s.length < 2)
  let (soc, s) ← next 2 s
  refuseIf (soc ≠ 0xFF4F)
  let (buf, s) ← load 2 d.buf s
  let (m, _) ← next 2 buf
  let (d, s) ← readMarkers u (s.length + 1) m { d with buf := buf } s
  refuseIf (d.hasSiz = false)
  refuseIf (d.hasCod = false)
  refuseIf (d.hasQcd = false)
  let d ← mergePpm d
  return (d, s)

/-! ## Writing -/

/-- What the encoder writes into the main header: image, coding parameters, and the tile parameters of the
first tile (`tcps[0]`), the number of tile-parts if a `TLM` marker is wanted, and the comment. -/
structure Enc where
  rsiz : Nat
  x0 : Nat
  y0 : Nat
  x1 : Nat
  y1 : Nat
  tdx : Nat
  tdy : Nat
  tx0 : Nat
  ty0 : Nat
  comps : List Comp
  csty : Nat
  prg : Nat
  numlayers : Nat
  mct : Nat
  tccps : List Tccp
  tlm : Option Nat := none
  comment : Option (List UInt8) := none
deriving Repr

/-- `opj_write_bytes(p, v, nb)`: the bytes written (`cio.rs:40-53`). -/
abbrev be (nb v : Nat) : List UInt8 := Cio.toBe nb v

/-- `opj_j2k_write_siz`, `j2k.rs:1076-1170`. -/
def writeSiz (e : Enc) : List UInt8 :=
  be 2 0xFF51 ++ be 2 (38 + 3 * e.comps.length) ++ be 2 e.rsiz ++ be 4 e.x1 ++ be 4 e.y1 ++ be 4 e.x0 ++ be 4 e.y0 ++
  be 4 e.tdx ++ be 4 e.tdy ++ be 4 e.tx0 ++ be 4 e.ty0 ++ be 2 e.comps.length ++
  e.comps.flatMap fun c => be 1 ((c.prec + (2 ^ 32 - 1) + c.sgnd * 2 ^ 7) % 2 ^ 32) ++ be 1 c.dx ++ be 1 c.dy

/-- `opj_j2k_get_SPCod_SPCoc_size`, `j2k.rs:10180-10204`. -/
def spcodSize (t : Tccp) : Nat := if t.csty % 2 ≠ 0 then 5 + t.numres else 5

/-- `opj_j2k_write_SPCod_SPCoc`, `j2k.rs:10272-10330`: the bytes written and what is left of `size`. The last
component of the result is the returned flag. -/
def writeSPCod (t : Tccp) (size : Nat) : R (List UInt8 × Nat × Bool) := do
  if size < 5 then return ([], size, false)
  let b := be 1 (t.numres + (2 ^ 32 - 1)) ++ be 1 (t.cblkw + (2 ^ 32 - 2)) ++ be 1 (t.cblkh + (2 ^ 32 - 2)) ++
    be 1 t.cblksty ++ be 1 t.qmfbid
  if t.csty % 2 ≠ 0 then
    if size - 5 < t.numres then return (b, size - 5, false)
    if t.prcs.length < t.numres then .error .panic
    else return (b ++ (t.prcs.take t.numres).flatMap fun q => be 1 (q.1 + q.2 * 16), size - 5 - t.numres, true)
  else return (b, size - 5, true)

/-- The first component (`tccps.offset(0)`). -/
def first (e : Enc) : R Tccp :=
  match e.tccps with
  | [] => .error .oob
  | t :: _ => .ok t

/-- `opj_j2k_write_cod`, `j2k.rs:1604-1685`. -/
def writeCod (e : Enc) : R (List UInt8) := do
  let t ← first e
  let size := 9 + spcodSize t
  let (b, left, ok) ← writeSPCod t (size - 9)
  refuseIf (ok = false)
  refuseIf (left ≠ 0)
  return be 2 0xFF52 ++ be 2 (size - 2) ++ be 1 e.csty ++ be 1 e.prg ++ be 2 e.numlayers ++ be 1 e.mct ++ b

/-- `opj_j2k_compare_coc`, `j2k.rs:1874-1898`, with `opj_j2k_compare_SPCod_SPCoc`, `:10213-10261`. -/
def sameStyle (a b : Tccp) : Bool :=
  a.csty == b.csty && a.numres == b.numres && a.cblkw == b.cblkw && a.cblkh == b.cblkh && a.cblksty == b.cblksty &&
  a.qmfbid == b.qmfbid && a.prcs.take a.numres == b.prcs.take a.numres

/-- The first `size` bytes of the header buffer after `b` was written at its start; `junk` is what it held. -/
def filled (junk : List UInt8) (size : Nat) (b : List UInt8) : List UInt8 :=
  b ++ (junk.drop b.length).take (size - b.length)

/-- `opj_j2k_write_coc` and `opj_j2k_write_coc_in_memory`, `j2k.rs:1798-1862, 1907-1965`. The element written
behind `Scoc` is that of component 0. -/
def writeCoc (e : Enc) (junk : List UInt8) (i : Nat) (t : Tccp) : R (List UInt8) := do
  let t0 ← first e
  let size := 5 + room e.comps.length + spcodSize t
  let (b, _, _) ← writeSPCod t0 (spcodSize t)
  return filled junk size
    (be 2 0xFF53 ++ be 2 (size - 2) ++ be (room e.comps.length) i ++ be 1 t.csty ++ b)

/-- Number of bands, `j2k.rs:10546-10553`. -/
def numBands (t : Tccp) : Nat := if t.qntsty = 1 then 1 else (t.numres * 3 + (2 ^ 32 - 2)) % 2 ^ 32

/-- `opj_j2k_get_SQcd_SQcc_size`, `j2k.rs:10525-10560`. -/
def sqcdSize (t : Tccp) : Nat := if t.qntsty = 0 then 1 + numBands t else 1 + 2 * numBands t

/-- `opj_j2k_write_SQcd_SQcc`, `j2k.rs:10640-10718`. All callers give exactly the room computed by
`opj_j2k_get_SQcd_SQcc_size`. -/
def writeSQcd (t : Tccp) : R (List UInt8) := do
  if t.steps.length < numBands t then .error .panic
  else if t.qntsty = 0 then
    return be 1 (t.qntsty + t.numgbits * 2 ^ 5) ++ (t.steps.take (numBands t)).flatMap fun s => be 1 (s.1 * 2 ^ 3)
  else
    return be 1 (t.qntsty + t.numgbits * 2 ^ 5) ++
      (t.steps.take (numBands t)).flatMap fun s => be 2 (s.1 * 2 ^ 11 + s.2)

/-- `opj_j2k_write_qcd`, `j2k.rs:2076-2146`. -/
def writeQcd (e : Enc) : R (List UInt8) := do
  let t ← first e
  let b ← writeSQcd t
  return be 2 0xFF5C ++ be 2 (2 + sqcdSize t) ++ b

/-- `opj_j2k_compare_qcc`, `j2k.rs:2256-2262`, with `opj_j2k_compare_SQcd_SQcc`, `:10567-10630`. -/
def sameQuant (a b : Tccp) : Bool :=
  a.qntsty == b.qntsty && a.numgbits == b.numgbits && (a.qntsty == 1 || numBands a == numBands b) &&
  (a.steps.take (numBands a)).map Prod.fst == (b.steps.take (numBands a)).map Prod.fst &&
  (a.qntsty == 0 || (a.steps.take (numBands a)).map Prod.snd == (b.steps.take (numBands a)).map Prod.snd)

/-- `opj_j2k_write_qcc` and `opj_j2k_write_qcc_in_memory`, `j2k.rs:2191-2246, 2277-2325`. -/
def writeQcc (e : Enc) (i : Nat) (t : Tccp) : R (List UInt8) := do
  let b ← writeSQcd t
  return be 2 0xFF5D ++ be 2 (2 + room e.comps.length + sqcdSize t) ++ be (room e.comps.length) i ++ b

/-- `opj_j2k_write_all_coc`, `j2k.rs:4870-4892`: `i` is the number of the first component of the list. -/
def writeCocs (e : Enc) (junk : List UInt8) : Nat → List Tccp → R (List UInt8)
  | _, [] => .ok []
  | i, t :: ts => do
    let t0 ← first e
    let b ← if sameStyle t0 t then pure [] else writeCoc e junk i t
    let rest ← writeCocs e junk (i + 1) ts
    return b ++ rest

/-- `opj_j2k_write_all_qcc`, `j2k.rs:4898-4920`. -/
def writeQccs (e : Enc) : Nat → List Tccp → R (List UInt8)
  | _, [] => .ok []
  | i, t :: ts => do
    let t0 ← first e
    let b ← if sameQuant t0 t then pure [] else writeQcc e i t
    let rest ← writeQccs e (i + 1) ts
    return b ++ rest

/-- `opj_j2k_write_tlm`, `j2k.rs:3451-3540`: room for the lengths, filled in later. -/
def writeTlm (n : Nat) : R (List UInt8) := do
  refuseIf (10921 < n)
  let per := if n ≤ 255 then 5 else 6
  return be 2 0xFF55 ++ be 2 (4 + per * n) ++ be 1 0 ++ be 1 (if n ≤ 255 then 0x50 else 0x60) ++
    List.replicate (per * n) 0

/-- `opj_j2k_write_rgn`, `j2k.rs:4430-4484`. -/
def writeRgn (e : Enc) (i : Nat) (t : Tccp) : List UInt8 :=
  be 2 0xFF5E ++ be 2 (4 + room e.comps.length) ++ be (room e.comps.length) i ++ be 1 0 ++ be 1 t.roishift

/-- `opj_j2k_write_regions`, `j2k.rs:4926-4958`. -/
def writeRgns (e : Enc) : Nat → List Tccp → List UInt8
  | _, [] => []
  | i, t :: ts => (if t.roishift ≠ 0 then writeRgn e i t else []) ++ writeRgns e (i + 1) ts

/-- `opj_j2k_write_com`, `j2k.rs:1515-1575`. -/
def writeCom (c : List UInt8) : List UInt8 :=
  be 2 0xFF64 ++ be 2 (c.length + 4) ++ be 2 1 ++ c

/-- The `TLM` marker, if one is wanted (`j2k.rs:12633-12638`). -/
def writeTlmIf : Option Nat → R (List UInt8)
  | none => .ok []
  | some n => writeTlm n

/-- The comment, if there is one (`j2k.rs:12640-12642`). -/
def writeComIf : Option (List UInt8) → List UInt8
  | none => []
  | some c => writeCom c

/-- The markers `opj_j2k_setup_header_writing` (`j2k.rs:12620-12660`) puts in the main header, in its order.
Profiles other than the cinema ones (`rsiz = 4` adds a `POC`) and without a custom component transform
(`rsiz` with the bits `0x8100` adds `MCT`, `MCC`, `MCO`). -/
def writeHeader (e : Enc) (junk : List UInt8) : R (List UInt8) := do
  let cod ← writeCod e
  let qcd ← writeQcd e
  let cocs ← writeCocs e junk 1 e.tccps.tail
  let qccs ← writeQccs e 1 e.tccps.tail
  let tlm ← writeTlmIf e.tlm
  return be 2 0xFF4F ++ writeSiz e ++ cod ++ qcd ++ cocs ++ qccs ++ tlm ++ writeRgns e 0 e.tccps ++ writeComIf e.comment

end Jp2.Hdr

import Verif.Jp2.Cut
import Verif.Jp2.PipeCode
import Verif.Jp2.TpWrite
import Verif.Jp2.HdrSpec
/-!
# The encoder and the decoder of an image, `openjp2-rs/src/j2k.rs`

What the other modules model, put together: `opj_start_compress`, `opj_encode` and `opj_end_compress` on the one side, `opj_read_header`,
`opj_set_decode_area` for all of the image and `opj_decode` on the other; images that are coded reversibly, without progression order
changes and without regions of interest. Memory is never short and the streams take and give everything.
-/
namespace Jp2.Codec
open Jp2.Hdr (R Fail User Enc Tccp)
open Jp2.Tcd (Rect)
open Jp2.Cut (CompI)

/-- What both sides know of the image: its area, the tiles, precision, sign and steps of its components, and how it is coded. -/
structure Par where
  x0 : Nat
  y0 : Nat
  x1 : Nat
  y1 : Nat
  tx0 : Nat
  ty0 : Nat
  tdx : Nat
  tdy : Nat
  tw : Nat
  th : Nat
  comps : List (Nat × Nat × Nat × Nat)
  csty : Nat
  prg : Int
  layers : Nat
  mct : Nat
  tccps : List Tccp

/-- The encoder's parameters; it counts the tiles in `opj_j2k_setup_encoder`, `j2k.rs:6936`, `7286-7287`. -/
def encPar (e : Enc) : Par :=
  ⟨e.x0, e.y0, e.x1, e.y1, e.tx0, e.ty0, e.tdx, e.tdy, Hdr.cdiv (e.x1 - e.tx0) e.tdx, Hdr.cdiv (e.y1 - e.ty0) e.tdy,
    e.comps.map fun c => (c.prec, c.sgnd, c.dx, c.dy), e.csty, e.prg, e.numlayers, e.mct, e.tccps⟩

/-- The decoder's, after the main header, for a tile with the coding parameters `tcp`. -/
def decPar (h : Hdr.Dec) (tcp : Hdr.Tcp) : Par :=
  ⟨h.x0, h.y0, h.x1, h.y1, h.tx0, h.ty0, h.tdx, h.tdy, h.tw, h.th, h.comps.map fun c => (c.prec, c.sgnd, c.dx, c.dy),
    tcp.csty, tcp.prg, tcp.numlayers, tcp.mct, tcp.tccps⟩

/-- Image, tiles and components for `opj_tcd_init_tile`; `sz` are the sizes of its structures. -/
def params (sz : Nat × Nat) (p : Par) : Tcd.Params :=
  ⟨p.x0, p.y0, p.x1, p.y1, p.tx0, p.ty0, p.tdx, p.tdy, p.tw,
    (p.comps.zip p.tccps).map fun x => ⟨x.1.2.2.1, x.1.2.2.2, x.2.prcs.take x.2.numres, x.2.cblkw, x.2.cblkh⟩, sz.1, sz.2⟩

/-- Which step size a band of a resolution has, `tcd.rs:953`, `1362`: one after the other. -/
def bandNo (rn bi : Nat) : Nat := if rn = 0 then 0 else 3 * (rn - 1) + 1 + bi

/-- The bit planes of a band, `tcd.rs:1113`: exponent, plus guard bits, less one (30 if there is no such band; it is never used). -/
def planes (ts : List Tccp) (c rn bi : Nat) : Int :=
  match ts[c]? with
  | none => 30
  | some t =>
    if rn < t.numres ∧ bi < (if rn = 0 then 1 else 3) then
      match t.steps[bandNo rn bi]? with
      | none => 30
      | some s => (s.1 : Int) + t.numgbits - 1
    else 30

/-- What the coder of a tile is given. -/
def setup (sz : Nat × Nat) (p : Par) (n : Nat) : Pipe.Setup :=
  ⟨params sz p, n, p.layers, p.prg, p.mct, (p.comps.zip p.tccps).map fun x => ⟨x.1.1, x.1.2.1 == 1, x.2.cblksty⟩, p.csty, planes p.tccps⟩

/-! ## The encoder -/

/-- What the encoder finds in memory and is free to do: for every tile, what the buffers of its parts hold, what memory holds that was not
written, and what the buffer for its samples held. -/
structure EncEnv where
  room : Nat → Nat → List UInt8
  junk : Nat → Nat → Nat → Int
  old : Nat → List UInt8

/-- A tile, coded: the body of the loop of `opj_j2k_encode`, `j2k.rs:12187-12264`, and `opj_tcd_encode_tile`. `plan` is the rate allocation. -/
def codeTile (m : Mode) (fuel : Nat) (sz : Nat × Nat) (plan : Nat → Nat → Nat → Nat → Nat → Nat → Pipe.Plan) (X : EncEnv) (flag : Option Pi.Letter)
    (p : Par) (cs : List CompI) (n : Nat) : R Pipe.Coding :=
  if p.tw * p.th ≤ n then .error .refused
  else match Tcd.initTile true (params sz p) n with
    | .error _ => .error .refused
    | .ok T => do
      let xs ← Cut.cutTile (p.tw * p.th == 1) ⟨p.x0, p.y0, p.x1, p.y1⟩ (X.old n) ((T.comps.map (·.rect)).zip cs)
      match Pipe.encodeTile m fuel (setup sz p n) flag (plan n) (X.room n) (X.junk n) xs with
      | none => .error .panic
      | some K => .ok K

/-- The tile coder as `opj_j2k_write_sod` calls it, part by part. `X.room` says what the buffers hold; if it says another length for a buffer
than it has, that is not a run of the program. -/
def coder (m : Mode) (fuel : Nat) (sz : Nat × Nat) (plan : Nat → Nat → Nat → Nat → Nat → Nat → Pipe.Plan) (X : EncEnv) (flag : Option Pi.Letter)
    (p : Par) (cs : List CompI) : Tp.Coder := fun tile _ _ cur room => do
  let K ← codeTile m fuel sz plan X flag p cs tile
  match K.parts[cur]?, K.sizes[cur]? with
  | some d, some s => if (X.room tile cur).length = room then .ok ⟨d, s⟩ else .error .panic
  | _, _ => .error .panic

/-- The tiles with their packet iterators. -/
def tiles (m : Mode) (sz : Nat × Nat) (p : Par) : R (List Tp.WTile) :=
  (List.range (p.tw * p.th)).mapM fun n =>
    match Pi.tileInfo m (setup sz p n).pi n with
    | none => .error .panic
    | some i => .ok ⟨(setup sz p n).pi, i⟩

/-- `opj_start_compress`, `opj_encode` and `opj_end_compress` for the image with components `cs`: the codestream. -/
def encode (m : Mode) (fuel : Nat) (sz : Nat × Nat) (plan : Nat → Nat → Nat → Nat → Nat → Nat → Pipe.Plan) (X : EncEnv) (c : Tp.Cfg) (e : Enc)
    (junk old : List UInt8) (cs : List CompI) : R (List UInt8) := do
  let ts ← tiles m sz (encPar e)
  Tp.writeFile c e (coder m fuel sz plan X c.flag (encPar e) cs) ts junk old

/-! ## The decoder -/

/-- What the decoder finds in memory: for every tile, what lies behind the data of its blocks, what memory holds that was not written, and
what buffers kept from tile to tile hold. -/
structure DecEnv where
  ex : Nat → Nat → Pipe.Extra
  junk1 : Nat → Nat → Nat → Int
  junk2 : Nat → Nat → Nat → Int
  kept : Nat → Nat → List Int

/-- A tile, decoded, `opj_tcd_decode_tile`: its components with their samples. -/
def decodeJob (m : Mode) (fuel : Nat) (sz : Nat × Nat) (D : DecEnv) (strict : Bool) (h : Hdr.Dec) (j : Tp.Job) :
    R (Nat × List (Rect × List Int)) :=
  match Tcd.initTile false (params sz (decPar h j.tcp)) j.tile with
  | .error _ => .error .refused
  | .ok T =>
    match Pipe.decodeTile m fuel (setup sz (decPar h j.tcp) j.tile) strict (D.ex j.tile) (D.junk1 j.tile) (D.junk2 j.tile) j.data with
    | none => .error .refused
    | some (_, xs) => .ok (j.tile, (T.comps.map (·.rect)).zip xs)

/-- Samples of a rectangle, row by row, by their positions. -/
def planeOf (r : Rect) (x : List Int) (u v : Int) : Int := (x[((v - r.y0) * (r.x1 - r.x0) + (u - r.x0)).toNat]?).getD 0

/-- The samples of the tiles. -/
def samplesOf (ys : List (Nat × List (Rect × List Int))) (n i : Nat) (u v : Int) : Int :=
  match (ys.lookup n).bind fun l => l[i]? with
  | none => 0
  | some y => planeOf y.1 y.2 u v

/-- `opj_read_header`, `opj_set_decode_area` with four zeros, which means all of the image, and `opj_decode`: the image's components. The code
puts a tile into the image before it decodes the next; here all tiles are decoded first. -/
def decode (m : Mode) (fuel : Nat) (sz : Nat × Nat) (D : DecEnv) (u : User) (strict : Bool) (f : List UInt8) : R (List Area.Comp) := do
  let (h, _) ← Hdr.readHeader u f
  let d : Area.Dec := ⟨params sz (decPar h h.tcp), h.th, u.reduce⟩
  let (w, b, cs) ← Area.setArea d (h.comps.map fun c => { dx := c.dx, dy := c.dy }) 0 0 0 0
  let js ← Tp.decodeFile u strict (Area.single d b) (some w) f
  let ys ← js.mapM (decodeJob m fuel sz D strict h)
  Area.decodeBy d b [] (samplesOf ys) D.kept (js.map (·.tile)) cs

end Jp2.Codec

import Verif.Jp2.Hdr
import Verif.Jp2.Math
/-!
# Setting up the encoder

File: `openjp2-rs/src/j2k.rs`, with the step sizes of `dwt.rs`. `opj_setup_encoder` turns the parameters a user asks for into
the coding parameters of the image and of every tile; `opj_start_compress` checks them once more.

Not modelled: compression rates and distortion ratios (floating point; but the array they are in is, as far as its size goes)
and the limits on the codestream size that change only them; custom component transforms (`mct_data` is null); memory
allocation (succeeds, unless for nothing); messages. `i32` values are `Int`, `u32` values `Nat`.
-/
namespace Jp2.Setup
open Jp2.Hdr (R refuseIf Comp Tccp Enc)

/-- `as u32`. -/
def u32 (x : Int) : Nat := (x % 2 ^ 32).toNat

/-- A progression order change as asked for (`opj_poc_t`); `tile` counts from 1. -/
structure Change where
  tile : Nat := 0
  resno0 : Nat := 0
  compno0 : Nat := 0
  layno1 : Nat := 0
  resno1 : Nat := 0
  compno1 : Nat := 0
  prg1 : Int := 0
deriving DecidableEq, Repr

/-- `opj_cparameters_t`, the fields that are modelled, with the values `opj_set_default_encoder_parameters` gives. Arrays are lists of
their size: 32 changes, 33 precinct sizes. `matrix`: `cp_matrice` is not null. -/
structure Params where
  tileSizeOn : Bool := false
  tx0 : Int := 0
  ty0 : Int := 0
  tdx : Int := 0
  tdy : Int := 0
  fixedAlloc : Bool := false
  matrix : Bool := false
  comment : Option (List UInt8) := none
  csty : Int := 0
  prg : Int := 0
  pocs : List Change := List.replicate 32 {}
  numpocs : Nat := 0
  layers : Int := 1
  numres : Int := 6
  cblockw : Int := 64
  cblockh : Int := 64
  mode : Int := 0
  irreversible : Int := 0
  roiComp : Int := -1
  roiShift : Int := 0
  resSpec : Int := 0
  prcw : List Int := List.replicate 33 0
  prch : List Int := List.replicate 33 0
  cinema : Nat := 0
  cpRsiz : Nat := 0
  tpOn : Bool := false
  tpFlag : Nat := 0
  mct : Int := 0
  rsiz : Nat := 0
deriving Repr

/-- The image: its area on the reference grid, its components. -/
structure Image where
  x0 : Nat
  y0 : Nat
  x1 : Nat
  y1 : Nat
  comps : List Comp
deriving Repr

/-- `opj_int_floorlog2`. -/
def log2 (a : Int) : R Nat :=
  match Math.intFloorlog2 a with
  | some k => .ok k
  | none => .error .panic

/-- The checks at the start (`j2k.rs:6849-6930`). -/
def checkRanges (p : Params) : R Unit := do
  refuseIf (p.numres ≤ 0 ∨ 33 < p.numres)
  refuseIf (p.cblockw < 4 ∨ 1024 < p.cblockw)
  refuseIf (p.cblockh < 4 ∨ 1024 < p.cblockh)
  refuseIf (4096 < p.cblockw * p.cblockh)
  let w ← log2 p.cblockw
  let h ← log2 p.cblockh
  refuseIf (p.cblockw ≠ 2 ^ w)
  refuseIf (p.cblockh ≠ 2 ^ h)
  refuseIf (p.fixedAlloc = true ∧ p.matrix = false)
  refuseIf (p.fixedAlloc = true ∧ 10 < p.layers)
  refuseIf (p.fixedAlloc = true ∧ 10 < p.numres)

/-- The old ways to ask for a profile (`j2k.rs:6937-6983`). -/
def deprecated (p : Params) : Params :=
  if p.rsiz = 0 then
    let r := if p.cinema = 1 ∨ p.cinema = 2 then 3 else if p.cinema = 3 then 4 else 0
    { p with rsiz := if p.cpRsiz = 3 then 3 else if p.cpRsiz = 4 then 4 else if p.cpRsiz = 33024 then 0x8100 else r }
  else p

/-- The number of layers (`j2k.rs:6985-6989`). The arrays of rates and ratios have 100 places, and all that follows indexes them
by layer (`6990-7150`). -/
def fixLayers (p : Params) : R Params := do
  let p := if p.layers = 0 then { p with layers := 1 } else p
  if p.layers < 1 ∨ 100 < p.layers then .error .panic else return p

/-- Cinema profiles, `OPJ_IS_CINEMA`. -/
def isCinema (rsiz : Nat) : Bool := decide (3 ≤ rsiz) && decide (rsiz ≤ 6)

/-- Interoperable master format profiles, `OPJ_IS_IMF`. -/
def isImf (rsiz : Nat) : Bool := decide (0x400 ≤ rsiz) && decide (rsiz ≤ 0x99B)

/-- `csty |= 1`. -/
def withPrecincts (c : Int) : Int := if c % 2 = 0 then c + 1 else c

/-- Set the first elements of an array. -/
def fill (l : List Int) (n : Nat) (x : Int) : List Int := List.replicate n x ++ l.drop n

/-- The precincts of the profiles (`j2k.rs:6207-6220`, `6430-6444`). -/
def profilePrecincts (p : Params) : Params :=
  if p.numres = 1 then { p with csty := withPrecincts p.csty, resSpec := 1, prcw := fill p.prcw 1 128, prch := fill p.prch 1 128 }
  else { p with csty := withPrecincts p.csty, resSpec := p.numres - 1, prcw := fill p.prcw (p.numres - 1).toNat 256,
                prch := fill p.prch (p.numres - 1).toNat 256 }

/-- `opj_j2k_initialise_4K_poc`, `j2k.rs:6115-6136`. -/
def pocs4k (numres : Int) (l : List Change) : List Change :=
  { tile := 1, resno0 := 0, compno0 := 0, layno1 := 1, resno1 := u32 (numres - 1), compno1 := 3, prg1 := 4 } ::
  { tile := 1, resno0 := u32 (numres - 1), compno0 := 0, layno1 := 1, resno1 := u32 numres, compno1 := 3, prg1 := 4 } :: l.drop 2

/-- The number of resolutions in the cinema profiles (`j2k.rs:6182-6205`). -/
def cinemaRes (rsiz : Nat) (n : Int) : Int :=
  if rsiz = 3 then (if 6 < n then 6 else n)
  else if rsiz = 4 then (if n < 2 then 1 else if 7 < n then 7 else n)
  else n

/-- `opj_j2k_set_cinema_parameters`, `j2k.rs:6137-6264`. -/
def setCinema (p : Params) : Params :=
  let p : Params := { p with
    tileSizeOn := false, tdx := 1, tdy := 1, tpFlag := 67, tpOn := true, tx0 := 0, ty0 := 0, cblockw := 32, cblockh := 32, mode := 0,
    roiComp := -1, irreversible := 1, layers := if 1 < p.layers then 1 else p.layers, numres := cinemaRes p.rsiz p.numres }
  let p : Params := { profilePrecincts p with prg := 4 }
  if p.rsiz = 4 then { p with pocs := pocs4k p.numres p.pocs, numpocs := 2 } else { p with numpocs := 0 }

/-- `opj_j2k_is_cinema_compliant`, `j2k.rs:6265-6332`. -/
def cinemaCompliant (im : Image) (rsiz : Nat) : Bool :=
  im.comps.length == 3 && im.comps.all (fun c => c.prec == 12 && c.sgnd == 0) &&
  match im.comps.head? with
  | none => true
  | some c =>
    if rsiz = 3 then !(decide (2048 < c.w) || decide (1080 < c.h))
    else if rsiz = 4 then !(decide (4096 < c.w) || decide (2160 < c.h))
    else true

/-- The width of tiles as the checks for these profiles see it (`j2k.rs:6340-6344`, `6474-6478`). -/
def xtsiz (p : Params) (im : Image) : Nat := if p.tileSizeOn then u32 p.tdx else im.x1

/-- `opj_j2k_get_imf_max_NL`, `j2k.rs:6333-6379`. -/
def imfMaxNL (p : Params) (im : Image) : Int :=
  let x := xtsiz p im
  match p.rsiz / 256 * 256 with
  | 0x400 => 5
  | 0x500 => 6
  | 0x600 => 7
  | 0x700 => if 2048 ≤ x then 5 else if 1024 ≤ x then 4 else -1
  | 0x800 => if 4096 ≤ x then 6 else if 2048 ≤ x then 5 else if 1024 ≤ x then 4 else -1
  | 0x900 => if 8192 ≤ x then 7 else if 4096 ≤ x then 6 else if 2048 ≤ x then 5 else if 1024 ≤ x then 4 else -1
  | _ => -1

/-- The loop of `j2k.rs:6413-6425`. -/
def shrinkRes (x y : Nat) : Nat → Nat
  | 0 => 0
  | n + 1 => if x < 2 ^ n then shrinkRes x y n else if 2 ^ n ≤ y then n + 1 else shrinkRes x y n

/-- The number of resolutions in these profiles, if it is the default one (`j2k.rs:6406-6427`). -/
def imfRes (p : Params) (im : Image) : Int :=
  if p.numres = 6 ∧ im.x0 = 0 ∧ im.y0 = 0 then
    let n := if 0 ≤ imfMaxNL p im ∧ imfMaxNL p im < p.numres then imfMaxNL p im + 1 else p.numres
    if p.tileSizeOn then n else shrinkRes im.x1 im.y1 n.toNat
  else p.numres

/-- The profiles with one tile and the 9-7 transform. -/
def imfSingle (rsiz : Nat) : Bool := rsiz / 256 * 256 == 0x400 || rsiz / 256 * 256 == 0x500 || rsiz / 256 * 256 == 0x600

/-- `opj_j2k_set_imf_parameters`, `j2k.rs:6380-6446`. -/
def setImf (p : Params) (im : Image) : Params :=
  let p := if p.cblockw = 64 ∧ p.cblockh = 64 then { p with cblockw := 32, cblockh := 32 } else p
  let p : Params := { p with
    tpFlag := 67, tpOn := true, prg := if p.prg = 0 then 4 else p.prg,
    irreversible := if imfSingle p.rsiz then 1 else p.irreversible, numres := imfRes p im }
  if p.csty = 0 then profilePrecincts p else p

/-- `tabMaxSubLevelFromMainLevel`, `j2k.rs:6448-6461`. -/
def maxSub : List Nat := [15, 1, 1, 1, 2, 3, 4, 5, 6, 7, 8, 9]

/-- The tile size in these profiles (`j2k.rs:6523-6554`). The conditions on the profile within the second part never hold. -/
def imfTiles (p : Params) (im : Image) : Bool :=
  !p.tileSizeOn ||
  if imfSingle p.rsiz then !(decide (u32 p.tdx < im.x1) || decide (u32 p.tdy < im.y1))
  else
    (decide (im.x1 ≤ u32 p.tdx) && decide (im.y1 ≤ u32 p.tdy)) || (p.tdx == 1024 && p.tdy == 1024) ||
    (p.tdx == 2048 && p.tdy == 2048 && (p.rsiz / 256 * 256 == 0x500 || p.rsiz / 256 * 256 == 0x600)) ||
    (p.tdx == 4096 && p.tdy == 4096 && p.rsiz / 256 * 256 == 0x600)

/-- The subsampling of the components from number `i` on, behind one with `dx = prev` (`j2k.rs:6574-6614`). -/
def imfSampling : Nat → Nat → List Comp → Bool
  | _, _, [] => true
  | i, prev, c :: cs =>
    (i != 0 || c.dx == 1) && (i != 1 || c.dx == 1 || c.dx == 2) && (decide (i ≤ 1) || c.dx == prev) && c.dy == 1 &&
    imfSampling (i + 1) c.dx cs

/-- The image size in these profiles (`j2k.rs:6615-6663`). -/
def imfSize (rsiz : Nat) (c : Comp) : Bool :=
  match rsiz / 256 * 256 with
  | 0x400 | 0x700 => !(decide (2048 < c.w) || decide (1556 < c.h))
  | 0x500 | 0x800 => !(decide (4096 < c.w) || decide (3112 < c.h))
  | 0x600 | 0x900 => !(decide (8192 < c.w) || decide (6224 < c.h))
  | _ => false

/-- `(1..=m).contains(&n)`. -/
def within (m n : Int) : Bool := decide (1 ≤ n) && decide (n ≤ m)

/-- The number of decompositions in these profiles (`j2k.rs:6717-6808`). -/
def imfLevels (p : Params) (im : Image) : Bool :=
  let n := p.numres - 1
  let x := xtsiz p im
  match p.rsiz / 256 * 256 with
  | 0x400 => within 5 n
  | 0x500 => within 6 n
  | 0x600 => within 7 n
  | 0x700 => if 2048 ≤ x then within 5 n else !decide (1024 ≤ x) || within 4 n
  | 0x800 => if 4096 ≤ x then within 6 n else if 2048 ≤ x then within 5 n else !decide (1024 ≤ x) || within 4 n
  | 0x900 =>
    if 8192 ≤ x then within 7 n else if 4096 ≤ x then within 6 n else if 2048 ≤ x then within 5 n else !decide (1024 ≤ x) || within 4 n
  | _ => true

/-- The precincts in these profiles (`j2k.rs:6809-6832`). -/
def imfPrecincts (p : Params) : Bool :=
  if p.numres = 1 then p.resSpec == 1 && p.prcw[0]? == some 128 && p.prch[0]? == some 128
  else (p.prcw.take p.resSpec.toNat).all (· == 256) && (p.prch.take p.resSpec.toNat).all (· == 256)

/-- `opj_j2k_is_imf_compliant`, `j2k.rs:6462-6834`. -/
def imfCompliant (p : Params) (im : Image) : Bool :=
  (match maxSub[p.rsiz % 16]? with
    | none => false
    | some m => decide (p.rsiz / 16 % 16 ≤ m)) &&
  decide (im.comps.length ≤ 3) && im.x0 == 0 && im.y0 == 0 && p.tx0 == 0 && p.ty0 == 0 && imfTiles p im &&
  im.comps.all (fun c => decide (8 ≤ c.prec) && decide (c.prec ≤ 16) && c.sgnd == 0) && imfSampling 0 0 im.comps &&
  (match im.comps.head? with
    | none => true
    | some c => imfSize p.rsiz c) &&
  p.roiComp == -1 && p.cblockw == 32 && p.cblockh == 32 && p.prg == 4 && p.numpocs == 0 && p.mode == 0 &&
  (if imfSingle p.rsiz then p.irreversible == 1 else p.irreversible == 0) && p.layers == 1 && imfLevels p im && imfPrecincts p

/-- The profiles (`j2k.rs:7157-7224`). The check of the precincts in the IMF profiles indexes the array of 33 sizes by the number of sizes
asked for. -/
def profiles (p : Params) (im : Image) : R Params :=
  if isCinema p.rsiz then
    if p.rsiz = 5 ∨ p.rsiz = 6 then .ok { p with rsiz := 0 }
    else
      let p := setCinema p
      if cinemaCompliant im p.rsiz then .ok p else .ok { p with rsiz := 0 }
  else if p.rsiz = 7 then .ok { p with rsiz := 0 }
  else if 0x100 ≤ p.rsiz ∧ p.rsiz ≤ 0x30B then .ok { p with rsiz := 0 }
  else if isImf p.rsiz then
    let p := setImf p im
    if p.numres ≠ 1 ∧ 33 < p.resSpec then .error .panic
    else if imfCompliant p im then .ok p else .ok { p with rsiz := 0 }
  else if p.rsiz / 0x8000 % 2 = 1 then
    if p.rsiz = 0x8100 then .ok p else .ok { p with rsiz := 0 }
  else .ok p

/-- The tile grid (`j2k.rs:7250-7308`): the tile size, and the number of tiles across and down. -/
structure Grid where
  tdx : Nat
  tdy : Nat
  tx0 : Nat
  ty0 : Nat
  tw : Nat
  th : Nat
deriving DecidableEq, Repr

/-- `opj_uint_ceildiv(a - b, d)` with the subtraction checked. -/
def across (a b d : Nat) : R Nat :=
  if a < b then .error .panic
  else match Math.uintCeildiv (a - b) d with
    | some q => .ok q
    | none => .error .panic

/-- `j2k.rs:7250-7308`. -/
def grid (p : Params) (im : Image) : R Grid :=
  if p.tileSizeOn then do
    refuseIf (u32 p.tdx = 0)
    refuseIf (u32 p.tdy = 0)
    let tw ← across im.x1 (u32 p.tx0) (u32 p.tdx)
    let th ← across im.y1 (u32 p.ty0) (u32 p.tdy)
    if th = 0 then .error .panic
    else do
      refuseIf (65535 / th < tw)
      return ⟨u32 p.tdx, u32 p.tdy, u32 p.tx0, u32 p.ty0, tw, th⟩
  else .ok ⟨(im.x1 + 2 ^ 32 - u32 p.tx0) % 2 ^ 32, (im.y1 + 2 ^ 32 - u32 p.ty0) % 2 ^ 32, u32 p.tx0, u32 p.ty0, 1, 1⟩

/-- The progression order changes of a tile (`j2k.rs:7358-7383`): the loop over the changes asked for from number `i` on, `k` of them, with
those found so far. What is copied is the change numbered by how many have been found. -/
def tilePocs (l : List Change) (n tile : Nat) : Nat → Nat → List Pi.Poc → R (List Pi.Poc)
  | 0, _, acc => .ok acc
  | k + 1, i, acc =>
    match l[i]?, l[acc.length]? with
    | some c, some q =>
      if tile + 1 = c.tile then do
        refuseIf (n ≤ q.compno0)
        tilePocs l n tile k (i + 1) (acc ++ [{ resno0 := q.resno0, compno0 := q.compno0, layno1 := q.layno1, resno1 := q.resno1,
                                               compno1 := min q.compno1 n, prg := q.prg1 }])
      else tilePocs l n tile k (i + 1) acc
    | _, _ => .error .panic

/-- The exponent of a precinct size (`j2k.rs:7555-7568`, `7577-7590`). -/
def exponent (s : Int) : R Nat := if s < 1 then .ok 1 else log2 s

/-- The precinct exponent of the `k`-th resolution from the highest one down (`j2k.rs:7554-7591`). -/
def precinct (sizes : List Int) (spec : Int) (k : Nat) : R Nat :=
  if (k : Int) < spec then
    match sizes[k]? with
    | some s => exponent s
    | none => .error .panic
  else if spec ≤ 0 then .error .panic
  else
    match sizes[(spec - 1).toNat]? with
    | some s => if 32 ≤ k - (spec - 1).toNat then .error .panic else exponent (s >>> (k - (spec - 1).toNat))
    | none => .error .panic

/-- The precincts of a component (`j2k.rs:7548-7604`). -/
def precincts (p : Params) (n : Nat) : R (List (Nat × Nat)) :=
  if p.csty % 2 = 1 then do
    let l ← (List.range n).mapM fun r => do
      let w ← precinct p.prcw p.resSpec (n - 1 - r)
      let h ← precinct p.prch p.resSpec (n - 1 - r)
      return (w, h)
    return l ++ List.replicate (33 - n) (0, 0)
  else .ok (List.replicate n (15, 15) ++ List.replicate (33 - n) (0, 0))

/-- `opj_dwt_norms_real`, `dwt.rs:330-343`, in thousandths. -/
def normTable : List (List Nat) := [
  [1000, 1965, 4177, 8403, 16900, 33840, 67690, 135300, 270600, 540900],
  [2022, 3989, 8355, 17040, 34270, 68630, 137300, 274600, 549000, 0],
  [2022, 3989, 8355, 17040, 34270, 68630, 137300, 274600, 549000, 0],
  [2080, 3865, 8307, 17180, 34710, 69590, 139300, 278600, 557200, 0]]

/-- `opj_dwt_getnorm_real`, `dwt.rs:1343-1353`. -/
def norm (level orient : Nat) : Nat :=
  let l := if orient = 0 ∧ 10 ≤ level then 9 else if 0 < orient ∧ 9 ≤ level then 8 else level
  (normTable.getD orient []).getD l 0

/-- `opj_dwt_encode_stepsize`, `dwt.rs:638-653`, for a positive step size: exponent and mantissa. -/
def encodeStep (s : Nat) (numbps : Int) : R (Nat × Nat) := do
  let k ← log2 s
  return (u32 (numbps - ((k : Int) - 13)), (if 11 < k then s >>> (k - 11) else s <<< (11 - k)) % 2048)

/-- `resno`, `orient`, of band `b` (`dwt.rs:1372-1387`). -/
def bandRes (b : Nat) : Nat := if b = 0 then 0 else (b - 1) / 3 + 1
def bandOrient (b : Nat) : Nat := if b = 0 then 0 else (b - 1) % 3 + 1

/-- `dwt.rs:1392-1400`. -/
def gain (qmfbid orient : Nat) : Nat := if qmfbid = 0 then 0 else if orient = 0 then 0 else if orient = 1 ∨ orient = 2 then 1 else 2

/-- One band of `opj_dwt_calc_explicit_stepsizes`, `dwt.rs:1366-1413`. The step size is computed in `f64` there; here it is the exact
quotient, rounded down. The two agree for all entries of the table. -/
def bandStep (qntsty qmfbid numres prec b : Nat) : R (Nat × Nat) :=
  let g := gain qmfbid (bandOrient b)
  let s := if qntsty = 0 then 8192 else 2 ^ g * 8192000 / norm (numres - 1 - bandRes b) (bandOrient b)
  encodeStep s (wrap32 (prec + g))

/-- `opj_dwt_calc_explicit_stepsizes`, `dwt.rs:1356-1415`. -/
def steps (qntsty qmfbid numres prec : Nat) : R (List (Nat × Nat)) := do
  let l ← (List.range (3 * numres - 2)).mapM (bandStep qntsty qmfbid numres prec)
  return l ++ List.replicate (97 - (3 * numres - 2)) (0, 0)

/-- The level shift (`j2k.rs:7507-7516`). -/
def shift (c : Comp) : R Int :=
  if c.sgnd = 0 then
    if c.prec = 0 ∨ 32 < c.prec then .error .panic else .ok (wrap32 (2 ^ (c.prec - 1)))
  else .ok 0

/-- Component `i` of a tile (`j2k.rs:7504-7607`). -/
def component (p : Params) (i : Nat) (c : Comp) : R Tccp := do
  let sh ← shift c
  let n := u32 p.numres
  let w ← log2 p.cblockw
  let h ← log2 p.cblockh
  let q := if p.irreversible ≠ 0 then 0 else 1
  let y := if p.irreversible ≠ 0 then 2 else 0
  if p.csty % 2 = 1 ∧ n = 0 then .error .panic
  else do
    let pr ← precincts p n
    let st ← steps y q n c.prec
    return { csty := u32 (p.csty % 2), numres := n, cblkw := w, cblkh := h, cblksty := u32 p.mode, qmfbid := q, prcs := pr, qntsty := y,
             numgbits := 2, steps := st, roishift := if (i : Int) = p.roiComp then u32 p.roiShift else 0, dcShift := sh }

/-- All components, from number `i` on. -/
def components (p : Params) : Nat → List Comp → R (List Tccp)
  | _, [] => .ok []
  | i, c :: cs => do
    let t ← component p i c
    let ts ← components p (i + 1) cs
    return t :: ts

/-- A tile: its changes and its components. -/
structure Tile where
  pocs : List Pi.Poc
  tccps : List Tccp

/-- One round of the loop over the tiles (`j2k.rs:7330-7609`). -/
def tile (p : Params) (im : Image) (t : Nat) : R Tile := do
  let q ← tilePocs p.pocs im.comps.length t p.numpocs 0 []
  let cs ← components p 0 im.comps
  return ⟨q, cs⟩

/-- The component transform (`j2k.rs:7355`, `7486-7503`): none if the first three components are sampled differently. -/
def transform (p : Params) (im : Image) : Nat :=
  match im.comps with
  | a :: b :: c :: _ => if u32 p.mct = 1 ∧ (a.dx ≠ b.dx ∨ a.dx ≠ c.dx ∨ a.dy ≠ b.dy ∨ a.dy ≠ c.dy) then 0 else u32 p.mct
  | _ => u32 p.mct

/-- `"Created by OpenJPEG version 2.5.2"` (`j2k.rs:7267`). -/
def defaultComment : List UInt8 :=
  [67, 114, 101, 97, 116, 101, 100, 32, 98, 121, 32, 79, 112, 101, 110, 74, 80, 69, 71, 32, 118, 101, 114, 115, 105, 111, 110, 32, 50, 46, 53,
   46, 50]

/-- What has been set up: what goes into the main header (that of the first tile), the tile grid, whether `TLM` is wanted, where
new tile-parts are wanted, and all tiles. -/
structure Coding where
  enc : Enc
  grid : Grid
  tlm : Bool
  tp : Option Nat
  tiles : List Tile

/-- `opj_j2k_setup_encoder`, `j2k.rs:6835-7617`. Simplified: an image without components is taken as an access outside the array of components,
which it is if there is a rate (otherwise it is refused for want of memory for nothing). -/
def setup (p : Params) (im : Image) : R Coding := do
  checkRanges p
  if im.comps = [] then .error .oob
  else do
    let p1 ← fixLayers (deprecated p)
    let p2 ← profiles p1 im
    let g ← grid p2 im
    refuseIf (g.tw * g.th = 0)
    let ts ← (List.range (g.tw * g.th)).mapM (tile p2 im)
    match ts with
    | [] => .error .panic
    | t :: _ =>
      return {
        enc := { rsiz := p2.rsiz, x0 := im.x0, y0 := im.y0, x1 := im.x1, y1 := im.y1, tdx := g.tdx, tdy := g.tdy, tx0 := g.tx0, ty0 := g.ty0,
                 comps := im.comps, csty := u32 p2.csty, prg := u32 p2.prg, numlayers := u32 p2.layers, mct := transform p2 im,
                 tccps := t.tccps, comment := some (p2.comment.getD defaultComment) }
        grid := g
        tlm := isCinema p1.rsiz || isImf p1.rsiz
        tp := if p2.tpOn then some p2.tpFlag else none
        tiles := ts }

/-- `opj_j2k_encoding_validation`, `j2k.rs:8157-8212`, at the start of `opj_start_compress`. -/
def validate (c : Coding) : R Unit :=
  match c.enc.tccps with
  | [] => .error .oob
  | t :: _ => do
    refuseIf (t.numres = 0 ∨ 32 < t.numres)
    refuseIf (c.enc.tdx < 2 ^ (t.numres - 1))
    refuseIf (c.enc.tdy < 2 ^ (t.numres - 1))

end Jp2.Setup

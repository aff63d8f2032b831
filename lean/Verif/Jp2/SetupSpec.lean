import Verif.Jp2.Setup
import Verif.Jp2.HdrSpec
/-!
# What may be asked of the encoder, and what is to come of it
-/
namespace Jp2.Setup
open Jp2.Hdr (Comp Tccp Dec cdiv levelShift)

/-- The precinct size asked for, for the `k`-th resolution from the highest one down: where none is given, the last one halved as
often as needed. -/
def askedSize (l : List Int) (spec : Int) (k : Nat) : Int :=
  if (k : Int) < spec then l.getD k 0 else l.getD (spec - 1).toNat 0 / 2 ^ (k - (spec - 1).toNat)

/-- The width and height of tiles asked for: those given, or the whole image. -/
def askedTile (p : Params) (im : Image) : Int × Int := if p.tileSizeOn then (p.tdx, p.tdy) else (im.x1 - p.tx0, im.y1 - p.ty0)

/-- Parameters that make sense, without one of the profiles and without progression order changes. -/
structure Fits (p : Params) (im : Image) : Prop where
  image_x : im.x0 < im.x1 ∧ im.x1 < 2 ^ 32
  image_y : im.y0 < im.y1 ∧ im.y1 < 2 ^ 32
  origin_x : 0 ≤ p.tx0 ∧ p.tx0 ≤ im.x0
  origin_y : 0 ≤ p.ty0 ∧ p.ty0 ≤ im.y0
  /-- The first tile overlaps the image; there are at most 65535 tiles. -/
  tiles : p.tileSizeOn = true → p.tdx < 2 ^ 31 ∧ p.tdy < 2 ^ 31 ∧ (im.x0 : Int) < p.tx0 + p.tdx ∧ (im.y0 : Int) < p.ty0 + p.tdy ∧
    cdiv (im.x1 - p.tx0.toNat) p.tdx.toNat * cdiv (im.y1 - p.ty0.toNat) p.tdy.toNat ≤ 65535
  comps_len : 1 ≤ im.comps.length ∧ im.comps.length ≤ 16384
  comps : ∀ c ∈ im.comps, (1 ≤ c.prec ∧ c.prec ≤ if p.irreversible = 0 then 29 else 21) ∧ c.sgnd ≤ 1 ∧ (1 ≤ c.dx ∧ c.dx ≤ 255) ∧
    (1 ≤ c.dy ∧ c.dy ≤ 255)
  res : 1 ≤ p.numres ∧ p.numres ≤ 32
  res_tile : (2 : Int) ^ (p.numres - 1).toNat ≤ (askedTile p im).1 ∧ (2 : Int) ^ (p.numres - 1).toNat ≤ (askedTile p im).2
  /-- Code-blocks: powers of two from 4 on, at most 4096 samples. -/
  cblk : ∃ a b : Nat, p.cblockw = 2 ^ a ∧ p.cblockh = 2 ^ b ∧ 2 ≤ a ∧ 2 ≤ b ∧ a + b ≤ 12
  layers : 0 ≤ p.layers ∧ p.layers ≤ 100
  csty : 0 ≤ p.csty ∧ p.csty ≤ 7
  prg : 0 ≤ p.prg ∧ p.prg ≤ 4
  mode : 0 ≤ p.mode ∧ p.mode ≤ 127
  mct : p.mct = 0 ∨ p.mct = 1
  roi : 0 ≤ p.roiShift ∧ p.roiShift ≤ 255
  /-- Precincts, if they are asked for: at most 32768 samples wide and high, and no single sample above the lowest resolution. -/
  prec_spec : p.csty % 2 = 1 → 1 ≤ p.resSpec ∧ p.resSpec ≤ 33 ∧ p.prcw.length = 33 ∧ p.prch.length = 33
  prec_size : p.csty % 2 = 1 → ∀ k : Nat, (k : Int) < p.numres → ∀ l, l = p.prcw ∨ l = p.prch →
    1 ≤ askedSize l p.resSpec k ∧ askedSize l p.resSpec k < 2 ^ 16 ∧ ((k : Int) + 1 < p.numres → 2 ≤ askedSize l p.resSpec k)
  profile : p.rsiz ≤ 2 ∧ p.cinema = 0 ∧ p.cpRsiz = 0
  changes : p.numpocs = 0
  alloc : p.fixedAlloc = false
  comment : ∀ c, p.comment = some c → c.length ≤ 65531

/-- The norms of the 9-7 wavelets in thousandths: of the band `LL`, and of `HL`, `LH`, `HH` (orientation 1, 2, 3), after `level`
further decompositions; the last number known stands for all that follow. -/
def waveletNorm (level orient : Nat) : Nat :=
  match orient with
  | 0 => [1000, 1965, 4177, 8403, 16900, 33840, 67690, 135300, 270600, 540900].getD (min level 9) 0
  | 3 => [2080, 3865, 8307, 17180, 34710, 69590, 139300, 278600, 557200].getD (min level 8) 0
  | _ => [2022, 3989, 8355, 17040, 34270, 68630, 137300, 274600, 549000].getD (min level 8) 0

/-- The step size of a band: reversible, its exponent is the number of bits of its coefficients, which is one more than that of the samples
for `HL` and `LH` and two more for `HH`; otherwise the step of exponent `e` and mantissa `m`, which is `2^(prec - e) (1 + m / 2^11)`, is the
inverse of the norm of the band's wavelets, as near as 1/8192 and eleven bits come from below. -/
def StepFor (irr : Bool) (numres prec b : Nat) (s : Nat × Nat) : Prop :=
  let orient := if b = 0 then 0 else (b - 1) % 3 + 1
  let level := if b = 0 then numres - 1 else numres - 2 - (b - 1) / 3
  if irr then
    let v := 8192 * 1000 / waveletNorm level orient
    (2 ^ 11 + s.2) * 2 ^ 13 * 2 ^ prec ≤ v * 2 ^ 11 * 2 ^ s.1 ∧ v * 2 ^ 11 * 2 ^ s.1 < (2 ^ 11 + s.2 + 1) * 2 ^ 13 * 2 ^ prec
  else s = (prec + [0, 1, 1, 2].getD orient 0, 0)

/-- Component `i`, described by `c`, is coded as asked for. -/
structure CompAsked (p : Params) (i : Nat) (c : Comp) (t : Tccp) : Prop where
  numres : (t.numres : Int) = p.numres
  cblkw : (2 : Int) ^ t.cblkw = p.cblockw
  cblkh : (2 : Int) ^ t.cblkh = p.cblockh
  cblksty : (t.cblksty : Int) = p.mode
  qmfbid : t.qmfbid = if p.irreversible = 0 then 1 else 0
  precincts : ∀ r : Nat, (r : Int) < p.numres → ∃ w h, t.prcs[r]? = some (w, h) ∧
    if p.csty % 2 = 1 then
      let k := (p.numres - 1).toNat - r
      ((2 : Int) ^ w ≤ askedSize p.prcw p.resSpec k ∧ askedSize p.prcw p.resSpec k < 2 ^ (w + 1)) ∧
      ((2 : Int) ^ h ≤ askedSize p.prch p.resSpec k ∧ askedSize p.prch p.resSpec k < 2 ^ (h + 1))
    else w = 15 ∧ h = 15
  qntsty : t.qntsty = if p.irreversible = 0 then 0 else 2
  numgbits : t.numgbits = 2
  steps : ∀ b < 3 * t.numres - 2, ∃ s, t.steps[b]? = some s ∧ StepFor (p.irreversible != 0) t.numres c.prec b s
  roishift : (t.roishift : Int) = if (i : Int) = p.roiComp then p.roiShift else 0
  shift : t.dcShift = levelShift c

/-- A decoder that has read the main header knows what was asked for. -/
structure AsAsked (p : Params) (im : Image) (d : Dec) : Prop where
  rsiz : d.rsiz = p.rsiz
  image : d.x0 = im.x0 ∧ d.y0 = im.y0 ∧ d.x1 = im.x1 ∧ d.y1 = im.y1
  origin : (d.tx0 : Int) = p.tx0 ∧ (d.ty0 : Int) = p.ty0
  tiles : (d.tdx : Int) = (askedTile p im).1 ∧ (d.tdy : Int) = (askedTile p im).2
  comps : d.comps.map (fun c => (c.prec, c.sgnd, c.dx, c.dy)) = im.comps.map fun c => (c.prec, c.sgnd, c.dx, c.dy)
  csty : (d.tcp.csty : Int) = p.csty
  prg : (d.tcp.prg : Int) = p.prg
  layers : (d.tcp.numlayers : Int) = if p.layers = 0 then 1 else p.layers
  /-- The component transform, unless the first three components are sampled differently. -/
  mct : (d.tcp.mct : Int) = if ((im.comps.take 3).map fun c => (c.dx, c.dy)).Pairwise (· = ·) ∨ im.comps.length < 3 then p.mct else 0
  changes : d.tcp.pocs = []
  tccps_len : d.tcp.tccps.length = im.comps.length
  tccps : ∀ i c t, im.comps[i]? = some c → d.tcp.tccps[i]? = some t → CompAsked p i c t

end Jp2.Setup

import Verif.Jp2.CodecSpec
import Verif.Jp2.SetupSpec
import Verif.Jp2.ExtraSpec
/-!
# Plain images

What a user asks for, and the samples they hand over.
-/
namespace Jp2.Setup
open Jp2.Cut (CompI)

/-- An image of up to 32768 by 32768 samples from the corner of the grid on, all components with `P` bits and all samples, to be coded
reversibly: no region of interest, no precinct sizes, no tile-parts, no high throughput blocks, blocks of 256 samples or more, at most six
resolutions, any progression but the one by resolution and position; if there are tiles, their size is a multiple of what the levels of the
wavelet transform divide it by. -/
structure Plain (p : Params) (im : Image) (P : Nat) : Prop where
  fits : Fits p im
  reversible : p.irreversible = 0
  roi : p.roiShift = 0
  precincts : p.csty % 2 = 0
  mode : p.mode < 64
  corner : im.x0 = 0 ∧ im.y0 = 0 ∧ p.tx0 = 0 ∧ p.ty0 = 0
  large : im.x1 ≤ 32768 ∧ im.y1 ≤ 32768
  comps : ∀ c ∈ im.comps, c.prec = P ∧ c.dx = 1 ∧ c.dy = 1
  prec : 5 ≤ P ∧ P ≤ 16
  res : p.numres ≤ 6
  blocks : 256 ≤ p.cblockw * p.cblockh
  order : p.prg ≠ 2
  parts : p.tpOn = false
  tiles : p.tileSizeOn = true → (2 : Int) ^ (p.numres - 1).toNat ∣ p.tdx ∧ (2 : Int) ^ (p.numres - 1).toNat ∣ p.tdy
  colour : p.mct = 1 → 3 ≤ im.comps.length

/-- The samples of the image: for every component as many as the image has positions, each in the range of `P` bits. -/
structure Samples (im : Image) (P : Nat) (cs : List CompI) : Prop where
  same : cs.map (fun c => (c.prec, c.sgnd, c.dx, c.dy)) = im.comps.map fun c => (c.prec, c.sgnd, c.dx, c.dy)
  size : ∀ c ∈ cs, c.data.length = im.x1 * im.y1
  range : ∀ c ∈ cs, ∀ v ∈ c.data, if c.sgnd = 1 then -2 ^ (P - 1) ≤ v ∧ v < 2 ^ (P - 1) else 0 ≤ v ∧ v < 2 ^ P

end Jp2.Setup

import Verif.Jp2.Area
import Verif.Jp2.Cio
/-!
# Cutting the image into tiles for the encoder, `openjp2-rs/src/j2k.rs` and `tcd.rs`

`opj_j2k_encode` copies the samples of a tile into a buffer of bytes (`opj_j2k_get_tile_data`) and from there into the
tile-components (`opj_tcd_copy_tile_data`). If there is one tile only, it works on the samples of the image in place. Allocations
succeed. The slices the code makes of the image's samples reach past their end (`j2k.rs:12446-12447`); only samples that are read count here.
-/
namespace Jp2.Cut
open Jp2.Hdr (R Fail refuseIf)
open Jp2.Setup (u32)
open Jp2.Tcd (asI32 Rect)
open Jp2.Area (opt i32 sub Box)

/-- A component of the image to encode (`opj_image_comp`). -/
structure CompI where
  prec : Nat
  sgnd : Nat
  dx : Nat
  dy : Nat
  data : List Int
deriving DecidableEq, Repr

/-- Bytes to a sample, `j2k.rs:12388-12396`, `tcd.rs:2620-2627` and `2868-2877`. -/
def bytes (prec : Nat) : Nat :=
  let s := prec / 8 + if prec % 8 = 0 then 0 else 1
  if s = 3 then 4 else s

/-- Extent of a tile-component, the width of the image in samples, and where the tile begins in it. -/
structure Dims where
  width : Nat
  height : Nat
  image : Nat
  stride : Nat
  offset : Nat
deriving DecidableEq, Repr

/-- `opj_get_tile_dimensions`, `j2k.rs:12373-12411`. The image goes over `b`. -/
def dims (b : Box) (r : Rect) (c : CompI) : R Dims := do
  let w ← i32 (r.x1 - r.x0)
  let h ← i32 (r.y1 - r.y0)
  let ox ← opt (Math.uintCeildiv b.x0 c.dx)
  let oy ← opt (Math.uintCeildiv b.y0 c.dy)
  if b.x1 < b.x0 then throw .panic
  let iw ← opt (Math.uintCeildiv (b.x1 - b.x0) c.dx)
  return ⟨u32 w, u32 h, iw, sub iw (u32 w), (sub (u32 r.x0) ox + sub (u32 r.y0) oy * iw % 2 ^ 32) % 2 ^ 32⟩

/-- `k` rows of `w` samples, `step` apart, from `o` on. -/
def rows (data : List Int) (w step : Nat) : Nat → Nat → R (List Int)
  | 0, _ => .ok []
  | k + 1, o =>
    if data.length < o + w then .error .oob
    else do
      let l ← rows data w step k (o + step)
      return (data.drop o).take w ++ l

/-- A sample in `s` bytes, lowest first, as on every target supported (`j2k.rs:12456`, `12467`, `12482-12483`, `12494-12495`, `12511`): with
and without sign the low bytes. -/
def store (s : Nat) (v : Int) : List UInt8 := (Cio.toBe s (v % 2 ^ (8 * s)).toNat).reverse

/-- One component of `opj_j2k_get_tile_data`, `j2k.rs:12418-12516`. `chunks_exact` panics if asked for chunks of nothing. Other
sizes than one, two and four bytes write nothing. -/
def getComp (b : Box) (r : Rect) (c : CompI) : R (List UInt8) := do
  let d ← dims b r c
  if bytes c.prec = 1 ∨ bytes c.prec = 2 ∨ bytes c.prec = 4 then
    if d.width + d.stride = 0 ∨ d.width = 0 then throw .panic
    let l ← rows c.data d.width (d.width + d.stride) d.height d.offset
    return l.flatMap (store (bytes c.prec))
  else return []

/-- `opj_j2k_get_tile_data`, `j2k.rs:12413-12518`. -/
def getTile (b : Box) : List (Rect × CompI) → R (List UInt8)
  | [] => .ok []
  | x :: l => do
    let a ← getComp b x.1 x.2
    let rest ← getTile b l
    return a ++ rest

/-- `l_nb_elem`, `tcd.rs:2870-2871`. -/
def count (r : Rect) : Nat := (r.x1 - r.x0).toNat * (r.y1 - r.y0).toNat

/-- `opj_tcd_get_encoder_input_buffer_size`, `tcd.rs:2609-2636`. -/
def inputSize (l : List (Rect × CompI)) : Nat := (l.map fun x => bytes x.2.prec * count x.1).sum

/-- A sample from its bytes, `tcd.rs:2884`, `2888`, `2897`, `2901`, `2909`. One and two bytes are taken without a sign, for signed components as
well (`*src as OPJ_INT32` for a `u8`). -/
def load (s : Nat) (l : List UInt8) : Int := if s = 4 then asI32 (Cio.fromBe l.reverse) else Cio.fromBe l.reverse

def loadAll (s : Nat) : Nat → List UInt8 → List Int
  | 0, _ => []
  | n + 1, l => load s (l.take s) :: loadAll s n (l.drop s)

/-- The loop of `opj_tcd_copy_tile_data`, `tcd.rs:2867-2915`. With other sizes than one, two and four bytes the samples stay
uninitialised, which is an error here. -/
def copyComps : List (Rect × CompI) → List UInt8 → R (List (List Int))
  | [], _ => .ok []
  | x :: l, src => do
    let s := bytes x.2.prec
    if s = 1 ∨ s = 2 ∨ s = 4 then
      if src.length < count x.1 * s then throw .panic
      let rest ← copyComps l (src.drop (count x.1 * s))
      return loadAll s (count x.1) src :: rest
    else throw .oob

/-- `opj_tcd_copy_tile_data`, `tcd.rs:2854-2918`. -/
def copyTile (l : List (Rect × CompI)) (src : List UInt8) : R (List (List Int)) := do
  refuseIf (inputSize l ≠ src.length)
  copyComps l src

/-- The samples of the image's only tile, used in place (`j2k.rs:12202-12205`). -/
def inPlace (x : Rect × CompI) : R (List Int) := if x.2.data.length < count x.1 then .error .oob else .ok (x.2.data.take (count x.1))

/-- The samples the encoder works on: the body of the loop of `opj_j2k_encode`, `j2k.rs:12189-12264`, up to `opj_j2k_post_write_tile`. `old` is what
the buffer held before. -/
def cutTile (single : Bool) (b : Box) (old : List UInt8) (l : List (Rect × CompI)) : R (List (List Int)) :=
  if single then l.mapM inPlace
  else do
    let o ← getTile b l
    copyTile l ((o ++ old.drop o.length).take (inputSize l))

end Jp2.Cut

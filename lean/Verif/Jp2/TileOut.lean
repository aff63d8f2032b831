import Verif.Jp2.Cut
/-!
# The bytes of a decoded tile, `openjp2-rs/src/tcd.rs`

For users of `opj_read_tile_header` and `opj_decode_tile_data`: the number of bytes a tile needs (`opj_tcd_get_decoded_tile_size`) and the copy of the
decoded samples to the buffer of the user (`opj_tcd_update_tile_data`). Slices are only counted where they are read. `usize` is taken to be unbounded.
-/
namespace Jp2.TileOut
open Jp2.Hdr (R Fail refuseIf)
open Jp2.Setup (u32)
open Jp2.Tcd (Rect)
open Jp2.Area (opt i32 sub)
open Jp2.Cut (bytes store rows)

/-- A component of a decoded tile: from `opj_image_comp` the precision, sign and number of the resolution decoded; from `opj_tcd_tilecomp` its
resolutions (bounds and window), how many of them are decoded (`minimum_num_resolutions`) and the samples (`data` or `data_win`). -/
structure Part where
  prec : Nat
  sgnd : Nat
  decoded : Nat
  ress : List (Rect × Rect)
  minRes : Nat
  data : List Int
deriving DecidableEq, Repr

/-- The largest `u32`, that stands for a size that does not fit. -/
def tooBig : Nat := 2 ^ 32 - 1

/-- Width and height of a resolution, `tcd.rs:1534-1540`; of its window if `win`. -/
def extent (win : Bool) (r : Rect × Rect) : R (Nat × Nat) :=
  if win then .ok (u32 (r.2.x1 - r.2.x0), u32 (r.2.y1 - r.2.y0))
  else do
    let w ← i32 (r.1.x1 - r.1.x0)
    let h ← i32 (r.1.y1 - r.1.y0)
    return (u32 w, u32 h)

/-- The loop of `opj_tcd_get_decoded_tile_size`, `tcd.rs:1521-1575`. `wrapping_div` by zero panics. -/
def sizeLoop (win : Bool) : List Part → Nat → R Nat
  | [], n => .ok n
  | p :: l, n => do
    let s := bytes p.prec
    match if p.minRes = 0 then none else p.ress[p.minRes - 1]? with
    | none => .error .oob
    | some r => do
      let (w, h) ← extent win r
      if 0 < h ∧ w = 0 then throw .panic
      if 0 < h ∧ tooBig / w < h then return tooBig
      let t := w * h % 2 ^ 32
      if s ≠ 0 ∧ tooBig / s < t then return tooBig
      let t := t * s % 2 ^ 32
      if tooBig - n < t then return tooBig
      sizeLoop win l ((n + t) % 2 ^ 32)

/-- `opj_tcd_get_decoded_tile_size`, `tcd.rs:1506-1577`. -/
def size (acct whole : Bool) (l : List Part) : R Nat := sizeLoop (acct && !whole) l 0

/-- The size a user is told by `opj_read_tile_header`, `j2k.rs:9423-9428`. -/
def told (l : List Part) : R Nat := do
  let n ← size false true l
  refuseIf (n = tooBig)
  return n

/-- Width, height, and what lies between two rows, `tcd.rs:1950-1971`. -/
def layout (whole : Bool) (p : Part) : R (Nat × Nat × Nat) :=
  match p.ress[p.decoded]? with
  | none => .error .oob
  | some r =>
    if whole then
      match if p.minRes = 0 then none else p.ress[p.minRes - 1]? with
      | none => .error .oob
      | some t => do
        let w ← i32 (r.1.x1 - r.1.x0)
        let h ← i32 (r.1.y1 - r.1.y0)
        let tw ← i32 (t.1.x1 - t.1.x0)
        -- negative extents become huge numbers of samples
        if w < 0 ∨ h < 0 ∨ tw < w then throw .oob
        return (w.toNat, h.toNat, (tw - w).toNat)
    else .ok (u32 (r.2.x1 - r.2.x0), u32 (r.2.y1 - r.2.y0), 0)

/-- The loop of `opj_tcd_update_tile_data`, `tcd.rs:1945-2049`: `dest` is what is left of the buffer. With and without sign the low bytes of a sample
are stored. `chunks_exact` panics if asked for chunks of nothing, `split_at_mut` if there is not enough left. -/
def fill (whole : Bool) : List Part → List UInt8 → R (List UInt8)
  | [], dest => .ok dest
  | p :: l, dest => do
    let (w, h, gap) ← layout whole p
    let s := bytes p.prec
    if s = 1 ∨ s = 2 ∨ s = 4 then
      if dest.length < h * w * s then throw .panic
      if w = 0 then throw .panic
      let x ← rows p.data w (w + gap) h 0
      let rest ← fill whole l (dest.drop (h * w * s))
      return x.flatMap (store s) ++ rest
    else fill whole l dest

/-- `opj_tcd_update_tile_data`, `tcd.rs:1929-2052`. -/
def update (whole : Bool) (l : List Part) (dest : List UInt8) : R (List UInt8) := do
  let n ← size true whole l
  refuseIf (n = tooBig ∨ dest.length % 2 ^ 32 < n)
  fill whole l dest

end Jp2.TileOut

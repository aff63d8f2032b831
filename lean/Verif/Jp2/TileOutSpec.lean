import Verif.Jp2.TileOut
/-!
# What the bytes of a decoded tile are
-/
namespace Jp2.TileOut
open Jp2.Tcd (Rect)

/-- The number in some bytes, lowest first. -/
def number : List UInt8 → Nat
  | [] => 0
  | b :: l => b.toNat + 256 * number l

/-- Bytes to a sample of a precision: one, two or four. -/
def sampleBytes (prec : Nat) : Nat := if prec ≤ 8 then 1 else if prec ≤ 16 then 2 else 4

/-- `bs` are the bytes of the sample `v`: its low bits, in two's complement. -/
def BytesOf (prec : Nat) (v : Int) (bs : List UInt8) : Prop := bs.length = sampleBytes prec ∧ (number bs : Int) = v % 2 ^ (8 * sampleBytes prec)

/-- A component as it is after decoding a tile: the rectangle `top` of the highest resolution decoded, whose rows the samples are kept in, and the
rectangle `r` of the resolution of the image. -/
structure Decoded (p : Part) (top r : Rect) : Prop where
  prec : 1 ≤ p.prec ∧ p.prec ≤ 32
  minRes : 0 < p.minRes
  best : ∃ w, p.ress[p.minRes - 1]? = some (top, w)
  res : ∃ w, p.ress[p.decoded]? = some (r, w)
  wide : 0 < r.x1 - r.x0 ∧ r.x1 - r.x0 ≤ top.x1 - top.x0 ∧ top.x1 - top.x0 < 2 ^ 31
  high : 0 < r.y1 - r.y0 ∧ r.y1 - r.y0 ≤ top.y1 - top.y0 ∧ top.y1 - top.y0 < 2 ^ 31
  data : p.data.length = (top.x1 - top.x0).toNat * (top.y1 - top.y0).toNat

/-- Samples in a rectangle. -/
def area (r : Rect) : Nat := (r.x1 - r.x0).toNat * (r.y1 - r.y0).toNat

/-- The sample in column `i` and row `j`, where rows have the width of `top`. -/
def sampleAt (p : Part) (top : Rect) (i j : Nat) : Int := p.data.getD (j * (top.x1 - top.x0).toNat + i) 0

/-- The samples of the resolution, row by row. -/
def samples (p : Part) (top r : Rect) : List Int :=
  (List.range (r.y1 - r.y0).toNat).flatMap fun j => (List.range (r.x1 - r.x0).toNat).map fun i => sampleAt p top i j

/-- The components of a tile with their rectangles. -/
abbrev Tile := List (Part × Rect × Rect)

def Tile.Decoded (l : Tile) : Prop := ∀ x ∈ l, TileOut.Decoded x.1 x.2.1 x.2.2

/-- Bytes of the tile. -/
def Tile.size (l : Tile) : Nat := (l.map fun x => sampleBytes x.1.prec * area x.2.1).sum

/-- The bytes of the components one after the other, those of the samples of each one after the other. -/
inductive Tile.Holds : Tile → List UInt8 → Prop
  | nil : Holds [] []
  | cons {x : Part × Rect × Rect} {l : Tile} {bs : List (List UInt8)} {rest : List UInt8} :
      List.Forall₂ (BytesOf x.1.prec) (samples x.1 x.2.1 x.2.2) bs → Holds l rest → Holds (x :: l) (bs.flatten ++ rest)

end Jp2.TileOut

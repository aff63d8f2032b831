import Verif.Jp2.Tp
import Verif.Jp2.HdrSpec
/-!
# Tile-parts as A.4.2 of ITU-T T.800 lays them out

A codestream behind its main header: tile-parts of any tiles in any mixture, then `EOC`.
-/
namespace Jp2.Tp
open Jp2.Hdr (R User be)

/-- A tile-part: the tile, its number among the parts of the tile (`TPsot`), how many parts the tile has (`TNsot`, 0 for
unsaid), the marker segments of its header, the data behind `SOD`. -/
structure Part where
  tile : Nat
  num : Nat
  count : Nat := 0
  segs : List (Nat × List UInt8) := []
  data : List UInt8

/-- What follows the `SOT` segment. -/
def Part.body (p : Part) : List UInt8 := (p.segs.flatMap fun s => Hdr.segment s.1 s.2) ++ (be 2 0xFF93 ++ p.data)

/-- The length of the part, from the first byte of `SOT` to the end of the data. -/
def Part.len (p : Part) : Nat := 12 + p.body.length

/-- The bytes of a part with `Psot` set to `psot` (Table A.5). -/
def Part.bytes (p : Part) (psot : Nat) : List UInt8 :=
  be 2 0xFF90 ++ (be 2 10 ++ (be 2 p.tile ++ (be 4 psot ++ (be 1 p.num ++ (be 1 p.count ++ p.body)))))

/-- The parts one after the other; if `zero`, the last one leaves its length unsaid (`Psot` of 0). -/
def partsBytes (zero : Bool) : List Part → List UInt8
  | [] => []
  | p :: ps => p.bytes (if zero = true ∧ ps = [] then 0 else p.len) ++ partsBytes zero ps

/-- The number of parts of tile `i`. -/
def cnt (ps : List Part) (i : Nat) : Nat := ps.countP fun p => p.tile == i

/-- The data of tile `i`: those of its parts, in the order they come. -/
def dataOf (ps : List Part) (i : Nat) : List UInt8 := (ps.filter fun p => p.tile == i).flatMap Part.data

/-- Tile `i` lies in the window, of a grid with `tw` columns. -/
def wanted (tw : Nat) (w : Option Window) (i : Nat) : Bool :=
  match w with
  | none => true
  | some w => w.x0 ≤ i % tw && i % tw < w.x1 && w.y0 ≤ i / tw && i / tw < w.y1

/-- Tile-parts as the standard wants them, `n` tiles in all: those of a tile come in order, and `TNsot`, where it is
given, is their number. The last three limits are this library's: it does not hand over tiles without data,
32 bits have to do for the data of a tile, and a part of a tile that is not wanted must say its length. -/
structure Valid (n : Nat) (want : Nat → Bool) (zero : Bool) (ps : List Part) : Prop where
  tile : ∀ p ∈ ps, p.tile < n
  order : ∀ a p b, ps = a ++ p :: b → p.num = cnt a p.tile
  count : ∀ p ∈ ps, p.count = 0 ∨ p.count = cnt ps p.tile
  few : ∀ p ∈ ps, cnt ps p.tile ≤ 255
  len : ∀ p ∈ ps, p.len < 2 ^ 32
  full : ∀ p ∈ ps, want p.tile = true → dataOf ps p.tile ≠ []
  room : ∀ p ∈ ps, (dataOf ps p.tile).length + 2 < 2 ^ 32
  known : zero = true → ∀ p, ps.getLast? = some p → want p.tile = true

/-- What the headers of a tile's parts have said so far: its coding parameters, and the packed packet headers with their
numbers. -/
structure Par where
  tcp : Hdr.Tcp
  ppts : List (Nat × List UInt8) := []

/-- The packed packet headers in the order of their numbers. -/
def Par.packed (a : Par) : Option (List UInt8) :=
  if a.ppts = [] then none else some ((List.range 256).flatMap fun z => (a.ppts.lookup z).getD [])

/-- The effect of a marker segment in the header of a tile-part. `PLT`, with lengths that are complete, has none. `PPT` adds packet
headers. The others have the effect on the parameters of this tile that they have on those of all tiles in the main
header. -/
inductive SegStep (u : User) (h : Hdr.Dec) : Par → Nat × List UInt8 → Par → Prop
  | plt {a b} : b ≠ [] → (∀ x, b.tail.getLast? = some x → x < 128) → SegStep u h a (0xFF58, b) a
  | ppt {a} {z : UInt8} {x} : h.ppm = false → x ≠ [] → a.ppts.lookup z.toNat = none →
      SegStep u h a (0xFF61, z :: x) { a with ppts := a.ppts ++ [(z.toNat, x)] }
  | shared {a m b tcp} : m < 65536 → m ∉ [0xFF90, 0xFF58, 0xFF61, 0xFF93] → allowed .tph m = true →
      (∀ buf tail : List UInt8, 1000 ≤ (b ++ tail).length →
        Hdr.handle u m { h with buf := buf, tcp := a.tcp } (b ++ tail) b.length = .ok { h with buf := buf, tcp := tcp }) →
      SegStep u h a (m, b) { a with tcp := tcp }

/-- The effect of all the segments of a header. -/
inductive SegsTo (u : User) (h : Hdr.Dec) : Par → List (Nat × List UInt8) → Par → Prop
  | nil {a} : SegsTo u h a [] a
  | cons {a s b l c} : SegStep u h a s b → s.2.length + 2 < 65536 → SegsTo u h b l c → SegsTo u h a (s :: l) c

/-- The effect of the headers of tile-parts on what is known of each tile. Headers of tiles that are not wanted do not
matter. -/
inductive Runs (u : User) (h : Hdr.Dec) (want : Nat → Bool) : (Nat → Par) → List Part → (Nat → Par) → Prop
  | nil {f} : Runs u h want f [] f
  | skip {f p ps g} : want p.tile = false → Runs u h want f ps g → Runs u h want f (p :: ps) g
  | step {f p ps g a} : want p.tile = true → SegsTo u h (f p.tile) p.segs a →
      Runs u h want (fun i => if i = p.tile then a else f i) ps g → Runs u h want f (p :: ps) g

end Jp2.Tp

import Verif.Jp2.TpWrite
import Verif.Jp2.TpSpec
import Verif.Jp2.HdrStd
/-!
# What a written codestream should be

The tile-parts of a codestream as Annex A of ITU-T T.800 wants them, given what the tile coder produced.
-/
namespace Jp2.Tp
open Jp2.Hdr (R be Enc)

/-- The packet lengths in `PLT` segments (A.7.3): groups of seven bits, the highest first, the top bit set in all groups of a
number but its last. `acc` is the number so far, if one has begun. -/
def lengths (acc : Option Nat) : List UInt8 → Option (List Nat)
  | [] => if acc = none then some [] else none
  | b :: bs =>
    if b < 128 then (lengths none bs).map fun l => (acc.getD 0 * 128 + b.toNat) :: l
    else lengths (some (acc.getD 0 * 128 + (b.toNat - 128))) bs

/-- `PLT` segments numbered from `z` on whose packet lengths, one segment after the other, are `l`; none of
them is cut inside a length. -/
inductive PltSegs : Nat → List (Nat × List UInt8) → List Nat → Prop
  | nil {z} : PltSegs z [] []
  | cons {z body a ss b} : z ≤ 255 → body.length + 3 ≤ 65535 → lengths none body = some a → PltSegs (z + 1) ss b →
      PltSegs z ((0xFF58, be 1 z ++ body) :: ss) (a ++ b)

/-- The order in which the parts of a tile are coded: progression by progression. -/
def schedule (ns : List Nat) : List (Nat × Nat) := ns.zipIdx.flatMap fun x => (List.range x.1).map fun k => (x.2, k)

/-- The part `p` holds what the tile coder gave for the `x.2`-th part of progression `x.1`: its bytes, and in its header the
segments `first` and, if wanted, the lengths of its packets. -/
structure Holds (c : Cfg) (code : Coder) (first : List (Nat × List UInt8)) (x : Nat × Nat) (p : Part) : Prop where
  coded : ∃ room o plts, code p.tile x.1 x.2 p.num room = .ok o ∧ p.data = o.data ∧ p.segs = first ++ plts ∧
    (c.plt = none → plts = []) ∧ (c.plt ≠ none → plts ≠ [] ∧ PltSegs 0 plts o.packets)

/-- The `POC` segment of a tile, for the header of its first part: none if there are no changes, and none in the
cinema profiles. -/
def pocSegs (e : Enc) (l : List Hdr.Change) : List (Nat × List UInt8) :=
  if l = [] ∨ (3 ≤ e.rsiz ∧ e.rsiz ≤ 6) then [] else [(0xFF5F, l.flatMap (Hdr.Change.bytes e.comps.length))]

/-- Parts `ps` of tile `tile`, numbered from `k` on, each with the number `n` of all its parts, holding what the coder gave
for `xs` in turn; only the first one has `segs`. -/
inductive PartsOf (c : Cfg) (code : Coder) (tile n : Nat) : Nat → List (Nat × List UInt8) → List (Nat × Nat) → List Part → Prop
  | nil {k s} : PartsOf c code tile n k s [] []
  | cons {k s x xs p ps} : p.tile = tile → p.num = k → p.count = n → Holds c code s x p → PartsOf c code tile n (k + 1) [] xs ps →
      PartsOf c code tile n k s (x :: xs) (p :: ps)

/-- The parts of the tiles from number `i` on, tile after tile. For every tile, its changes and the numbers of parts
of its progressions are given. -/
inductive TilesOf (c : Cfg) (e : Enc) (code : Coder) : Nat → List (List Hdr.Change × List Nat) → List Part → Prop
  | nil {i} : TilesOf c e code i [] []
  | cons {i l ns ts ps qs} : PartsOf c code i ns.sum 0 (pocSegs e l) (schedule ns) ps → TilesOf c e code (i + 1) ts qs →
      TilesOf c e code i ((l, ns) :: ts) (ps ++ qs)

/-- What the tile coder gave for the parts `xs` of a tile, numbered from `k` on: the bytes, one part after the other. -/
inductive Gave (code : Coder) (tile : Nat) : Nat → List (Nat × Nat) → List UInt8 → Prop
  | nil {k} : Gave code tile k [] []
  | cons {k x xs room o d} : code tile x.1 x.2 k room = .ok o → Gave code tile (k + 1) xs d → Gave code tile k (x :: xs) (o.data ++ d)

/-- `TLM` for the given parts (Table A.33): tile and length of each, in their order; tile numbers have one byte if there
are at most 255 parts, else two. -/
def tlmSegment (ps : List Part) : List UInt8 :=
  if ps.length ≤ 255 then Hdr.segment 0xFF55 (be 1 0 ++ be 1 0x50 ++ ps.flatMap fun p => be 1 p.tile ++ be 4 p.len)
  else Hdr.segment 0xFF55 (be 1 0 ++ be 1 0x60 ++ ps.flatMap fun p => be 2 p.tile ++ be 4 p.len)

/-- The main header (as `Hdr.stdHeader`), with `tlm` for its `TLM` segment. -/
def headerWith (e : Enc) (tlm : List UInt8) : List UInt8 :=
  match e.tccps with
  | [] => []
  | t :: ts => be 2 0xFF4F ++ Hdr.stdSiz e ++ Hdr.stdCod e t ++ Hdr.stdQcd t ++ Hdr.stdQccs e.comps.length t 1 ts ++ tlm ++
      Hdr.stdRgns e.comps.length 0 (t :: ts) ++ Hdr.stdCom e.comment

/-- A tile with the progression order changes `l`, none of which asks for more layers, resolutions or components than there
are; `ns` are the numbers of tile-parts of its progressions: at least one and at most 255 in all, and at least one in the
first progression. -/
structure WTileOk (c : Cfg) (e : Enc) (t : WTile) (l : List Hdr.Change) (ns : List Nat) : Prop where
  pocs : t.par.pocs = l.map Hdr.Change.poc
  many : l.length ≤ 32
  fits : ∀ x ∈ l, x.rs ≤ 255 ∧ x.re ≤ numres0 e ∧ x.cs < e.comps.length ∧ x.ce ≤ e.comps.length ∧ x.lye ≤ e.numlayers ∧ x.order ≤ 255
  counts : counts c.flag t = .ok ns
  first : ∃ n, ns.head? = some n ∧ 1 ≤ n
  few : ns.sum ≤ 255

end Jp2.Tp

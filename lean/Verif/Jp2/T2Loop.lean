import Verif.Jp2.T2
import Verif.Jp2.Pi
/-!
# Reading all packets of a tile
-/
namespace Jp2.T2

/-- The decoder's bands of a tile, by component, resolution and precinct number. -/
def Tile := Nat → Nat → Nat → List DecBand

def Tile.set (t : Tile) (p : Pi.Pkt) (bs : List DecBand) : Tile :=
  fun c r k => if c = p.compno ∧ r = p.resno ∧ k = p.precno then bs else t c r k

/-- What of a tile is wanted: the number of layers (`num_layers_to_decode`) and whether a precinct's resolution is among those to decode
and its area is of interest. -/
structure Want where
  layers : Nat
  prec : Nat → Nat → Nat → Bool

/-- `skip_packet`, `t2.rs:385-438`. -/
def Want.skips (w : Want) (p : Pi.Pkt) : Bool := decide (w.layers ≤ p.layno) || !w.prec p.compno p.resno p.precno

/-- One packet, `t2.rs:439-481`. -/
def onePacket (csty : Nat) (sty : Nat → Nat) (strict : Bool) (want : Want) (p : Pi.Pkt) (packed : Option (List UInt8)) (t : Tile) (src : List UInt8) :
    Except Err (Nat × Option (List UInt8) × List DecBand) :=
  if want.skips p then skipPacket csty (sty p.compno) p.layno strict packed (t p.compno p.resno p.precno) src
  else decodePacket csty (sty p.compno) p.layno strict packed (t p.compno p.resno p.precno) src

/-- The loop of `opj_t2_decode_packets`, `t2.rs:350-498`, over the packets the packet iterators give (`Pi.decodePackets`): bytes read, packed
headers left and the tile. `csty` is the tile's coding style, `sty` the code block style of each component. Left out: `resno_decoded`
and `first_pass_failed`, which do not influence the loop, and logging. -/
def decodePackets (csty : Nat) (sty : Nat → Nat) (strict : Bool) (want : Want) :
    List Pi.Pkt → Option (List UInt8) → Tile → List UInt8 → Except Err (Nat × Option (List UInt8) × Tile)
  | [], packed, t, _ => .ok (0, packed, t)
  | p :: ps, packed, t, src => do
    let (n, packed, bs) ← onePacket csty sty strict want p packed t src
    let (k, packed, t) ← decodePackets csty sty strict want ps packed (t.set p bs) (src.drop n)
    return (n + k, packed, t)

end Jp2.T2

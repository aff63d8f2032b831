import Verif.Jp2.T2Loop
import Verif.Jp2.T2SafeSpec
/-!
# What skipping packets must amount to
-/
namespace Jp2.T2

/-- Decode every packet, but keep the results of those wanted only: `t` is the tile with all packets, `out` with those wanted. -/
def keepWanted (csty : Nat) (sty : Nat → Nat) (want : Want) :
    List Pi.Pkt → Option (List UInt8) → Tile → Tile → List UInt8 → Except Err (Nat × Option (List UInt8) × Tile × Tile)
  | [], packed, t, out, _ => .ok (0, packed, t, out)
  | p :: ps, packed, t, out, src => do
    let (n, packed, bs) ← decodePacket csty (sty p.compno) p.layno true packed (t p.compno p.resno p.precno) src
    let (k, packed, t, out) ← keepWanted csty sty want ps packed (t.set p bs) (if want.skips p then out else out.set p bs) (src.drop n)
    return (n + k, packed, t, out)

/-- What the block decoder sees of a band's blocks: the segments and the bytes. -/
def DecBand.shown (b : DecBand) : List (List (Nat × Nat) × List (List UInt8)) :=
  if b.empty then [] else b.prec.cblks.map fun d => (d.view, d.chunks)

/-- The bit planes of a band's blocks. -/
def DecBand.planes (b : DecBand) : List Nat := b.prec.cblks.map fun d => d.numbps

end Jp2.T2

import Verif.Jp2.T2Loop
/-!
# Writing all packets of a tile
-/
namespace Jp2.T2

/-- The encoder's bands of a tile, by component, resolution and precinct number. -/
def EncTile := Nat → Nat → Nat → List EncBand

def EncTile.set (t : EncTile) (p : Pi.Pkt) (bs : List EncBand) : EncTile :=
  fun c r k => if c = p.compno ∧ r = p.resno ∧ k = p.precno then bs else t c r k

/-- The loop of `opj_t2_encode_packets` in the final pass, `t2.rs:241-309`, over the packets of the packet iterator: the
bytes written, the packet sizes kept for the PLT marker (`t2.rs:267-272`), the tile's packet number for SOP markers and
the tile. `dest` is the rest of the output buffer. Left out: the packet index (`cstr_info`). -/
def encodePackets (csty maxlayers : Nat) :
    List Pi.Pkt → Nat → EncTile → List UInt8 → Except Err (List UInt8 × List Nat × Nat × EncTile)
  | [], packno, t, _ => .ok ([], [], packno, t)
  | p :: ps, packno, t, dest =>
    if p.layno < maxlayers then do
      let (out, bs) ← encodePacket csty packno p.layno (t p.compno p.resno p.precno) dest
      let (outs, sizes, packno, t) ← encodePackets csty maxlayers ps ((packno + 1) % 2 ^ 32) (t.set p bs) (dest.drop out.length)
      return (out ++ outs, out.length :: sizes, packno, t)
    else encodePackets csty maxlayers ps packno t dest

/-- The tile-parts of a tile, each with its packets and its buffer, `j2k.rs:12671-12860` and `opj_j2k_write_sod`,
`j2k.rs:4155-4196`: the packet number starts at 0 in the first and goes on in the next. The result is the packet data
and the packet sizes of each. -/
def encodeTileParts (csty maxlayers : Nat) :
    List (List Pi.Pkt × List UInt8) → Nat → EncTile → Except Err (List (List UInt8 × List Nat) × Nat × EncTile)
  | [], packno, t => .ok ([], packno, t)
  | (ps, dest) :: parts, packno, t => do
    let (out, sizes, packno, t) ← encodePackets csty maxlayers ps packno t dest
    let (rest, packno, t) ← encodeTileParts csty maxlayers parts packno t
    return ((out, sizes) :: rest, packno, t)

end Jp2.T2

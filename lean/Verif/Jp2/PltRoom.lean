import Verif.Jp2.TpWrite
/-!
# Room for packet lengths

Files: `openjp2-rs/src/pi.rs`, `openjp2-rs/src/t2.rs`, `openjp2-rs/src/j2k.rs`. With the option `PLT=YES` the encoder notes
the length of every packet of a tile-part in an array, and writes the lengths into a buffer. Both are as large as a count of
packets made beforehand says.

Modelled: the count, the array and the room set aside. Not modelled: allocation failures; the lengths of the other segments
of a tile-part header (`l_nb_bytes` before `j2k.rs:2617`), which are a parameter.
-/
namespace Jp2.PltRoom
open Jp2.Hdr (R Fail)
open Jp2.Pi (TileParams Pkt Letter tileInfo)

/-- `opj_get_encoding_packet_count`, `pi.rs:2142-2180`: wrapping `u32` products. `none`: a panic. -/
def packetCount (m : Mode) (t : TileParams) (tileno : Nat) : Option Nat :=
  (tileInfo m t tileno).map fun i => t.numlayers * i.mp % 2 ^ 32 * i.cs.length % 2 ^ 32 * i.mr % 2 ^ 32

/-- The largest count of all tiles (with their numbers), `j2k.rs:2621-2629`. -/
def maxCount (m : Mode) : List (TileParams × Nat) → Nat → Option Nat
  | [], acc => some acc
  | t :: ts, acc => do
    let n ← packetCount m t.1 t.2
    maxCount m ts (Math.uintMax acc n)

/-- `m_reserved_bytes_for_PLT`, `j2k.rs:2617-2648`: `other` is `l_nb_bytes` before, `n` the largest count. Wrapping `u32`. -/
def reserved (other n : Nat) : Option Nat :=
  (Math.uintCeildiv n 16382).map fun s => (6 * s % 2 ^ 32 + (other + 5 * n % 2 ^ 32) % 2 ^ 32 + 1) % 2 ^ 32

/-- The packet loop, `t2.rs:249-272`, as far as it notes lengths: packets with their lengths, the lengths noted so far. The
array has `size` entries; to write behind them is a panic here. Packets of layers from `layers` on are not written
(`p_maxlayers`). -/
def note (size layers : Nat) : List (Pkt × Nat) → List Nat → R (List Nat)
  | [], l => .ok l
  | (p, b) :: ps, l =>
    if p.layno < layers then
      if size ≤ l.length then .error .panic else note size layers ps (l ++ [b])
    else note size layers ps l

end Jp2.PltRoom

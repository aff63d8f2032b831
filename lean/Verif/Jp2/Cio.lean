/-!
# Big-endian field codecs: `openjp2-rs/src/cio.rs`

`mem` is the allocation the pointer argument points into and `off` the offset of the pointer; `none`
is the failed `assert!` or an access outside the allocation. An `f32`/`f64` is its bit pattern.
-/
namespace Jp2.Cio

/-- `u32::to_be_bytes` / `u64::to_be_bytes` for `n` bytes: most significant byte first. -/
def toBe : Nat → Nat → List UInt8
  | 0, _ => []
  | n + 1, v => UInt8.ofNat (v / 256 ^ n % 256) :: toBe n v

/-- `u32::from_be_bytes` / `f64::from_be_bytes`. -/
def fromBe (l : List UInt8) : Nat := l.foldl (fun a b => a * 256 + b.toNat) 0

/-- `slice::copy_from_slice` onto `mem[off..off+src.len()]`. -/
def copyTo (mem : List UInt8) (off : Nat) (src : List UInt8) : Option (List UInt8) :=
  if off + src.length ≤ mem.length then some (mem.take off ++ src ++ mem.drop (off + src.length)) else none

/-- `slice::from_raw_parts(p, n)`. -/
def sliceOf (mem : List UInt8) (off n : Nat) : Option (List UInt8) :=
  if off + n ≤ mem.length then some ((mem.drop off).take n) else none

/-- `opj_write_bytes`, `cio.rs:40-53`; `v < 2^32`. -/
def writeBytes (mem : List UInt8) (off v nb : Nat) : Option (List UInt8) :=
  if 0 < nb ∧ nb ≤ 4 then copyTo mem off ((toBe 4 v).drop (4 - nb)) else none

/-- `opj_read_bytes`, `cio.rs:55-69`. -/
def readBytes (mem : List UInt8) (off nb : Nat) : Option Nat :=
  if 0 < nb ∧ nb ≤ 4 then
    (sliceOf mem off nb).map fun src => fromBe (List.replicate (4 - nb) 0 ++ src)
  else none

/-- `opj_write_double`, `cio.rs:71-76`, on the bit pattern. -/
def writeDouble (mem : List UInt8) (off bits : Nat) : Option (List UInt8) := copyTo mem off (toBe 8 bits)

/-- `opj_read_double`, `cio.rs:78-88`. -/
def readDouble (mem : List UInt8) (off : Nat) : Option Nat := (sliceOf mem off 8).map fromBe

/-- `opj_write_float`, `cio.rs:90-95`. -/
def writeFloat (mem : List UInt8) (off bits : Nat) : Option (List UInt8) := copyTo mem off (toBe 4 bits)

/-- `opj_read_float`, `cio.rs:97-105`. -/
def readFloat (mem : List UInt8) (off : Nat) : Option Nat := (sliceOf mem off 4).map fromBe

end Jp2.Cio

import Verif.Jp2.Wrap
/-!
# Integer helpers: `openjp2-rs/src/math.rs`

`u32`/`u64` are `Nat`, `i32`/`i64` are `Int`; `none` is a panic (failed `assert!`, arithmetic overflow
or over-long shift under overflow checks). `as u32`/`as i32` casts truncate. `opj_lrintf` is not
modelled (floating point).
-/
namespace Jp2.Math

/-- Overflow-checked `i64` result. -/
def chk64 (x : Int) : Option Int := if -2 ^ 63 ≤ x ∧ x < 2 ^ 63 then some x else none
/-- Overflow-checked `u64` result. -/
def chkU64 (x : Nat) : Option Nat := if x < 2 ^ 64 then some x else none

/-- `opj_int_max`, `math.rs:2-4`. -/
def intMax (a b : Int) : Int := if a ≤ b then b else a
/-- `opj_int_min`, `math.rs:7-9`. -/
def intMin (a b : Int) : Int := if a ≤ b then a else b
/-- `opj_uint_min`, `math.rs:12-14`. -/
def uintMin (a b : Nat) : Nat := if a ≤ b then a else b
/-- `opj_uint_max`, `math.rs:17-19`. -/
def uintMax (a b : Nat) : Nat := if a ≤ b then b else a

/-- `opj_int_floordivpow2`, `math.rs:22-24`: arithmetic shift; panics for `b ∉ 0..31`. -/
def intFloordivpow2 (a : Int) (b : Int) : Option Int :=
  if 0 ≤ b ∧ b < 32 then some (a >>> b.toNat) else none

/-- The loop of `opj_int_floorlog2` / `opj_uint_floorlog2`, `math.rs:30-33, 46-49`. The `while` loop
halves `a`; here it is cut off after `fuel` iterations. -/
def floorlog2Loop : Nat → Nat → Nat → Option Nat
  | 0, _, _ => none
  | fuel + 1, a, l => if 1 < a then floorlog2Loop fuel (a >>> 1) (l + 1) else some l

/-- `opj_int_floorlog2`, `math.rs:27-35`; a negative argument is not above 1. -/
def intFloorlog2 (a : Int) : Option Nat := if 1 < a then floorlog2Loop 33 a.toNat 0 else some 0

/-- `opj_uint_floordivpow2`, `math.rs:38-40`. -/
def uintFloordivpow2 (a b : Nat) : Option Nat := if b < 32 then some (a >>> b) else none

/-- `opj_uint_floorlog2`, `math.rs:43-51`. -/
def uintFloorlog2 (a : Nat) : Option Nat := floorlog2Loop 33 a 0

/-- `opj_uint_ceildivpow2`, `math.rs:54-56`: `u64` wrapping arithmetic, shift panics from 64 on. -/
def uintCeildivpow2 (a b : Nat) : Option Nat :=
  if b < 64 then
    some ((((a + 2 ^ b) % 2 ^ 64 + (2 ^ 64 - 1)) % 2 ^ 64) >>> b % 2 ^ 32)
  else none

/-- `opj_uint_ceildiv`, `math.rs:59-65`. -/
def uintCeildiv (a b : Nat) : Option Nat :=
  if b ≠ 0 then some ((((a + b) % 2 ^ 64 + (2 ^ 64 - 1)) % 2 ^ 64) / b % 2 ^ 32) else none

/-- `opj_int64_ceildivpow2`, `math.rs:68-70`. `1_i64 << 63` is `i64::MIN`. -/
def int64Ceildivpow2 (a : Int) (b : Int) : Option Int :=
  if 0 ≤ b ∧ b < 64 then
    (chk64 (a + wrap 64 (2 ^ b.toNat))).bind fun s => (chk64 (s - 1)).map fun (s : Int) => wrap32 (s >>> b.toNat)
  else none

/-- `opj_int_ceildiv`, `math.rs:73-76`; Rust `/` truncates towards zero. -/
def intCeildiv (a b : Int) : Option Int :=
  if b ≠ 0 then
    (chk64 (a + b)).bind fun s => (chk64 (s - 1)).map fun s => wrap32 (s.tdiv b)
  else none

/-- `opj_uint64_ceildiv_res_uint32`, `math.rs:79-82`. -/
def uint64CeildivResUint32 (a b : Nat) : Option Nat :=
  if b ≠ 0 then (chkU64 (a + b)).map fun s => (s - 1) / b % 2 ^ 32 else none

/-- `opj_int_ceildivpow2`, `math.rs:85-87`. -/
def intCeildivpow2 (a : Int) (b : Int) : Option Int := int64Ceildivpow2 a b

/-- `opj_uint_adds`, `math.rs:90-92`: `saturating_add`. -/
def uintAdds (a b : Nat) : Nat := if a + b < 2 ^ 32 then a + b else 2 ^ 32 - 1

/-- `opj_int_abs`, `math.rs:95-97`: `i32::abs` overflows on `i32::MIN`. -/
def intAbs (a : Int) : Option Int := if a = -2 ^ 31 then none else some (if a < 0 then -a else a)

/-- `opj_uint_subs`, `math.rs:100-102`: `saturating_sub`. -/
def uintSubs (a b : Nat) : Nat := if b ≤ a then a - b else 0

/-- `opj_int_clamp` / `opj_int64_clamp`, `math.rs:110-117`; `clamp` asserts `min ≤ max`. -/
def intClamp (a lo hi : Int) : Option Int :=
  if lo ≤ hi then some (if a < lo then lo else if hi < a then hi else a) else none

/-- `opj_int_sub_no_overflow`, `math.rs:120-122`. -/
def subNoOverflow (a b : Int) : Int := wrap32 (a - b)

/-- `opj_int_add_no_overflow`, `math.rs:125-127`. -/
def addNoOverflow (a b : Int) : Int := wrap32 (a + b)

end Jp2.Math

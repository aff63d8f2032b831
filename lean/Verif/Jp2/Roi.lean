import Verif.Jp2.T1
/-!
# Regions of interest: `openjp2-rs/src/t1.rs`

The encoder only announces a shift (`RGN`, C52): `roishift` occurs in no other function of it, so all of a component is its region of
interest. The decoder reads `roishift` more bit planes (`decodeCblk`, `T1.lean`) and then shifts large coefficients back.
-/
namespace Jp2.T1

/-- One coefficient, `t1.rs:1953-1968`. -/
def unshift1 (r : Nat) (v : Int) : Int :=
  if (2 ^ r : Int) ≤ v.natAbs then (if v < 0 then -((v.natAbs / 2 ^ r : Nat) : Int) else ((v.natAbs / 2 ^ r : Nat) : Int)) else v

/-- The coefficients of a block after decoding, `t1.rs:1943-1974`. `val.abs()` panics for `-2^31`. -/
def unshift (r : Nat) (D : List Int) : Option (List Int) :=
  if r = 0 then some D
  else if 31 ≤ r then some (D.map fun _ => 0)
  else if -2 ^ 31 ∈ D then none else some (D.map (unshift1 r))

/-- Decoding and shifting back: what `opj_t1_clbl_decode_processor` has before dequantisation, `t1.rs:1890-1974`. -/
def decodeRoi (o w h r numbps : Nat) (st : Style) (chunks : List (List UInt8)) (x0 x1 : UInt8) (segs : List (Nat × Nat)) :
    Option (Option (List Int)) :=
  (decodeCblk o w h r numbps st chunks x0 x1 segs).bind fun
    | none => some none
    | some D => (unshift r D).map some

end Jp2.T1

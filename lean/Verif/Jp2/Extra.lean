import Verif.Jp2.Setup
/-!
# Extra options of the encoder, `openjp2-rs/src/j2k.rs`

`opj_encoder_set_extra_options`, which is called between `opj_setup_encoder` and `opj_start_compress`. Strings are lists of bytes.
-/
namespace Jp2.Setup
open Jp2.Hdr (R refuseIf)

/-- What is set up, and whether packet lengths are to be written (`m_PLT`). -/
structure Primed where
  coding : Coding
  plt : Bool

/-- A digit. -/
def digit (b : UInt8) : Option Nat := if 48 ≤ b.toNat ∧ b.toNat ≤ 57 then some (b.toNat - 48) else none

/-- The value of a string of digits, behind digits with the value `acc`. -/
def digits : Nat → List UInt8 → Option Nat
  | acc, [] => some acc
  | acc, b :: t => (digit b).bind fun d => digits (10 * acc + d) t

/-- `str::parse::<i32>` (Rust's standard library): a sign or none, at least one digit, and in the range. -/
def parseI32 (s : List UInt8) : Option Int :=
  match s with
  | [] => none
  | b :: t =>
    if b = 45 then if t = [] then none else (digits 0 t).bind fun n => if n ≤ 2 ^ 31 then some (-(n : Int)) else none
    else if b = 43 then if t = [] then none else (digits 0 t).bind fun n => if n < 2 ^ 31 then some (n : Int) else none
    else (digits 0 s).bind fun n => if n < 2 ^ 31 then some (n : Int) else none

/-- `"PLT="`, `"TLM="`, `"GUARD_BITS="`, `"YES"`, `"NO"`. -/
def sPlt : List UInt8 := [80, 76, 84, 61]
def sTlm : List UInt8 := [84, 76, 77, 61]
def sGuard : List UInt8 := [71, 85, 65, 82, 68, 95, 66, 73, 84, 83, 61]
def sYes : List UInt8 := [89, 69, 83]
def sNo : List UInt8 := [78, 79]

/-- Other guard bits in all components of all tiles (`j2k.rs:12143-12158`). -/
def setGuard (g : Nat) (c : Coding) : Coding :=
  { c with
    enc := { c.enc with tccps := c.enc.tccps.map fun t => { t with numgbits := g } }
    tiles := c.tiles.map fun t => { t with tccps := t.tccps.map fun t => { t with numgbits := g } } }

/-- One option (`j2k.rs:12112-12162`). -/
def extraOne (s : List UInt8) (r : Primed) : R Primed :=
  if sPlt <+: s then
    if s = sPlt ++ sYes then .ok { r with plt := true }
    else if s = sPlt ++ sNo then .ok { r with plt := false }
    else .error .refused
  else if sTlm <+: s then
    if s = sTlm ++ sYes then .ok { r with coding := { r.coding with tlm := true } }
    else if s = sTlm ++ sNo then .ok { r with coding := { r.coding with tlm := false } }
    else .error .refused
  else if sGuard <+: s then
    let v := (parseI32 (s.drop 11)).getD 0
    if 0 ≤ v ∧ v ≤ 7 then .ok { r with coding := setGuard v.toNat r.coding } else .error .refused
  else .error .refused

/-- `opj_j2k_encoder_set_extra_options`, `j2k.rs:12106-12165`. Simplified: after an error it is not kept what the options before it set. -/
def extra : List (List UInt8) → Primed → R Primed
  | [], r => .ok r
  | s :: l, r => do
    let r ← extraOne s r
    extra l r

end Jp2.Setup

import Verif.Laya.Num
import Mathlib.Data.Rat.Defs
import Mathlib.Algebra.Order.Field.Rat
import Mathlib.Tactic.Ring
import Mathlib.Tactic.Linarith
import Mathlib.Tactic.Positivity
import Mathlib.Tactic.FieldSimp
import Mathlib.Tactic.Push
/-!
# `str::parse::<f32>()`

Model of IEEE-754 single precision values and of the Rust standard library's `f32::from_str`
(`core::num::dec2flt`), the parser called at `src/iiif/parse.rs:43` (with `T = f32`),
`src/iiif/parse.rs:139-141` and `src/iiif/parse.rs:172-173`.
-/
namespace Laya

/-- An `f32`. `num neg k`: sign bit `neg`, low 31 bits `k`; `k = 0x7F800000` is infinity.
All NaNs are one value (the code never looks inside a NaN). -/
inductive F32 where
  | nan
  | num (neg : Bool) (k : Nat)
deriving DecidableEq, Repr

namespace F32

/-- The bit pattern of `+∞` without sign. -/
def infBits : Nat := 0x7F800000

/-- Magnitude of the bit pattern `k`, in units of `2^-149` (the smallest subnormal): subnormals are
`k` itself, normals have an implicit leading bit and exponent field `k / 2^23`. -/
def units (k : Nat) : Nat :=
  if k < 2 ^ 23 then k else (2 ^ 23 + k % 2 ^ 23) * 2 ^ (k / 2 ^ 23 - 1)

/-- Key that orders non-NaN values: the signed bit pattern, with `-0` and `+0` equal. -/
def key : F32 → Option Int
  | nan => none
  | num false k => some k
  | num true k => some (-k)

/-- `a < b` on `f32`; false if either is NaN. -/
def lt (a b : F32) : Bool :=
  match key a, key b with
  | some x, some y => decide (x < y)
  | _, _ => false

/-- `a <= b` on `f32`; false if either is NaN. -/
def le (a b : F32) : Bool :=
  match key a, key b with
  | some x, some y => decide (x ≤ y)
  | _, _ => false

/-- The literals `0.0`, `100.0` (`src/iiif/parse.rs:145`) and `360.0` (`src/iiif/parse.rs:176`). -/
def zero : F32 := num false 0
def hundred : F32 := num false 0x42C80000
def threeSixty : F32 := num false 0x43B40000

end F32

/-- Divide rounding to nearest, ties to even. -/
def divHalfEven (n d : Nat) : Nat :=
  let q := n / d
  let r := n % d
  if 2 * r < d then q
  else if d < 2 * r then q + 1
  else if q % 2 = 0 then q else q + 1

/-- The bit pattern (31 bits) of the `f32` nearest to `n / d` units of `2^-149`, ties to even,
overflowing to infinity. Models the rounding that `core::num::dec2flt` documents. -/
def roundUnits (n d : Nat) : Nat :=
  let s := Nat.log2 (n / d) - 23
  min (divHalfEven n (d * 2 ^ s) + s * 2 ^ 23) F32.infBits

/-- Round `m * 10^e`. -/
def roundDec (m : Nat) (e : Int) : Nat :=
  match e with
  | Int.ofNat p => roundUnits (m * 10 ^ p * 2 ^ 149) 1
  | Int.negSucc p => roundUnits (m * 2 ^ 149) (10 ^ (p + 1))

/-- The longest prefix of ASCII digits and the rest. -/
def spanDigits : Str → Str × Str
  | [] => ([], [])
  | c :: cs =>
    match digit? c with
    | none => ([], c :: cs)
    | some _ => let (a, b) := spanDigits cs; (c :: a, b)

/-- Digits of the exponent; `dec2flt` stops accumulating once the value reaches `0x10000`. -/
def expDigits (ds : Str) : Nat :=
  ds.foldl (fun n c => if n < 0x10000 then 10 * n + (c.toNat - '0'.toNat) else n) 0

/-- Optional leading sign of a number or of an exponent: whether it was `-`, and the rest. -/
def splitSign : Str → Bool × Str
  | [] => (false, [])
  | c :: r => if c = '-' then (true, r) else if c = '+' then (false, r) else (false, c :: r)

/-- `parse_scientific`, on everything after the `e`: optional sign, at least one digit, nothing else. -/
def parseExp (s : Str) : Option Int :=
  let (neg, s) := splitSign s
  match spanDigits s with
  | ([], _) => none
  | (_, _ :: _) => none
  | (ds, []) => some (if neg then -(expDigits ds : Int) else expDigits ds)

/-- The optional fraction: after a `.`, the digits; otherwise nothing. -/
def fracPart : Str → Str × Str
  | [] => ([], [])
  | c :: r => if c = '.' then spanDigits r else ([], c :: r)

/-- `parse_number`: digits, optional point and digits, optional exponent; at least one digit in all.
Returns mantissa and decimal exponent. -/
def parseNumber (s : Str) : Option (Nat × Int) :=
  let (ip, s1) := spanDigits s
  let (fp, s2) := fracPart s1
  if ip.length + fp.length = 0 then none
  else match s2 with
    | [] => some (decVal (ip ++ fp), -(fp.length : Int))
    | c :: r =>
      if c = 'e' ∨ c = 'E' then
        match parseExp r with
        | none => none
        | some x => some (decVal (ip ++ fp), x - fp.length)
      else none

/-- ASCII lower-casing, for the case-insensitive `inf`, `infinity`, `nan`. -/
def lower (s : Str) : Str := s.map Char.toLower

/-- `str::parse::<f32>()` as called at `src/iiif/parse.rs:43,139-141,172-173`. -/
def parseF32 (s : Str) : Option F32 :=
  let (neg, body) := splitSign s
  match parseNumber body with
  | some (m, e) => some (.num neg (roundDec m e))
  | none =>
    if lower body = lit "nan" then some .nan
    else if lower body = lit "inf" ∨ lower body = lit "infinity" then some (.num neg F32.infBits)
    else none

/-! ## Specification -/

/-- What an unsigned float text denotes: not a number, infinity, or an exact rational. -/
inductive Magnitude where
  | nan
  | inf
  | exact (x : ℚ)

/-- Optional exponent part of a decimal, and its value. -/
inductive ExpText : Str → Int → Prop
  | none : ExpText [] 0
  | plain (c : Char) (ds : Str) : c = 'e' ∨ c = 'E' → ds ≠ [] → (∀ d ∈ ds, IsDigit d) →
      ExpText (c :: ds) (decVal ds)
  | plus (c : Char) (ds : Str) : c = 'e' ∨ c = 'E' → ds ≠ [] → (∀ d ∈ ds, IsDigit d) →
      ExpText (c :: '+' :: ds) (decVal ds)
  | minus (c : Char) (ds : Str) : c = 'e' ∨ c = 'E' → ds ≠ [] → (∀ d ∈ ds, IsDigit d) →
      ExpText (c :: '-' :: ds) (-(decVal ds : Int))

/-- The float grammar documented by Rust's `f32::from_str`, without the sign. -/
inductive UnsignedText : Str → Magnitude → Prop
  | nan (t : Str) : lower t = lit "nan" → UnsignedText t .nan
  | inf (t : Str) : lower t = lit "inf" ∨ lower t = lit "infinity" → UnsignedText t .inf
  | int (i x : Str) (e : Int) : i ≠ [] → (∀ d ∈ i, IsDigit d) → ExpText x e →
      UnsignedText (i ++ x) (.exact ((decVal i : ℚ) * 10 ^ e))
  | frac (i f x : Str) (e : Int) : (i ≠ [] ∨ f ≠ []) → (∀ d ∈ i, IsDigit d) → (∀ d ∈ f, IsDigit d) →
      ExpText x e →
      UnsignedText (i ++ '.' :: f ++ x) (.exact ((decVal (i ++ f) : ℚ) * 10 ^ (e - f.length)))

/-- The real magnitude of an `f32` bit pattern (the exponent range is not capped here). -/
def F32.mag (k : Nat) : ℚ := (F32.units k : ℚ) / 2 ^ 149

/-- `k` is the bit pattern whose magnitude is nearest to `x`; of two equally near ones, the even one. -/
def Nearest (x : ℚ) (k : Nat) : Prop :=
  ∀ j, j ≠ k → |x - F32.mag k| < |x - F32.mag j| ∨
    (|x - F32.mag k| = |x - F32.mag j| ∧ k % 2 = 0)

/-- IEEE-754 round-to-nearest-even: round as if the exponent were unbounded, then replace
everything beyond the largest finite value by infinity. -/
def RoundsTo (x : ℚ) (k : Nat) : Prop := ∃ k', Nearest x k' ∧ k = min k' F32.infBits

/-- `t` is a float text (optional sign) and `f` is the `f32` it denotes. -/
inductive FloatText : Str → F32 → Prop
  | nan (t : Str) (sg : Str) : sg = [] ∨ sg = ['+'] ∨ sg = ['-'] → UnsignedText t .nan →
      FloatText (sg ++ t) .nan
  | inf (t : Str) (sg : Str) : sg = [] ∨ sg = ['+'] ∨ sg = ['-'] → UnsignedText t .inf →
      FloatText (sg ++ t) (.num (decide (sg = ['-'])) F32.infBits)
  | exact (t : Str) (sg : Str) (x : ℚ) (k : Nat) : sg = [] ∨ sg = ['+'] ∨ sg = ['-'] →
      UnsignedText t (.exact x) → RoundsTo x k → FloatText (sg ++ t) (.num (decide (sg = ['-'])) k)

end Laya

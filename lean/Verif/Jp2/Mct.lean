import Verif.Jp2.Arith
/-!
# Multi-component transforms: `openjp2-rs/src/mct.rs`

Component buffers are lists of `i32` values; `none` is a panic or an access outside a buffer. The
floating-point transforms `opj_mct_encode_real`/`decode_real`, the norms and the conversion of the
custom matrix to fixed point are not modelled; `opj_mct_decode_custom` is modelled over any number
type with an addition and a multiplication.
-/
namespace Jp2.Mct

/-- One iteration of `opj_mct_encode`, `mct.rs:83-91`. -/
def fwd (m : Mode) (r g b : Int) : Option (Int × Int × Int) :=
  (ar m (g * 2)).bind fun g2 =>
  (ar m (r + g2)).bind fun s =>
  (ar m (s + b)).bind fun s =>
  (ar m (b - g)).bind fun u =>
  (ar m (r - g)).bind fun v =>
  some ((s : Int) >>> (2 : Nat), u, v)

/-- One iteration of `opj_mct_decode`, `mct.rs:108-116`. -/
def inv (m : Mode) (y u v : Int) : Option (Int × Int × Int) :=
  (ar m (u + v)).bind fun s =>
  (ar m (y - (s : Int) >>> (2 : Nat))).bind fun g =>
  (ar m (v + g)).bind fun r =>
  (ar m (u + g)).bind fun b =>
  some (r, g, b)

/-- The `while i < n` loop common to `opj_mct_encode` and `opj_mct_decode`, `mct.rs:82-93, 107-118`:
`rem = n - i` iterations remain. Loads and stores outside the three buffers are `none`. -/
def loop (f : Int → Int → Int → Option (Int × Int × Int)) :
    Nat → Nat → List Int × List Int × List Int → Option (List Int × List Int × List Int)
  | 0, _, d => some d
  | rem + 1, i, (c0, c1, c2) =>
    (c0[i]?).bind fun x => (c1[i]?).bind fun y => (c2[i]?).bind fun z =>
    (f x y z).bind fun (x', y', z') => loop f rem (i + 1) (c0.set i x', c1.set i y', c2.set i z')

/-- `opj_mct_encode`, `mct.rs:73-94`. -/
def encode (m : Mode) (n : Nat) (c0 c1 c2 : List Int) : Option (List Int × List Int × List Int) :=
  loop (fwd m) n 0 (c0, c1, c2)

/-- `opj_mct_decode`, `mct.rs:99-119`. -/
def decode (m : Mode) (n : Nat) (c0 c1 c2 : List Int) : Option (List Int × List Int × List Int) :=
  loop (inv m) n 0 (c0, c1, c2)

/-- `opj_int_fix_mul`, `mct.rs:9-16`, with its two `assert!`s. -/
def fixMul (a b : Int) : Option Int :=
  let t := (a * b + 4096) >>> (13 : Nat)
  if -0x7FFFFFFF - 1 ≤ t ∧ t ≤ 0x7FFFFFFF then some t else none

/-- `data[j][i]`. -/
def get2 {α : Type} (d : List (List α)) (j i : Nat) : Option α := (d[j]?).bind (·[i]?)

/-- `data[j][i] = v`. -/
def set2 {α : Type} (d : List (List α)) (j i : Nat) (v : α) : Option (List (List α)) :=
  (d[j]?).bind fun c => if i < c.length then some (d.set j (c.set i v)) else none

/-- The copy loop `mct.rs:217-220, 267-270`: `lCurrentData[j] = *lData[j]` for the `rem` components from `j`. -/
def gather {α : Type} (d : List (List α)) (i : Nat) : Nat → Nat → Option (List α)
  | 0, _ => some []
  | rem + 1, j => (get2 d j i).bind fun v => (gather d i rem (j + 1)).map (v :: ·)

/-- The inner `k` loop of the custom transforms, `mct.rs:224-230, 274-280`; `p` is the offset of the
moving matrix pointer and `step acc a x` is `acc += a·x`. The encoder accumulates in place in `*lData[j]`,
the decoder in `lCurrentResult[j]`, stored afterwards; nothing reads the target in between, since the
factors come from the copy `cur`. -/
def dot {α : Type} (step : α → α → α → Option α) (mat cur : List α) : Nat → Nat → Nat → α → Option α
  | 0, _, _, acc => some acc
  | rem + 1, p, k, acc =>
    (mat[p]?).bind fun a => (cur[k]?).bind fun x => (step acc a x).bind fun acc' =>
      dot step mat cur rem (p + 1) (k + 1) acc'

/-- The `j` loop, `mct.rs:221-235, 271-286`. -/
def rows {α : Type} (step : α → α → α → Option α) (zero : α) (mat cur : List α) (nb i : Nat) :
    Nat → Nat → Nat → List (List α) → Option (List (List α))
  | 0, _, _, d => some d
  | rem + 1, j, p, d =>
    (dot step mat cur nb p 0 zero).bind fun v => (set2 d j i v).bind fun d' =>
      rows step zero mat cur nb i rem (j + 1) (p + nb) d'

/-- The pixel loop, `mct.rs:214-237, 264-288`. -/
def pixels {α : Type} (step : α → α → α → Option α) (zero : α) (mat : List α) (nb : Nat) :
    Nat → Nat → List (List α) → Option (List (List α))
  | 0, _, d => some d
  | rem + 1, i, d =>
    (gather d i nb 0).bind fun cur => (rows step zero mat cur nb i nb 0 0 d).bind fun d' =>
      pixels step zero mat nb rem (i + 1) d'

/-- `opj_mct_encode_custom`, `mct.rs:185-240`, after the conversion of the matrix to 13-bit fixed point
(`mat`, row-major, `nb × nb`); allocation succeeds. -/
def encodeCustom (m : Mode) (mat : List Int) (n nb : Nat) (d : List (List Int)) : Option (List (List Int)) :=
  pixels (fun acc a x => (fixMul a x).bind fun t => ar m (acc + t)) 0 mat nb n 0 d

/-- `opj_mct_decode_custom`, `mct.rs:242-292`, over any number type. -/
def decodeCustom {α : Type} (add mul : α → α → α) (zero : α) (mat : List α) (n nb : Nat) (d : List (List α)) :
    Option (List (List α)) := pixels (fun acc a x => some (add acc (mul a x))) zero mat nb n 0 d

end Jp2.Mct

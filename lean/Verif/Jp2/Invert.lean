/-!
# Inversion of the matrix of a custom component transform: `openjp2-rs/src/invert.rs`

Numbers are of any type with any operations (`f32` in the code). An index out of bounds, a range out of bounds and a copy between slices of different
lengths are panics (`none`). `checked` is a build with overflow checks; without, `usize` wraps at `2^64`.
-/
namespace Jp2.Invert

/-- The operations on numbers. -/
structure Ops (F : Type) where
  zero : F
  one : F
  add : F → F → F
  sub : F → F → F
  mul : F → F → F
  div : F → F → F
  abs : F → F
  gt : F → F → Bool
  isZero : F → Bool

variable {F : Type}

/-- `a - b` of `usize`. -/
def usub (checked : Bool) (a b : Nat) : Option Nat :=
  if b ≤ a then some (a - b) else if checked then none else some ((2 ^ 64 + a - b) % 2 ^ 64)

/-- `l[i] = v`. -/
def put (l : List F) (i : Nat) (v : F) : Option (List F) := if i < l.length then some (l.set i v) else none

/-- `&l[a..b]`. -/
def slice (l : List F) (a b : Nat) : Option (List F) := if a ≤ b ∧ b ≤ l.length then some ((l.drop a).take (b - a)) else none

/-- `l[a..a + v.len()] = v`. -/
def putSlice (l : List F) (a : Nat) (v : List F) : Option (List F) :=
  if a + v.length ≤ l.length then some (l.take a ++ v ++ l.drop (a + v.length)) else none

/-- The search for the pivot, `invert.rs:99-108`: `cnt` lines left, from line `i`; the largest value and its line. -/
def pivot (o : Ops F) (n : Nat) (m : List F) : Nat → Nat → Nat → F → Nat → Option (F × Nat)
  | 0, _, _, p, k2 => some (p, k2)
  | cnt + 1, i, col, p, k2 => (m[col]?).bind fun x =>
    if o.gt (o.abs x) p then pivot o n m cnt (i + 1) (col + n) (o.abs x) i else pivot o n m cnt (i + 1) (col + n) p k2

/-- The exchange of lines, `invert.rs:113-126`. `swap` is the swap area, of `n` numbers; the slices copied are of `4 n`. -/
def exchange (n k k2 tmp : Nat) (m : List F) (perm : List Nat) (swapLen : Nat) : Option (List F × List Nat) :=
  (perm[0]?).bind fun a => (perm[0 + k2 - k]?).bind fun b =>
  (slice m (tmp + (k2 - k) * n) (tmp + (k2 - k) * n + 4 * n)).bind fun s =>
  if s.length ≠ swapLen then none else
  (slice m tmp (tmp + 4 * n)).bind fun t =>
  (putSlice m (tmp + (k2 - k) * n) t).bind fun m =>
  if swapLen < 4 * n then none else
  (putSlice m tmp (s.take (4 * n))).map fun m => (m, (perm.set 0 b).set (k2 - k) a)

/-- The inner loop, `invert.rs:142-144`: `cnt` numbers left. -/
def rowLoop (o : Ops F) (p : F) (dest : Nat) : Nat → Nat → List F → Option (List F)
  | 0, _, m => some m
  | cnt + 1, j, m => (m[dest + j]?).bind fun x => (m[dest + j - 1]?).bind fun y =>
    (put m (dest + j) (o.sub x (o.mul p y))).bind (rowLoop o p dest cnt (j + 1))

/-- The loop over the lines below, `invert.rs:134-149`. -/
def belowLoop (checked : Bool) (o : Ops F) (n k offset stride : Nat) (temp : F) : Nat → Nat → Nat → List F → Option (List F)
  | 0, _, _, m => some m
  | cnt + 1, col, dest, m => (m[col]?).bind fun x =>
    (put m (col + 1) (o.div x temp)).bind fun m =>
    (rowLoop o (o.div x temp) dest (n - offset) offset m).bind fun m =>
    (usub checked dest stride).bind fun dest => belowLoop checked o n k offset stride temp cnt (col + 1 + k) dest m

/-- The loop over the columns of `opj_lupDecompose`, `invert.rs:95-156`: `cnt` columns left; `k2` lives across iterations. `some none` is the return of `false`. -/
def colLoop (checked : Bool) (o : Ops F) (n swapLen : Nat) : Nat → Nat → Nat → Nat → Nat → Nat → List F → List Nat → Option (Option (List F × List Nat))
  | 0, _, _, _, _, _, m, perm => some (some (m, perm))
  | cnt + 1, k, k2, tmp, offset, stride, m, perm =>
    (pivot o n m (n - k) k (tmp + k) o.zero k2).bind fun (p, k2) =>
    if o.isZero p then some none else
    (if k2 ≠ k then exchange n k k2 tmp m perm swapLen else some (m, perm)).bind fun (m, perm) =>
    (m[tmp + k]?).bind fun temp =>
    (belowLoop checked o n k offset stride temp (n - offset) (tmp + k + n) (tmp + k + 1) m).bind fun m =>
    (usub checked stride 1).bind fun stride => colLoop checked o n swapLen cnt (k + 1) k2 (tmp + n) (offset + 1) stride m perm

/-- `opj_lupDecompose`, `invert.rs:74-158`. -/
def lupDecompose (checked : Bool) (o : Ops F) (n swapLen : Nat) (m : List F) : Option (Option (List F × List Nat)) :=
  (usub checked n 1).bind fun last => colLoop checked o n swapLen last 0 0 0 1 last m (List.range n)

/-- The sum of the products, `invert.rs:191-196, 215-220`: `cnt` left. -/
def sumLoop (o : Ops F) (m v : List F) : Nat → Nat → Nat → F → Option F
  | 0, _, _, s => some s
  | cnt + 1, tmp, cur, s => (m[tmp]?).bind fun x => (v[cur]?).bind fun y => sumLoop o m v cnt (tmp + 1) (cur + 1) (o.add s (o.mul x y))

/-- Forward substitution, `invert.rs:186-203`: `cnt` lines left, from line `i`. -/
def forward (o : Ops F) (n : Nat) (m vec : List F) (perm : List Nat) : Nat → Nat → List F → Option (List F)
  | 0, _, z => some z
  | cnt + 1, i, z => (sumLoop o m z i (i * n) 0 o.zero).bind fun s => (perm[i]?).bind fun q => (vec[q]?).bind fun x =>
    (put z i (o.sub x s)).bind (forward o n m vec perm cnt (i + 1))

/-- Back substitution, `invert.rs:208-226`: `cnt` lines left, so `k = cnt - 1`. -/
def back (checked : Bool) (o : Ops F) (n : Nat) (m z : List F) : Nat → Nat → Nat → Nat → Nat → List F → Option (List F)
  | 0, _, _, _, _, r => some r
  | k + 1, line, dest, gen, beg, r => (m[line]?).bind fun u =>
    (usub checked line (n + 1)).bind fun line' =>
    (sumLoop o m r (n - (k + 1)) line dest o.zero).bind fun s =>
    (z[gen]?).bind fun x => (put r beg (o.div (o.sub x s) u)).bind fun r =>
    (usub checked gen 1).bind fun gen => (usub checked beg 1).bind fun beg => (usub checked dest 1).bind fun dest =>
    back checked o n m z k line' dest gen beg r

/-- `opj_lupSolve`, `invert.rs:161-227`. -/
def lupSolve (checked : Bool) (o : Ops F) (r m vec : List F) (perm : List Nat) (n : Nat) (z : List F) : Option (List F) :=
  (usub checked r.length 1).bind fun beg => (usub checked n 1).bind fun gen =>
  (forward o n m vec perm n 0 z).bind fun z =>
  (usub checked m.length n).bind fun a => (usub checked a 1).bind fun line =>
  if n = 0 then none else back checked o n m z n line n gen beg r

/-- The copy of a column, `invert.rs:258-260`: `cnt` left; `start` is where the slice begins. -/
def copyLoop (n start : Nat) (r : List F) : Nat → Nat → List F → Option (List F)
  | 0, _, dst => some dst
  | cnt + 1, i, dst => (r[i]?).bind fun x => (put dst (start + i * n) x).bind (copyLoop n start r cnt (i + 1))

/-- `opj_lupInvert`, `invert.rs:230-262`: `cnt` columns left. -/
def lupInvert (checked : Bool) (o : Ops F) (n : Nat) (m : List F) (perm : List Nat) : Nat → Nat → List F → List F → List F → Option (List F)
  | 0, _, dst, _, _ => some dst
  | cnt + 1, j, dst, r, z =>
    if dst.length < j + 1 then none else
    (put (List.replicate n o.zero) j o.one).bind fun vec =>
    (slice m 0 (n * n)).bind fun m' =>
    (lupSolve checked o r m' vec perm n z).bind fun r =>
    (copyLoop n (j + 1) r n 0 dst).bind fun dst => lupInvert checked o n m perm cnt (j + 1) dst r z

/-- `opj_matrix_inversion_f`, `invert.rs:9-40`: `none` inside is the return of `false`. -/
def inversion (checked : Bool) (o : Ops F) (src dst : List F) (n : Nat) : Option (Option (List F)) :=
  (lupDecompose checked o n n src).bind fun r =>
  match r with
  | none => some none
  | some (m, perm) => (lupInvert checked o n m perm n 0 dst (List.replicate n o.zero) (List.replicate n o.zero)).map some

end Jp2.Invert

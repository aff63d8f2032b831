import Verif.Jp2.Mem
/-!
# Sparse coefficient arrays, `openjp2-rs/src/sparse_array.rs`

Buffers and blocks are separate allocations (`Mem Int`); an access outside one makes the run `none`. `u32` values are
naturals below `2^32` and the wrapping operations of the code are written with `% 2^32` where they can wrap. Allocation is taken to succeed.
-/
namespace Jp2.Sparse

/-- `opj_sparse_array_int32_t`, `sparse_array.rs:42-52`: `blocks i` is `none` outside the table, `some none` for a null pointer. -/
structure Sa where
  width : Nat
  height : Nat
  bw : Nat
  bh : Nat
  bch : Nat
  bcv : Nat
  blocks : Mem (Option (Mem Int))

/-- `opj_uint_ceildiv`, `sparse_array.rs:54-61`. -/
def ceildiv (a b : Nat) : Nat := (a + b - 1) / b

/-- `opj_sparse_array_int32_create`, `sparse_array.rs:71-107`; `none` is the null result. -/
def create (width height bw bh : Nat) : Option Sa :=
  if width = 0 ∨ height = 0 ∨ bw = 0 ∨ bh = 0 then none
  else if bw > (2 ^ 32 - 1) / bh / 4 then none
  else if ceildiv width bw > (2 ^ 32 - 1) / ceildiv height bh then none
  else some ⟨width, height, bw, bh, ceildiv width bw, ceildiv height bh,
    fun i => if i < ceildiv width bw * ceildiv height bh then some none else none⟩

/-- `opj_sparse_array_is_region_valid`, `sparse_array.rs:125-138`. -/
def valid (sa : Sa) (x0 y0 x1 y1 : Nat) : Bool :=
  !(decide (x0 ≥ sa.width) || decide (x1 ≤ x0) || decide (x1 > sa.width) || decide (y0 ≥ sa.height) || decide (y1 ≤ y0) || decide (y1 > sa.height))

/-- `*dst = *src`. -/
def cell (d : Mem Int) (di : Nat) (v : Option Int) : Option (Mem Int) := v.bind fun v => wr d di v

/-- `for k in 0..n { dst[k] = src[k] }`, from `k` on. -/
def rowLoop (src : Nat → Option Int) (dst : Nat → Nat) (n k : Nat) (d : Mem Int) : Option (Mem Int) :=
  loopM (fun k d => cell d (dst k) (src k)) n k d

/-- The loops unrolled by four with a tail, for instance `sparse_array.rs:285-308`; `n & !3` is `n / 4 * 4`. -/
def rowUnrolled (src : Nat → Option Int) (dst : Nat → Nat) (n : Nat) (d : Mem Int) : Option (Mem Int) :=
  (loopM (fun g d =>
    (cell d (dst (4 * g)) (src (4 * g))).bind fun d => (cell d (dst (4 * g + 1)) (src (4 * g + 1))).bind fun d =>
    (cell d (dst (4 * g + 2)) (src (4 * g + 2))).bind fun d => cell d (dst (4 * g + 3)) (src (4 * g + 3))) (n / 4) 0 d).bind
  fun d => rowLoop src dst (n % 4) (n / 4 * 4) d

/-- Copying out of a block (`b`, from offset `so`) into the buffer (`d`, from offset `bo`): the branches of
`sparse_array.rs:193-358`. A null block reads as zeros. -/
def readBlock (b : Option (Mem Int)) (bw so : Nat) (bo cs ls xi yi : Nat) (d : Mem Int) : Option (Mem Int) :=
  match b with
  | none =>
    if cs = 1 then loopM (fun j d => rowLoop (fun _ => some 0) (fun k => bo + j * ls + k) xi 0 d) yi 0 d
    else loopM (fun j d => rowLoop (fun _ => some 0) (fun k => bo + j * ls + k * cs % 2 ^ 32) xi 0 d) yi 0 d
  | some b =>
    if cs = 1 then loopM (fun j d => rowLoop (fun k => b (so + j * bw + k)) (fun k => bo + j * ls + k) xi 0 d) yi 0 d
    else if xi = 1 then loopM (fun j d => cell d (bo + j * ls) (b (so + j * bw))) yi 0 d
    else if yi = 1 ∧ cs = 2 then rowUnrolled (fun k => b (so + k)) (fun k => bo + k * cs % 2 ^ 32) xi d
    else if xi ≥ 8 ∧ cs = 8 then
      loopM (fun j d => rowUnrolled (fun k => b (so + j * bw + k)) (fun k => bo + j * ls + k * cs % 2 ^ 32) xi d) yi 0 d
    else loopM (fun j d => rowLoop (fun k => b (so + j * bw + k)) (fun k => bo + j * ls + k * cs % 2 ^ 32) xi 0 d) yi 0 d

/-- Copying from the buffer (`s`, from offset `bo`) into a block (`b`, from offset `dO`): the branches of
`sparse_array.rs:377-477`. -/
def writeBlock (b : Mem Int) (bw dO : Nat) (bo cs ls xi yi : Nat) (s : Mem Int) : Option (Mem Int) :=
  if cs = 1 then loopM (fun j d => rowLoop (fun k => s (bo + j * ls + k)) (fun k => dO + j * bw + k) xi 0 d) yi 0 b
  else if xi = 1 then loopM (fun j d => cell d (dO + j * bw) (s (bo + j * ls))) yi 0 b
  else if xi ≥ 8 ∧ cs = 8 then
    loopM (fun j d => rowUnrolled (fun k => s (bo + j * ls + k * cs % 2 ^ 32)) (fun k => dO + j * bw + k) xi d) yi 0 b
  else loopM (fun j d => rowLoop (fun k => s (bo + j * ls + k * cs % 2 ^ 32)) (fun k => dO + j * bw + k) xi 0 d) yi 0 b

/-- A block from `opj_calloc`, `sparse_array.rs:361-366`. -/
def calloc (n : Nat) : Mem Int := fun i => if i < n then some 0 else none

/-- One block of the region, `sparse_array.rs:187-478`; the state is the array and the buffer. -/
def step (rd : Bool) (x0 y0 x y bx by' bxo byo xi yi cs ls : Nat) (st : Sa × Mem Int) : Option (Sa × Mem Int) :=
  let (sa, buf) := st
  let idx := (by' * sa.bch % 2 ^ 32 + bx) % 2 ^ 32
  let bo := (y - y0) * ls + (x - x0) * cs % 2 ^ 32
  (sa.blocks idx).bind fun p =>
  if rd then (readBlock p sa.bw (byo * sa.bw + bxo) bo cs ls xi yi buf).map fun buf => (sa, buf)
  else
    (writeBlock (p.getD (calloc (sa.bw * sa.bh))) sa.bw (byo * sa.bw + bxo) bo cs ls xi yi buf).bind fun b =>
    (wr sa.blocks idx (some b)).map fun blocks => ({ sa with blocks := blocks }, buf)

/-- The loop over the columns of blocks, `sparse_array.rs:174-481`. -/
def xLoop (rd : Bool) (x0 y0 x1 y by' byo yi cs ls : Nat) : Nat → Nat → Nat → Sa × Mem Int → Option (Sa × Mem Int)
  | 0, _, _, _ => none
  | fuel + 1, x, bx, st =>
    if x < x1 then
      let bw := st.1.bw
      let xi := if x = x0 then bw - x0 % bw else bw
      let bxo := bw - xi
      let xi := min xi (x1 - x)
      (step rd x0 y0 x y bx by' bxo byo xi yi cs ls st).bind fun st => xLoop rd x0 y0 x1 y by' byo yi cs ls fuel (x + xi) (bx + 1) st
    else some st

/-- The loop over the rows of blocks, `sparse_array.rs:158-484`. -/
def yLoop (rd : Bool) (x0 y0 x1 y1 cs ls : Nat) : Nat → Nat → Nat → Sa × Mem Int → Option (Sa × Mem Int)
  | 0, _, _, _ => none
  | fuel + 1, y, by', st =>
    if y < y1 then
      let bh := st.1.bh
      let yi := if y = y0 then bh - y0 % bh else bh
      let byo := bh - yi
      let yi := min yi (y1 - y)
      (xLoop rd x0 y0 x1 y by' byo yi cs ls (x1 - x0 + 1) x0 (x0 / st.1.bw) st).bind fun st =>
        yLoop rd x0 y0 x1 y1 cs ls fuel (y + yi) (by' + 1) st
    else some st

/-- `opj_sparse_array_int32_read_or_write`, `sparse_array.rs:139-486`: the returned flag, the array and the buffer. -/
def readOrWrite (rd : Bool) (sa : Sa) (x0 y0 x1 y1 : Nat) (buf : Mem Int) (cs ls : Nat) (forgiving : Bool) :
    Option (Bool × Sa × Mem Int) :=
  if valid sa x0 y0 x1 y1 = false then some (forgiving, sa, buf)
  else (yLoop rd x0 y0 x1 y1 cs ls (y1 - y0 + 1) y0 (y0 / sa.bh) (sa, buf)).map fun (sa, buf) => (true, sa, buf)

/-- `opj_sparse_array_int32_read`, `sparse_array.rs:488-511`. -/
def read (sa : Sa) (x0 y0 x1 y1 : Nat) (dest : Mem Int) (cs ls : Nat) (forgiving : Bool) := readOrWrite true sa x0 y0 x1 y1 dest cs ls forgiving

/-- `opj_sparse_array_int32_write`, `sparse_array.rs:513-536`. -/
def write (sa : Sa) (x0 y0 x1 y1 : Nat) (src : Mem Int) (cs ls : Nat) (forgiving : Bool) := readOrWrite false sa x0 y0 x1 y1 src cs ls forgiving

end Jp2.Sparse

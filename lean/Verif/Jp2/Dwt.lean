import Verif.Jp2.Arith
import Verif.Jp2.Mem
/-!
# The reversible 5/3 wavelet transform: `openjp2-rs/src/dwt.rs`

Sample buffers are `Mem Int`. Every program is parametrised by `A`, the outcome of an `i32` operation
with a given mathematical result: `ar .checked` and `ar .wrapping` are the two builds. `none` is a panic or
an out-of-bounds access. Loop counters and index expressions such as `2*i+1` are unbounded (the code
uses `i32`/`u32`; they stay below twice the tile's side), except the row offset `j.wrapping_mul(w)`.
Not modelled: the 9/7 transform. Decoding of a part of a tile is in `DwtPart.lean`.
-/
namespace Jp2.Dwt

abbrev Arith := Int → Option Int

/-- `(a + b) >> 1`. -/
def avg (A : Arith) (a b : Int) : Option Int := (A (a + b)).map fun (s : Int) => s >>> (1 : Nat)

/-- `(a + b + 2) >> 2`. -/
def upd (A : Arith) (a b : Int) : Option Int :=
  (A (a + b)).bind fun s => (A (s + 2)).map fun (s : Int) => s >>> (2 : Nat)

/-- `*dst.offset(i) = v` on the row / on the scratch buffer of the pair `(row, tmp)`. -/
def wrRow (s : Mem Int × Mem Int) (i : Nat) (v : Int) : Option (Mem Int × Mem Int) := (wr s.1 i v).map (·, s.2)
def wrTmp (s : Mem Int × Mem Int) (i : Nat) (v : Int) : Option (Mem Int × Mem Int) := (wr s.2 i v).map (s.1, ·)

/-! ## Forward transform of one row -/

/-- First loop of the even case, `dwt.rs:672-678`. -/
def rowEvenD (A : Arith) (sn : Nat) (i : Nat) (s : Mem Int × Mem Int) : Option (Mem Int × Mem Int) :=
  (s.1 (2 * i + 1)).bind fun x => (s.1 (i * 2)).bind fun a => (s.1 ((i + 1) * 2)).bind fun b =>
  (avg A a b).bind fun h => (A (x - h)).bind fun v => wrTmp s (sn + i) v

/-- Second loop of the even case, `dwt.rs:686-693`. -/
def rowEvenS (A : Arith) (sn : Nat) (i : Nat) (s : Mem Int × Mem Int) : Option (Mem Int × Mem Int) :=
  (s.1 (2 * i)).bind fun x => (s.2 (sn + (i - 1))).bind fun a => (s.2 (sn + i)).bind fun b =>
  (upd A a b).bind fun h => (A (x + h)).bind fun v => wrRow s i v

/-- `memcpy(row + sn, tmp + sn, dn)`, `dwt.rs:701-705, 740-744`. -/
def rowCopy (sn : Nat) (i : Nat) (s : Mem Int × Mem Int) : Option (Mem Int × Mem Int) :=
  (s.2 (sn + i)).bind fun v => wrRow s (sn + i) v

/-- The even case, `dwt.rs:670-706`. -/
def rowEven (A : Arith) (width sn dn : Nat) (s : Mem Int × Mem Int) : Option (Mem Int × Mem Int) :=
  if width > 1 then
    (loopM (rowEvenD A sn) (sn - 1) 0 s).bind fun s =>
    (if width % 2 = 0 then
      (s.1 (2 * (sn - 1) + 1)).bind fun x => (s.1 ((sn - 1) * 2)).bind fun a =>
      (A (x - a)).bind fun v => wrTmp s (sn + (sn - 1)) v
     else some s).bind fun s =>
    ((s.1 0).bind fun x => (s.2 sn).bind fun a => (upd A a a).bind fun h => (A (x + h)).bind fun v => wrRow s 0 v).bind fun s =>
    (loopM (rowEvenS A sn) (dn - 1) 1 s).bind fun s =>
    (if width % 2 = 1 then
      let i := max 1 dn
      (s.1 (2 * i)).bind fun x => (s.2 (sn + (i - 1))).bind fun a => (upd A a a).bind fun h =>
      (A (x + h)).bind fun v => wrRow s i v
     else some s).bind fun s =>
    loopM (rowCopy sn) dn 0 s
  else some s

/-- First loop of the odd case, `dwt.rs:714-720`. -/
def rowOddD (A : Arith) (sn : Nat) (i : Nat) (s : Mem Int × Mem Int) : Option (Mem Int × Mem Int) :=
  (s.1 (2 * i)).bind fun x => (s.1 (2 * i + 1)).bind fun a => (s.1 (2 * (i - 1) + 1)).bind fun b =>
  (avg A a b).bind fun h => (A (x - h)).bind fun v => wrTmp s (sn + i) v

/-- Second loop of the odd case, `dwt.rs:726-733`. -/
def rowOddS (A : Arith) (sn : Nat) (i : Nat) (s : Mem Int × Mem Int) : Option (Mem Int × Mem Int) :=
  (s.1 (2 * i + 1)).bind fun x => (s.2 (sn + i)).bind fun a => (s.2 (sn + i + 1)).bind fun b =>
  (upd A a b).bind fun h => (A (x + h)).bind fun v => wrRow s i v

/-- The odd case, `dwt.rs:707-745`. -/
def rowOdd (A : Arith) (width sn dn : Nat) (s : Mem Int × Mem Int) : Option (Mem Int × Mem Int) :=
  if width = 1 then (s.1 0).bind fun x => (A (x * 2)).bind fun v => wrRow s 0 v
  else
    ((s.1 0).bind fun x => (s.1 1).bind fun a => (A (x - a)).bind fun v => wrTmp s sn v).bind fun s =>
    (loopM (rowOddD A sn) (sn - 1) 1 s).bind fun s =>
    (if width % 2 = 1 then
      let i := max 1 sn
      (s.1 (2 * i)).bind fun x => (s.1 (2 * (i - 1) + 1)).bind fun a =>
      (A (x - a)).bind fun v => wrTmp s (sn + i) v
     else some s).bind fun s =>
    (loopM (rowOddS A sn) (dn - 1) 0 s).bind fun s =>
    (if width % 2 = 0 then
      let i := dn - 1
      (s.1 (2 * i + 1)).bind fun x => (s.2 (sn + i)).bind fun a => (upd A a a).bind fun h =>
      (A (x + h)).bind fun v => wrRow s i v
     else some s).bind fun s =>
    loopM (rowCopy sn) dn 0 s

/-- `opj_dwt_encode_and_deinterleave_h_one_row`, `dwt.rs:659-746`, on `(row, tmp)`. -/
def encodeRow (A : Arith) (width : Nat) (even : Bool) (s : Mem Int × Mem Int) : Option (Mem Int × Mem Int) :=
  let sn := (width + (if even then 1 else 0)) / 2
  let dn := width - sn
  if even then rowEven A width sn dn s else rowOdd A width sn dn s

/-! ## Forward transform of up to eight columns -/

/-- `for c in 0..NB_ELTS_V8`: apply `f` to each of the eight interleaved columns. -/
def cols8 (f : Nat → Mem Int → Option (Mem Int)) (t : Mem Int) : Option (Mem Int) := loopM f 8 0 t

/-- `opj_dwt_fetch_cols_vertical_pass`, `dwt.rs:784-822`: row `k`, column `c` goes to `tmp[8k+c]`, zero
beyond `cols`. (The `memcpy` of eight columns is the same as the copy loop.) -/
def fetchCols (arr : Mem Int) (height stride cols : Nat) (t : Mem Int) : Option (Mem Int) :=
  loopM (fun k t => cols8 (fun c t =>
    if c < cols then (arr (c + k * stride)).bind fun v => wr t (8 * k + c) v
    else wr t (8 * k + c) 0) t) height 0 t

/-- Index of `_sc(i, c)` and `_dc(i, c)`, `dwt.rs:889-901`. -/
def sc (i c : Nat) : Nat := i * 2 * 8 + c
def dc (i c : Nat) : Nat := (1 + i * 2) * 8 + c

/-- `t[p] -= (t[q] + t[r]) >> 1`. -/
def subAvg (A : Arith) (p q r : Nat) (t : Mem Int) : Option (Mem Int) :=
  (t q).bind fun a => (t r).bind fun b => (avg A a b).bind fun h =>
  (t p).bind fun x => (A (x - h)).bind fun v => wr t p v
/-- `t[p] -= t[q]`. -/
def subOne (A : Arith) (p q : Nat) (t : Mem Int) : Option (Mem Int) :=
  (t q).bind fun a => (t p).bind fun x => (A (x - a)).bind fun v => wr t p v
/-- `t[p] += (t[q] + t[r] + 2) >> 2`. -/
def addUpd (A : Arith) (p q r : Nat) (t : Mem Int) : Option (Mem Int) :=
  (t q).bind fun a => (t r).bind fun b => (upd A a b).bind fun h =>
  (t p).bind fun x => (A (x + h)).bind fun v => wr t p v

/-- The lifting steps, `dwt.rs:903-984`. -/
def liftCols (A : Arith) (height sn dn : Nat) (even : Bool) (t : Mem Int) : Option (Mem Int) :=
  if even then
    if height > 1 then
      (loopM (fun i t => cols8 (fun c => subAvg A (dc i c) (sc i c) (sc (i + 1) c)) t) (sn - 1) 0 t).bind fun t =>
      (if height % 2 = 0 then cols8 (fun c => subOne A (dc (sn - 1) c) (sc (sn - 1) c)) t else some t).bind fun t =>
      (cols8 (fun c => addUpd A (sc 0 c) (dc 0 c) (dc 0 c)) t).bind fun t =>
      (loopM (fun i t => cols8 (fun c => addUpd A (sc i c) (dc (i - 1) c) (dc i c)) t) (dn - 1) 1 t).bind fun t =>
      (if height % 2 = 1 then
        cols8 (fun c => addUpd A (sc (max 1 dn) c) (dc (max 1 dn - 1) c) (dc (max 1 dn - 1) c)) t
       else some t)
    else some t
  else if height = 1 then
    cols8 (fun c t => (t (sc 0 c)).bind fun x => (A (x * 2)).bind fun v => wr t (sc 0 c) v) t
  else
    (cols8 (fun c => subOne A (sc 0 c) (dc 0 c)) t).bind fun t =>
    (loopM (fun i t => cols8 (fun c => subAvg A (sc i c) (dc i c) (dc (i - 1) c)) t) (sn - 1) 1 t).bind fun t =>
    (if height % 2 = 1 then
      cols8 (fun c => subOne A (sc (max 1 sn) c) (dc (max 1 sn - 1) c)) t
     else some t).bind fun t =>
    (loopM (fun i t => cols8 (fun c => addUpd A (dc i c) (sc i c) (sc (i + 1) c)) t) (dn - 1) 0 t).bind fun t =>
    (if height % 2 = 0 then
      cols8 (fun c => addUpd A (dc (dn - 1) c) (sc (dn - 1) c) (sc (dn - 1) c)) t
     else some t)

/-- How many columns one line of `opj_dwt_deinterleave_v_cols` copies, `dwt.rs:845-858`. -/
def copied (cols : Nat) : Nat := if cols = 8 then 8 else if cols ≤ 7 then max 1 cols else 1

/-- One pass (`k = 0` or `1`) of `opj_dwt_deinterleave_v_cols`, `dwt.rs:842-861`: `n` lines. -/
def deintPass (t : Mem Int) (src dst stride cols n : Nat) (arr : Mem Int) : Option (Mem Int) :=
  loopM (fun i arr => loopM (fun c arr => (t (src + i * (2 * 8) + c)).bind fun v => wr arr (dst + i * stride + c) v)
    (copied cols) 0 arr) n 0 arr

/-- `opj_dwt_deinterleave_v_cols`, `dwt.rs:828-867`. -/
def deintCols (t : Mem Int) (dn sn stride cas cols : Nat) (arr : Mem Int) : Option (Mem Int) :=
  (deintPass t (cas * 8) 0 stride cols sn arr).bind fun arr =>
  deintPass t ((1 - cas) * 8) (sn * stride) stride cols dn arr

/-- `opj_dwt_encode_and_deinterleave_v`, `dwt.rs:871-1006`, on `(array, tmp)`. -/
def encodeCols (A : Arith) (height : Nat) (even : Bool) (stride cols : Nat) (s : Mem Int × Mem Int) :
    Option (Mem Int × Mem Int) :=
  let sn := (height + (if even then 1 else 0)) / 2
  let dn := height - sn
  (fetchCols s.1 height stride cols s.2).bind fun t =>
  (liftCols A height sn dn even t).bind fun t =>
  (deintCols t dn sn stride (if even then 0 else 1) cols s.1).map (·, t)

/-! ## Forward transform of a tile -/

/-- The part of a resolution the transform looks at (`opj_tcd_resolution_t`). -/
structure Res where
  x0 : Nat
  y0 : Nat
  x1 : Nat
  y1 : Nat
deriving DecidableEq, Repr

def Res.w (r : Res) : Nat := r.x1 - r.x0
def Res.h (r : Res) : Nat := r.y1 - r.y0

/-- View of an allocation through a pointer `off` elements into it, and back. -/
def at_ (f : Mem Int × Mem Int → Option (Mem Int × Mem Int)) (off : Nat) (s : Mem Int × Mem Int) :
    Option (Mem Int × Mem Int) :=
  (f (fun i => s.1 (off + i), s.2)).map fun r => (fun k => if off ≤ k then r.1 (k - off) else s.1 k, r.2)

/-- One level of `opj_dwt_encode_procedure`, `dwt.rs:1201-1238`. -/
def encodeLevel (A : Arith) (w : Nat) (r : Res) (s : Mem Int × Mem Int) : Option (Mem Int × Mem Int) :=
  let rw := r.w
  let rh := r.h
  -- vertical pass: groups of eight columns, then the rest
  (loopM (fun g s => at_ (encodeCols A rh (r.y0 % 2 == 0) w 8) (8 * g) s) (rw / 8) 0 s).bind fun s =>
  (if 8 * (rw / 8) < rw then at_ (encodeCols A rh (r.y0 % 2 == 0) w (rw - 8 * (rw / 8))) (8 * (rw / 8)) s
   else some s).bind fun s =>
  -- horizontal pass
  loopM (fun j s => at_ (encodeRow A rw (r.x0 % 2 == 0)) (j * w % 2 ^ 32) s) rh 0 s

/-- The level loop, from the highest resolution down to resolution 1. -/
def encodeLevels (A : Arith) (w : Nat) : List Res → Mem Int × Mem Int → Option (Mem Int × Mem Int)
  | [], s => some s
  | r :: rs, s => (encodeLevels A w rs s).bind fun s => encodeLevel A w r s

/-- `opj_dwt_max_resolution`, `dwt.rs:1419-1441`, over the resolutions above the lowest. -/
def maxRes (rs : List Res) : Nat := rs.foldl (fun m r => max (max m r.w) r.h) 0

/-- An allocation of `n` uninitialised words: contents arbitrary. -/
def fresh (junk : Nat → Int) (n : Nat) : Mem Int := fun i => if i < n then some (junk i) else none

/-- `opj_dwt_encode` through `opj_dwt_encode_procedure`, `dwt.rs:1155-1276`. `rs` are the resolutions above
the lowest, in increasing order; the tile component is the last one. Allocation succeeds. -/
def encodeTile (A : Arith) (junk : Nat → Int) (tile : Res) (rs : List Res) (data : Mem Int) : Option (Mem Int) :=
  (encodeLevels A tile.w rs (data, fresh junk (8 * maxRes rs))).map (·.1)

/-! ## Inverse transform -/

/-- `i.clamp(0, n - 1)`; panics for `n = 0`. `dwt.rs:61-67`. -/
def clampIdx (i : Int) (n : Nat) : Option Nat :=
  if n = 0 then none else some (if i < 0 then 0 else if n ≤ i.toNat then n - 1 else i.toNat)

/-- `mem[p] -= (mem[q] + mem[r] + 2) >> 2`. -/
def subUpd (A : Arith) (p q r : Nat) (t : Mem Int) : Option (Mem Int) :=
  (t q).bind fun a => (t r).bind fun b => (upd A a b).bind fun h =>
  (t p).bind fun x => (A (x - h)).bind fun v => wr t p v
/-- `mem[p] += (mem[q] + mem[r]) >> 1`. -/
def addAvg (A : Arith) (p q r : Nat) (t : Mem Int) : Option (Mem Int) :=
  (t q).bind fun a => (t r).bind fun b => (avg A a b).bind fun h =>
  (t p).bind fun x => (A (x + h)).bind fun v => wr t p v

/-- `decode_1`, `dwt.rs:134-158`. -/
def decode1 (A : Arith) (sn dn cas : Nat) (t : Mem Int) : Option (Mem Int) :=
  if cas = 0 then
    if dn > 0 ∨ sn > 1 then
      (loopM (fun i t => (clampIdx (i - 1) dn).bind fun p => (clampIdx i dn).bind fun q =>
        subUpd A (i * 2) (1 + p * 2) (1 + q * 2) t) sn 0 t).bind fun t =>
      loopM (fun i t => (clampIdx i sn).bind fun p => (clampIdx (i + 1) sn).bind fun q =>
        addAvg A (1 + i * 2) (p * 2) (q * 2) t) dn 0 t
    else some t
  else if sn = 0 ∧ dn = 1 then
    (t 0).bind fun x => (wr t 0 (x.tdiv 2))
  else
    (loopM (fun i t => (clampIdx i dn).bind fun p => (clampIdx (i + 1) dn).bind fun q =>
      subUpd A (1 + i * 2) (p * 2) (q * 2) t) sn 0 t).bind fun t =>
    loopM (fun i t => (clampIdx i sn).bind fun p => (clampIdx (i - 1) sn).bind fun q =>
      addAvg A (i * 2) (1 + p * 2) (1 + q * 2) t) dn 0 t

/-- `opj_dwt_interleave_h` (`x = 1`) and `opj_dwt_interleave_v`, `dwt.rs:389-450`. -/
def interleave (a : Mem Int) (x sn dn cas : Nat) (t : Mem Int) : Option (Mem Int) :=
  (loopM (fun i t => (a (i * x)).bind fun v => wr t (cas + i * 2) v) sn 0 t).bind fun t =>
  loopM (fun i t => (a (sn * x + i * x)).bind fun v => wr t (1 - cas + i * 2) v) dn 0 t

/-- The copy back: `memcpy` of `opj_idwt53_h` (`x = 1`), loop of `opj_idwt53_v`, `dwt.rs:460-464, 483-487`. -/
def copyBack (t : Mem Int) (x n : Nat) (a : Mem Int) : Option (Mem Int) :=
  loopM (fun k a => (t k).bind fun v => wr a (k * x) v) n 0 a

/-- `opj_idwt53_h` (`x = 1`, `dwt.rs:456-465`) and one column of `opj_idwt53_v` (`dwt.rs:471-490`), on
`(line, mem)`. -/
def idwtLine (A : Arith) (x sn dn cas : Nat) (s : Mem Int × Mem Int) : Option (Mem Int × Mem Int) :=
  (interleave s.1 x sn dn cas s.2).bind fun t =>
  (decode1 A sn dn cas t).bind fun t =>
  (copyBack t x (sn + dn) s.1).map (·, t)

/-- One level of `opj_dwt_decode_tile`, `dwt.rs:1490-1519`: `lo` is the resolution already decoded. The
grouping of columns by eight does not change the order of the per-column work. -/
def decodeLevel (A : Arith) (w : Nat) (lo r : Res) (s : Mem Int × Mem Int) : Option (Mem Int × Mem Int) :=
  (loopM (fun j s => at_ (idwtLine A 1 lo.w (r.w - lo.w) (r.x0 % 2)) (j * w) s) r.h 0 s).bind fun s =>
  loopM (fun j s => at_ (idwtLine A w lo.h (r.h - lo.h) (r.y0 % 2)) j s) r.w 0 s

def decodeLevels (A : Arith) (w : Nat) : Res → List Res → Mem Int × Mem Int → Option (Mem Int × Mem Int)
  | _, [], s => some s
  | lo, r :: rs, s => (decodeLevel A w lo r s).bind fun s => decodeLevels A w r rs s

/-- `opj_dwt_decode_tile`, `dwt.rs:1446-1523`, decoding all resolutions: `r0` is the lowest one, `rs` those
above it, `tile` the highest. Allocation succeeds. -/
def decodeTile (A : Arith) (junk : Nat → Int) (tile r0 : Res) (rs : List Res) (data : Mem Int) : Option (Mem Int) :=
  if rs = [] ∨ tile.w = 0 then some data
  else (decodeLevels A tile.w r0 rs (data, fresh junk (8 * maxRes rs))).map (·.1)

end Jp2.Dwt

import Verif.Jp2.Dwt
/-!
# The inverse 5/3 transform of a part of a tile: `openjp2-rs/src/dwt.rs`, `openjp2-rs/src/tcd.rs`

The sparse array is a plain two-dimensional array `Plane` of its width and height (that it behaves like one is
`C35_plain_array`); a region that is empty or not inside it is left alone, because every access is made with
`forgiving = 1`. What the line buffer holds before a line is processed is arbitrary (`junk`): the code never
clears it. Four columns are processed together in the code, here one after the other; they do not share any
cell. Coordinates are unbounded numbers (in the code they are `u32`, below `2^31`, and nothing wraps). All
allocations succeed. Not modelled: the 9/7 transform.
-/
namespace Jp2.Dwt

/-- A sparse array: the value at row `j`, column `i`. -/
abbrev Plane := Nat → Nat → Int

/-- `opj_uint_ceildivpow2`, `math.rs`, on unbounded numbers (the code's version is the subject of C26). -/
def cdp (v nb : Nat) : Nat := (v + (2 ^ nb - 1)) / 2 ^ nb

/-- One coordinate of `opj_dwt_get_band_coordinates`, `dwt.rs:1607-1678`, and of the same computation in
`opj_tcd_is_subband_area_of_interest`, `tcd.rs:2966-3011`; `x0b` is `0` or `1`. -/
def bandCoord (nb x0b v : Nat) : Nat :=
  if nb = 0 then v else if v ≤ 2 ^ (nb - 1) * x0b then 0 else cdp (v - 2 ^ (nb - 1) * x0b) nb

/-- The windows of interest of one axis at one level, relative to the bands (`l0..l1` low, `h0..h1` high) and to the
resolution (`t0..t1`). -/
structure Win where
  l0 : Nat
  l1 : Nat
  h0 : Nat
  h1 : Nat
  t0 : Nat
  t1 : Nat
deriving DecidableEq, Repr

/-- `opj_dwt_segment_grow`, `dwt.rs:1680-1689`, start and end. -/
def growLo (fw s : Nat) : Nat := s - fw
def growHi (fw size e : Nat) : Nat := min (e + fw) size

/-- The windows of one axis, `dwt.rs:1873-1977`: `nb` is the number of decompositions of the bands, `w0..w1` the window
in the coordinates of the tile component, `ll` and `hh` the origins of the low and high bands, `sn`, `dn` their
sizes, `cas` the parity of the origin of the resolution and `rw` its size. -/
def winOf (nb w0 w1 ll hh sn dn cas rw : Nat) : Win :=
  let l0 := growLo 2 (bandCoord nb 0 w0 - ll)
  let l1 := growHi 2 sn (bandCoord nb 0 w1 - ll)
  let h0 := growLo 2 (bandCoord nb 1 w0 - hh)
  let h1 := growHi 2 dn (bandCoord nb 1 w1 - hh)
  if cas = 0 then ⟨l0, l1, h0, h1, min (2 * l0) (2 * h0 + 1), min (max (2 * l1) (2 * h1 + 1)) rw⟩
  else ⟨l0, l1, h0, h1, min (2 * h0) (2 * l0 + 1), min (max (2 * h1) (2 * l1 + 1)) rw⟩

/-- `decode_partial_1`, `dwt.rs:160-194`, and `decode_partial_1_parallel`, `dwt.rs:196-283` (one of its columns): `A` is the
arithmetic of the even case, `B` that of the odd one. -/
def decodePart1 (A B : Arith) (sn dn cas l0 l1 h0 h1 : Nat) (t : Mem Int) : Option (Mem Int) :=
  if cas = 0 then
    if dn > 0 ∨ sn > 1 then
      (loopM (fun i t => (clampIdx (i - 1) dn).bind fun p => (clampIdx i dn).bind fun q =>
        subUpd A (i * 2) (1 + p * 2) (1 + q * 2) t) (l1 - l0) l0 t).bind fun t =>
      loopM (fun i t => (clampIdx i sn).bind fun p => (clampIdx (i + 1) sn).bind fun q =>
        addAvg A (1 + i * 2) (p * 2) (q * 2) t) (h1 - h0) h0 t
    else some t
  else if sn = 0 ∧ dn = 1 then
    (t 0).bind fun x => (wr t 0 (x.tdiv 2))
  else
    (loopM (fun i t => (clampIdx i dn).bind fun p => (clampIdx (i + 1) dn).bind fun q =>
      subUpd B (1 + i * 2) (p * 2) (q * 2) t) (l1 - l0) l0 t).bind fun t =>
    loopM (fun i t => (clampIdx i sn).bind fun p => (clampIdx (i - 1) sn).bind fun q =>
      addAvg B (i * 2) (1 + p * 2) (1 + q * 2) t) (h1 - h0) h0 t

/-- One `opj_sparse_array_int32_read` of cells `x0..x1` of a line `f` of `size` cells into every second cell of the
buffer, from `d`. -/
def readCells (size : Nat) (f : Nat → Int) (x0 x1 d : Nat) (t : Mem Int) : Option (Mem Int) :=
  if x0 < x1 ∧ x1 ≤ size then loopM (fun i t => wr t (d + 2 * i) (f (x0 + i))) (x1 - x0) 0 t else some t

/-- `opj_dwt_interleave_partial_h`, `dwt.rs:1525-1564`, and one column of `opj_dwt_interleave_partial_v`,
`dwt.rs:1566-1605`. -/
def interPart (size : Nat) (f : Nat → Int) (sn cas l0 l1 h0 h1 : Nat) (t : Mem Int) : Option (Mem Int) :=
  (readCells size f l0 l1 (cas + 2 * l0) t).bind fun t =>
  readCells size f (sn + h0) (sn + h1) (1 - cas + 2 * h0) t

/-- One row of the horizontal pass up to the write, `dwt.rs:1990-2017`. -/
def partRow (A B : Arith) (size : Nat) (f : Nat → Int) (sn dn cas rw : Nat) (x : Win) (t : Mem Int) : Option (Mem Int) :=
  (if 1 ≤ x.t1 ∧ x.t1 < rw then wr t (x.t1 - 1) 0 else some t).bind fun t =>
  (if x.t1 < rw then wr t x.t1 0 else some t).bind fun t =>
  (interPart size f sn cas x.l0 x.l1 x.h0 x.h1 t).bind fun t =>
  decodePart1 A B sn dn cas x.l0 x.l1 x.h0 x.h1 t

/-- One column of the vertical pass up to the write, `dwt.rs:2045-2062`. -/
def partCol (B : Arith) (size : Nat) (f : Nat → Int) (sn dn cas : Nat) (x : Win) (t : Mem Int) : Option (Mem Int) :=
  (interPart size f sn cas x.l0 x.l1 x.h0 x.h1 t).bind fun t =>
  decodePart1 B B sn dn cas x.l0 x.l1 x.h0 x.h1 t

/-- The write of cells `t0..t1` of row `j`, `dwt.rs:2018-2034`. -/
def writeRow (size : Nat) (t : Mem Int) (j t0 t1 : Nat) (p : Plane) : Option Plane :=
  if t0 < t1 ∧ t1 ≤ size then
    loopM (fun k p => (t (t0 + k)).map fun v j' i' => if j' = j ∧ i' = t0 + k then v else p j' i') (t1 - t0) 0 p
  else some p

/-- The write of cells `t0..t1` of column `i`, `dwt.rs:2063-2080`. -/
def writeCol (size : Nat) (t : Mem Int) (i t0 t1 : Nat) (p : Plane) : Option Plane :=
  if t0 < t1 ∧ t1 ≤ size then
    loopM (fun k p => (t (t0 + k)).map fun v j' i' => if i' = i ∧ j' = t0 + k then v else p j' i') (t1 - t0) 0 p
  else some p

/-- One level of `opj_dwt_decode_partial_tile`, `dwt.rs:1978-2083`: `W`, `H` is the size of the sparse array, `mx` the
length of the line buffer, `lo` the resolution below and `r` the one that is being made. -/
def partLevel (A B : Arith) (junk : Nat → Nat → Nat → Int) (mx W H : Nat) (x y : Win) (lo r : Res) (p : Plane) :
    Option Plane :=
  (loopM (fun j p =>
    if (y.l0 ≤ j ∧ j < y.l1) ∨ (y.h0 + lo.h ≤ j ∧ j < y.h1 + lo.h) then
      (partRow A B W (p j) lo.w (r.w - lo.w) (r.x0 % 2) r.w x (fresh (junk 0 j) mx)).bind fun t =>
      writeRow W t j x.t0 x.t1 p
    else some p) r.h 0 p).bind fun p =>
  loopM (fun i p =>
    (partCol B H (fun j => p j i) lo.h (r.h - lo.h) (r.y0 % 2) y (fresh (junk 1 i) mx)).bind fun t =>
    writeCol H t i y.t0 y.t1 p) (x.t1 - x.t0) x.t0 p

/-- The resolution of a tile component `c` with `d` decompositions, as `opj_tcd_init_tile` computes it (C45): the highest one
has none. -/
def resOf (c : Res) (d : Nat) : Res := ⟨cdp c.x0 d, cdp c.y0 d, cdp c.x1 d, cdp c.y1 d⟩

/-- The `n` resolutions with `s + n - 1` down to `s` decompositions: `tr` as the level loop goes through it. -/
def resDown (c : Res) (s : Nat) : Nat → List Res
  | 0 => []
  | n + 1 => resOf c (s + n) :: resDown c s n

/-- The level loop of `opj_dwt_decode_partial_tile`, `dwt.rs:1842-2084`, with `n` levels to go before the resolution with `s`
decompositions is reached (`resno` is `numres - n`, `nb` is `numresolutions - resno`). The origins of the bands are
those `opj_tcd_init_tile` computes. `c` is the tile component, `win` the window in its coordinates. -/
def partLevels (A B : Arith) (junk : Nat → Nat → Nat → Nat → Int) (mx W H s : Nat) (c win : Res) :
    Nat → Plane → Option Plane
  | 0, p => some p
  | n + 1, p =>
    let lo := resOf c (s + n + 1)
    let r := resOf c (s + n)
    let nb := s + n + 1
    let x := winOf nb win.x0 win.x1 (bandCoord nb 0 c.x0) (bandCoord nb 1 c.x0) lo.w (r.w - lo.w) (r.x0 % 2) r.w
    let y := winOf nb win.y0 win.y1 (bandCoord nb 0 c.y0) (bandCoord nb 1 c.y0) lo.h (r.h - lo.h) (r.y0 % 2) r.h
    (partLevel A B (junk n) mx W H x y lo r p).bind fun p => partLevels A B junk mx W H s c win n p

/-- `opj_dwt_decode_partial_tile`, `dwt.rs:1780-2100`, with the sparse array already filled: `m` of the `N` resolutions are
decoded. The result is the window, row by row (`data_win`), and what was there when the window is empty; the windows
of the resolutions are set in `tcd.rs:1813-1850`. -/
def partTile (A B : Arith) (junk : Nat → Nat → Nat → Nat → Int) (N m : Nat) (c win : Res) (p old : Plane) : Option Plane :=
  let r := resOf c (N - m)
  let q := resOf win (N - m)
  if r.x0 = r.x1 ∨ r.y0 = r.y1 then some old
  else (partLevels A B junk (maxRes (resDown c (N - m) (m - 1))) r.w r.h (N - m) c win (m - 1) p).map fun p j i =>
    if q.x0 - r.x0 < q.x1 - r.x0 ∧ q.x1 - r.x0 ≤ r.w ∧ q.y0 - r.y0 < q.y1 - r.y0 ∧ q.y1 - r.y0 ≤ r.h ∧ j < q.h ∧ i < q.w
    then p (q.y0 - r.y0 + j) (q.x0 - r.x0 + i) else old j i

/-- `opj_tcd_is_subband_area_of_interest`, `tcd.rs:2926-3029`, for the 5/3 transform: `win` is the window clipped to the
tile component, `b` the block of band `bandno` of resolution `k`. -/
def areaOfInterest (N k bandno : Nat) (win b : Res) : Bool :=
  let nb := if k = 0 then N - 1 else N - k
  let tbx0 := bandCoord nb (bandno % 2) win.x0 - 2
  let tby0 := bandCoord nb (bandno / 2) win.y0 - 2
  let tbx1 := bandCoord nb (bandno % 2) win.x1 + 2
  let tby1 := bandCoord nb (bandno / 2) win.y1 + 2
  decide (b.x0 < tbx1 ∧ b.y0 < tby1 ∧ b.x1 > tbx0 ∧ b.y1 > tby0)

/-- Whether a packet is read, `t2.rs:400-425`: `precs` are the bands of its resolution with the rectangle of its precinct in each. -/
def packetRead (N k : Nat) (win : Res) (precs : List (Nat × Res)) : Bool :=
  precs.any fun e => areaOfInterest N k e.1 win e.2

/-- Whether a code-block of a part of a tile is decoded, `t1.rs:2116-2160` (the blocks start without decoded data). -/
def blockDecoded (N k bandno : Nat) (win prec blk : Res) : Bool :=
  if areaOfInterest N k bandno win prec = false then false
  else if areaOfInterest N k bandno win blk = false then false
  else if blk.x1 - blk.x0 = 0 ∨ blk.y1 - blk.y0 = 0 then false else true

end Jp2.Dwt

import Verif.Jp2.Setup
import Verif.Jp2.Tcd
import Verif.Jp2.Tp
/-!
# Decoding an area: `opj_j2k_set_decode_area` and the putting together of the image, `openjp2-rs/src/j2k.rs`

`u32` values are `Nat`, `i32` values are `Int`. What the decoding of a tile yields (entropy decoding, wavelet, colour,
modelled elsewhere) is a parameter here: a plane of samples for each component, of which the tile decoder delivers the part
it was asked for. All packets of the codestream are taken to be there, so the resolution decoded (`resno_decoded`) is the
highest one asked for. Memory allocation succeeds, except that an allocation of no bytes gives a null pointer
(`malloc.rs:66-69`). Checks of sizes against `usize::MAX` cannot fail for 32-bit extents on a 64-bit target.
-/
namespace Jp2.Area
open Jp2.Hdr (R Fail refuseIf)
open Jp2.Setup (u32)
open Jp2.Tcd (asI32)

/-- Result of a helper that can panic. -/
def opt {α : Type} : Option α → R α
  | none => .error .panic
  | some a => .ok a

/-- Result of a function of `tcd.rs`. -/
def tcd {α : Type} : Except Tcd.Err α → R α
  | .ok a => .ok a
  | .error .panic => .error .panic
  | .error .refused => .error .refused

/-- Overflow-checked `i32` result. -/
def i32 (x : Int) : R Int := if -2 ^ 31 ≤ x ∧ x < 2 ^ 31 then .ok x else .error .panic

/-- `a.wrapping_sub(b)` on `u32`. -/
def sub (a b : Nat) : Nat := (a + (2 ^ 32 - b)) % 2 ^ 32

/-- `x0`, `y0`, `x1`, `y1` of an `opj_image`. -/
structure Box where
  x0 : Nat
  y0 : Nat
  x1 : Nat
  y1 : Nat
deriving DecidableEq, Repr

/-- `opj_image_comp`. Memory nobody has written yet is `none`; a null pointer is `none` for `data`. -/
structure Comp where
  dx : Nat
  dy : Nat
  factor : Nat := 0
  x0 : Nat := 0
  y0 : Nat := 0
  w : Nat := 0
  h : Nat := 0
  data : Option (List (Option Int)) := none
deriving DecidableEq, Repr

/-- What the decoder knows when the main header is read: the image area, the tiles and the components (`Tcd.Params`), the
number of rows of tiles and `m_reduce`. -/
structure Dec where
  p : Tcd.Params
  th : Nat
  reduce : Nat

/-! ## Which area -/

/-- One component of `opj_j2k_update_image_dimensions`, `j2k.rs:9781-9836`. -/
def dims (b : Box) (c : Comp) : R Comp := do
  refuseIf (2147483647 < b.x0 ∨ 2147483647 < b.y0 ∨ 2147483647 < b.x1 ∨ 2147483647 < b.y1)
  let x0 ← opt (Math.uintCeildiv b.x0 c.dx)
  let y0 ← opt (Math.uintCeildiv b.y0 c.dy)
  let x1 ← opt (Math.intCeildiv (asI32 b.x1) (asI32 c.dx))
  let y1 ← opt (Math.intCeildiv (asI32 b.y1) (asI32 c.dy))
  let e ← opt (Math.intCeildivpow2 x1 (asI32 c.factor))
  let s ← opt (Math.intCeildivpow2 (asI32 x0) (asI32 c.factor))
  let w ← i32 (e - s)
  refuseIf (w < 0)
  let e ← opt (Math.intCeildivpow2 y1 (asI32 c.factor))
  let s ← opt (Math.intCeildivpow2 (asI32 y0) (asI32 c.factor))
  let h ← i32 (e - s)
  refuseIf (h < 0)
  return { c with x0 := x0, y0 := y0, w := u32 w, h := u32 h }

/-- `opj_j2k_update_image_dimensions`, `j2k.rs:9770-9839`. -/
def allDims (b : Box) (cs : List Comp) : R (List Comp) := cs.mapM (dims b)

/-- Left or upper side of the area: the first tile and the coordinate, `j2k.rs:9953-9980` and `9982-10009`. The image goes
from `i0` to `i1`, tiles are `td` wide from `g` on. -/
def areaStart (s : Int) (i0 i1 g td : Nat) : R (Nat × Nat) := do
  refuseIf (s < 0)
  refuseIf (i1 < u32 s)
  if u32 s < i0 then return (0, i0)
  if td = 0 then throw .panic
  return (sub (u32 s) g / td, u32 s)

/-- Right or lower side: the tile after the last one and the coordinate, `j2k.rs:10011-10043` and `10045-10079`. There are `t`
tiles. -/
def areaEnd (e : Int) (i0 i1 g td t : Nat) : R (Nat × Nat) := do
  refuseIf (e ≤ 0)
  refuseIf (u32 e < i0)
  if i1 < u32 e then return (t, i1)
  if u32 e < g then throw .panic
  let n ← opt (Math.uintCeildiv (u32 e - g) td)
  return (n, u32 e)

/-- `opj_j2k_set_decode_area`, `j2k.rs:9892-10098`, after the main header was read (`j2k.rs:9906-9918`). -/
def setArea (d : Dec) (cs : List Comp) (sx sy ex ey : Int) : R (Tp.Window × Box × List Comp) := do
  let cs := cs.map fun c => { c with factor := d.reduce }
  if sx = 0 ∧ sy = 0 ∧ ex = 0 ∧ ey = 0 then
    let b : Box := ⟨d.p.x0, d.p.y0, d.p.x1, d.p.y1⟩
    let cs ← allDims b cs
    return (⟨0, d.p.tw, 0, d.th⟩, b, cs)
  let (wx0, x0) ← areaStart sx d.p.x0 d.p.x1 d.p.cpTx0 d.p.tdx
  let (wy0, y0) ← areaStart sy d.p.y0 d.p.y1 d.p.cpTy0 d.p.tdy
  let (wx1, x1) ← areaEnd ex d.p.x0 d.p.x1 d.p.cpTx0 d.p.tdx d.p.tw
  let (wy1, y1) ← areaEnd ey d.p.y0 d.p.y1 d.p.cpTy0 d.p.tdy d.th
  let b : Box := ⟨x0, y0, x1, y1⟩
  let cs ← allDims b cs
  return (⟨wx0, wx1, wy0, wy1⟩, b, cs)

/-- `opj_j2k_set_decoded_components`, `j2k.rs:9841-9890`, for an image of `n` components. -/
def setComponents (n : Nat) : List Nat → List Nat → R Unit
  | _, [] => .ok ()
  | seen, i :: is => do
    refuseIf (n ≤ i)
    refuseIf (i ∈ seen)
    setComponents n (i :: seen) is

/-- The loop of `opj_j2k_set_decoded_resolution_factor` over the components, `j2k.rs:12083-12102`: the factors it leaves, and
whether it got through. -/
def setFactors (f : Nat) : List (Nat × Nat) → List Nat × Bool
  | [] => ([], true)
  | (numres, old) :: rest =>
    if numres ≤ f then (old :: rest.map (·.2), false)
    else
      let r := setFactors f rest
      (f :: r.1, r.2)

/-- `opj_j2k_set_decoded_resolution_factor`, `j2k.rs:12068-12107`, once the main header is read: the decoder, the factors of the
components of the codestream's image (`old` before), and the answer. -/
def setReduce (d : Dec) (old : List Nat) (f : Nat) : Dec × List Nat × Bool :=
  let r := setFactors f ((d.p.comps.map (·.prc.length)).zip old)
  ({ d with reduce := f }, r.1, r.2)

/-! ## What a tile delivers -/

/-- `minimum_num_resolutions`, `tcd.rs:883-889`. -/
def minRes (numres reduce : Nat) : Nat := if numres < reduce then 1 else numres - reduce

/-- One axis of the area in the coordinates of a tile-component, `tcd.rs:1789-1804` and `3047-3062`. -/
def winAxis (t0 t1 : Int) (b0 b1 d : Nat) : R (Nat × Nat) := do
  let a ← opt (Math.uintCeildiv b0 d)
  let e ← opt (Math.uintCeildiv b1 d)
  return (Math.uintMax (u32 t0) a, Math.uintMin (u32 t1) e)

/-- One axis of the test in `opj_tcd_is_whole_tilecomp_decoding`, `tcd.rs:3068-3078`. -/
def wholeAxis (t0 t1 : Int) (a e shift : Nat) : Bool :=
  decide (u32 t0 ≤ a) && decide (e ≤ u32 t1) &&
    (decide (32 ≤ shift) || (sub a (u32 t0) >>> shift == 0 && sub (u32 t1) e >>> shift == 0))

/-- `opj_tcd_is_whole_tilecomp_decoding`, `tcd.rs:3035-3080`. -/
def wholeComp (d : Dec) (b : Box) (c : Tcd.CompP) (t : Tcd.TileC) : R Bool := do
  let (x0, x1) ← winAxis t.rect.x0 t.rect.x1 b.x0 b.x1 c.dx
  let (y0, y1) ← winAxis t.rect.y0 t.rect.y1 b.y0 b.y1 c.dy
  let shift := sub c.prc.length (minRes c.prc.length d.reduce)
  return wholeAxis t.rect.x0 t.rect.x1 x0 x1 shift && wholeAxis t.rect.y0 t.rect.y1 y0 y1 shift

/-- `whole_tile_decoding`, `tcd.rs:1705` and `1721-1732`, from component `i` on. -/
def wholeTile (d : Dec) (b : Box) (used : Nat → Bool) : Nat → List (Tcd.CompP × Tcd.TileC) → R Bool
  | _, [] => .ok true
  | i, (c, t) :: rest => do
    if used i then
      let w ← wholeComp d b c t
      if !w then return false
    wholeTile d b used (i + 1) rest

/-- The samples of a rectangle of a plane, row by row. -/
def render (P : Int → Int → Int) (r : Tcd.Rect) : List Int :=
  (List.range (r.y1 - r.y0).toNat).flatMap fun (j : Nat) => (List.range (r.x1 - r.x0).toNat).map fun (i : Nat) => P (r.x0 + i) (r.y0 + j)

/-- What a tile-component offers to `opj_j2k_update_image_data`, `j2k.rs:9583-9612`: where its samples lie, how far apart its
rows are, and the samples; null if there are none. -/
structure Src where
  rect : Tcd.Rect
  stride : Nat
  data : Option (List (Option Int))
deriving DecidableEq, Repr

/-- The rectangle of the resolution decoded, or of the area in it, `tcd.rs:1789-1841` and `j2k.rs:9583-9609`. -/
def srcRect (d : Dec) (b : Box) (whole : Bool) (c : Tcd.CompP) (t : Tcd.TileC) : R Tcd.Rect :=
  let resno := sub (minRes c.prc.length d.reduce) 1
  if whole then
    match t.ress[resno]? with
    | none => .error .oob
    | some r => .ok r.rect
  else do
    let (x0, x1) ← winAxis t.rect.x0 t.rect.x1 b.x0 b.x1 c.dx
    let (y0, y1) ← winAxis t.rect.y0 t.rect.y1 b.y0 b.y1 c.dy
    refuseIf (x1 < x0 ∨ y1 < y0)
    if c.prc.length ≤ resno then throw .oob
    let lev := sub (sub c.prc.length 1) resno
    let x0 ← opt (Math.uintCeildivpow2 x0 lev)
    let y0 ← opt (Math.uintCeildivpow2 y0 lev)
    let x1 ← opt (Math.uintCeildivpow2 x1 lev)
    let y1 ← opt (Math.uintCeildivpow2 y1 lev)
    return ⟨asI32 x0, asI32 y0, asI32 x1, asI32 y1⟩

/-- The buffer of a tile-component: its samples and what a longer buffer kept from an earlier tile has after them
(`tcd.rs:715-744`, `1866-1905`); null if that is nothing. -/
def buffer (P : Int → Int → Int) (r : Tcd.Rect) (kept : List Int) : Option (List (Option Int)) :=
  if render P r ++ kept = [] then none else some ((render P r ++ kept).map some)

/-- A decoded tile-component. Components that are not asked for have no buffer. The plane `P` stands for what entropy decoding,
the wavelet and the colour transforms make of the codestream. -/
def compSrc (d : Dec) (b : Box) (whole used : Bool) (P : Int → Int → Int) (kept : List Int) (c : Tcd.CompP) (t : Tcd.TileC) :
    R Src := do
  if !used then return ⟨⟨0, 0, 0, 0⟩, 0, none⟩
  let r ← srcRect d b whole c t
  let w ← i32 (r.x1 - r.x0)
  return ⟨r, u32 w, buffer P r (if whole then kept else [])⟩

/-- All components from number `i` on. -/
def compSrcs (d : Dec) (b : Box) (whole : Bool) (used : Nat → Bool) (P : Nat → Int → Int → Int) (kept : Nat → List Int) :
    Nat → List (Tcd.CompP × Tcd.TileC) → R (List Src)
  | _, [] => .ok []
  | i, (c, t) :: rest => do
    let s ← compSrc d b whole (used i) (P i) (kept i) c t
    let ss ← compSrcs d b whole used P kept (i + 1) rest
    return s :: ss

/-- `opj_tcd_decode_tile`, `tcd.rs:1683-1935`, as far as it decides which samples are delivered. -/
def decodeTile (d : Dec) (b : Box) (used : Nat → Bool) (P : Nat → Int → Int → Int) (kept : Nat → List Int) (n : Nat) :
    R (List Src) := do
  let t ← tcd (Tcd.initTile false d.p n)
  let l := d.p.comps.zip t.comps
  let whole ← wholeTile d b used 0 l
  compSrcs d b whole used P kept 0 l

/-! ## Putting the image together -/

/-- One axis of the part of the image a tile writes: where it starts in the image, where it starts and what remains of the
tile, and its length. -/
structure Span where
  start : Nat
  off : Int
  rest : Int
  len : Nat
deriving DecidableEq, Repr

/-- `j2k.rs:9634-9653` and `9654-9673`: the image goes from `d0` for `w` samples, the tile from `r0` to `r1`. -/
def span (d0 w : Nat) (r0 r1 : Int) : R Span := do
  let ws ← i32 (r1 - r0)
  let d1 := (d0 + w) % 2 ^ 32
  if d0 < u32 r0 then
    if u32 r1 ≤ d1 then return ⟨sub (u32 r0) d0, 0, 0, u32 ws⟩
    else
      let len := sub d1 (u32 r0)
      return ⟨sub (u32 r0) d0, 0, asI32 (sub (u32 ws) len), len⟩
  else
    let off ← i32 (asI32 d0 - r0)
    if u32 r1 ≤ d1 then return ⟨0, off, 0, sub (u32 ws) (u32 off)⟩
    else
      let rest ← i32 (r1 - asI32 d1)
      return ⟨0, off, rest, w⟩

/-- `memcpy` of `n` samples from `src` at `so` to `dst` at `o`. -/
def copyRow (dst : List (Option Int)) (o : Nat) (src : List (Option Int)) (so n : Nat) : R (List (Option Int)) :=
  if n = 0 then .ok dst
  else if o + n ≤ dst.length ∧ so + n ≤ src.length then .ok (dst.take o ++ (src.drop so).take n ++ dst.drop (o + n))
  else .error .oob

/-- The loop over the rows, `j2k.rs:9748-9757`: `k` rows to go. -/
def copyRows (w stride n : Nat) (src : List (Option Int)) : Nat → List (Option Int) → Nat → Nat → R (List (Option Int))
  | 0, dst, _, _ => .ok dst
  | k + 1, dst, o, so => do
    let dst ← copyRow dst o src so n
    copyRows w stride n src k dst (o + w) (so + stride)

/-- One component of `opj_j2k_update_image_data`, `j2k.rs:9574-9763`. -/
def copyComp (c : Comp) (s : Src) : R Comp :=
  match s.data with
  | none => .ok c
  | some src => do
    let x0 ← opt (Math.uintCeildivpow2 c.x0 c.factor)
    let y0 ← opt (Math.uintCeildivpow2 c.y0 c.factor)
    if s.rect.x0 < 0 ∨ s.rect.x1 < 0 then throw .panic
    let x ← span x0 c.w s.rect.x0 s.rect.x1
    let y ← span y0 c.h s.rect.y0 s.rect.y1
    refuseIf (x.off < 0 ∨ y.off < 0 ∨ x.rest < 0 ∨ y.rest < 0)
    refuseIf (asI32 x.len < 0 ∨ asI32 y.len < 0)
    let so := x.off.toNat + y.off.toNat * s.stride
    let o := x.start + y.start * c.w
    match c.data with
    | some dst =>
      let dst ← copyRows c.w s.stride x.len src y.len dst o so
      return { c with data := some dst }
    | none =>
      if so = 0 ∧ o = 0 ∧ s.stride = c.w ∧ x.len = c.w ∧ y.len = c.h then return { c with data := some src }
      refuseIf (c.h = 0)
      refuseIf (c.w * c.h = 0)
      let dst := List.replicate (c.w * c.h) (if c.w ≠ x.len ∨ c.h ≠ y.len then some 0 else none)
      let dst ← copyRows c.w s.stride x.len src y.len dst o so
      return { c with data := some dst }

/-- `opj_j2k_update_image_data`, `j2k.rs:9537-9768`. -/
def update : List Comp → List Src → R (List Comp)
  | c :: cs, s :: ss => do
    let c ← copyComp c s
    let cs ← update cs ss
    return c :: cs
  | cs, _ => .ok cs

/-- The loop of `opj_j2k_decode_tiles` over the tiles read, `j2k.rs:11581-11640`; `k` counts them, `Q n` are
the planes the decoding of tile `n` yields. -/
def tilesLoop (d : Dec) (b : Box) (used : Nat → Bool) (Q : Nat → Nat → Int → Int → Int) (kept : Nat → Nat → List Int) :
    Nat → List Nat → List Comp → R (List Comp)
  | _, [], cs => .ok cs
  | k, n :: ns, cs => do
    let ss ← decodeTile d b used (Q n) (kept k) n
    let cs ← update cs ss
    tilesLoop d b used Q kept (k + 1) ns cs

/-- `opj_j2k_are_all_used_components_decoded`, `j2k.rs:11487-11536`, from component `i` on. -/
def allDecoded (used : Nat → Bool) : Nat → List Comp → Bool
  | _, [] => true
  | i, c :: cs => (!used i || c.data.isSome) && allDecoded used (i + 1) cs

/-- The whole image is one tile at the origin, `j2k.rs:11549-11556`. -/
def single (d : Dec) (b : Box) : Bool :=
  d.p.tw == 1 && d.th == 1 && d.p.cpTx0 == 0 && d.p.cpTy0 == 0 && b.x0 == 0 && b.y0 == 0 && b.x1 == d.p.tdx && b.y1 == d.p.tdy

/-- `opj_j2k_decode_tiles`, `j2k.rs:11539-11647`, for the tiles that `Tp.decodeTiles` reads; `kept` is what buffers kept from
tile to tile hold. -/
def decodeTiles (d : Dec) (b : Box) (used : Nat → Bool) (Q : Nat → Nat → Int → Int → Int) (kept : Nat → Nat → List Int)
    (tiles : List Nat) (cs : List Comp) : R (List Comp) :=
  if single d b then
    match tiles with
    | [] => .error .refused
    | n :: _ => do
      let ss ← decodeTile d b used (Q n) (kept 0) n
      return (cs.zip ss).map fun x => { x.1 with data := x.2.data }
  else do
    let cs ← tilesLoop d b used Q kept 0 tiles cs
    refuseIf (allDecoded used 0 cs = false)
    return cs

/-- Access to a component; out of range is an error. -/
def pick (cs : List Comp) (i : Nat) : R Comp :=
  match cs[i]? with
  | none => .error .oob
  | some c => .ok c

/-- `opj_j2k_move_data_from_codec_to_output_image`, `j2k.rs:11804-11887`: all components, or those asked for in the order asked;
the others must have no samples (`assert!`). -/
def handOver (sel : List Nat) (cs : List Comp) : R (List Comp) :=
  if sel = [] then .ok cs
  else do
    let out ← sel.mapM (pick cs)
    if ((List.range cs.length).zip cs).any fun x => !(sel.contains x.1) && x.2.data.isSome then throw .panic
    return out

/-- The components used (`used_component`, `tcd.rs:1706-1720`): all, or those asked for. -/
def usedBy (sel : List Nat) (i : Nat) : Bool := sel.isEmpty || sel.contains i

/-- `opj_j2k_decode`, `j2k.rs:11889-11942`, with an area set. -/
def decodeBy (d : Dec) (b : Box) (sel : List Nat) (Q : Nat → Nat → Int → Int → Int) (kept : Nat → Nat → List Int) (tiles : List Nat)
    (cs : List Comp) : R (List Comp) := do
  let cs ← decodeTiles d b (usedBy sel) Q kept tiles cs
  handOver sel cs

/-- The same, where all tiles yield samples of the same planes. -/
def decode (d : Dec) (b : Box) (sel : List Nat) (P : Nat → Int → Int → Int) (kept : Nat → Nat → List Int) (tiles : List Nat)
    (cs : List Comp) : R (List Comp) := decodeBy d b sel (fun _ => P) kept tiles cs

/-! ## One tile -/

/-- One axis of the area of a tile, `j2k.rs:11975-11987`. -/
def tileSide (q g td i0 i1 : Nat) : Nat × Nat :=
  let a := (q * td % 2 ^ 32 + g) % 2 ^ 32
  let e := ((q + 1) % 2 ^ 32 * td % 2 ^ 32 + g) % 2 ^ 32
  (if a < i0 then i0 else a, if i1 < e then i1 else e)

/-- One component of the image of a tile, `j2k.rs:12003-12027`; the same as `dims` without its checks. -/
def tileDims (reduce : Nat) (b : Box) (c : Comp) : R Comp := do
  let x0 ← opt (Math.uintCeildiv b.x0 c.dx)
  let y0 ← opt (Math.uintCeildiv b.y0 c.dy)
  let x1 ← opt (Math.intCeildiv (asI32 b.x1) (asI32 c.dx))
  let y1 ← opt (Math.intCeildiv (asI32 b.y1) (asI32 c.dy))
  let e ← opt (Math.intCeildivpow2 x1 (asI32 reduce))
  let s ← opt (Math.intCeildivpow2 (asI32 x0) (asI32 reduce))
  let w ← i32 (e - s)
  let e ← opt (Math.intCeildivpow2 y1 (asI32 reduce))
  let s ← opt (Math.intCeildivpow2 (asI32 y0) (asI32 reduce))
  let h ← i32 (e - s)
  return { c with factor := reduce, x0 := x0, y0 := y0, w := u32 w, h := u32 h }

/-- The area of a tile and the components of its image: `opj_j2k_get_tile` up to the decoding, `j2k.rs:11944-12042`. -/
def tileArea (d : Dec) (cs : List Comp) (n : Nat) : R (Box × List Comp) := do
  refuseIf (cs.length < d.p.comps.length)
  refuseIf (d.p.tw * d.th % 2 ^ 32 ≤ n)
  let x := tileSide (n % d.p.tw) d.p.cpTx0 d.p.tdx d.p.x0 d.p.x1
  let y := tileSide (n / d.p.tw) d.p.cpTy0 d.p.tdy d.p.y0 d.p.y1
  let b : Box := ⟨x.1, y.1, x.2, y.2⟩
  let cs ← (cs.take d.p.comps.length).mapM (tileDims d.reduce b)
  return (b, cs)

/-- `opj_j2k_get_tile`, `j2k.rs:11944-12066`: the tile is read and decoded (`opj_j2k_decode_one_tile`, `j2k.rs:11670-11800`, for a
codestream that has it) and handed over. The image handed in has no samples (`cs` without `data`). -/
def getTile (d : Dec) (sel : List Nat) (P : Nat → Int → Int → Int) (kept : Nat → List Int) (cs : List Comp) (n : Nat) :
    R (Box × List Comp) := do
  let (b, cs) ← tileArea d cs n
  let ss ← decodeTile d b (usedBy sel) P kept n
  let cs ← update cs ss
  refuseIf (allDecoded (usedBy sel) 0 cs = false)
  let cs ← handOver sel cs
  return (b, cs)

end Jp2.Area

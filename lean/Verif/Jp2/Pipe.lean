import Verif.Jp2.T2Props
import Verif.Jp2.T2EncLoop
import Verif.Jp2.T2Loop
import Verif.Jp2.Tcd
import Verif.Jp2.Dwt
import Verif.Jp2.Mct
import Verif.Jp2.Pi
/-!
# From samples to code blocks and back: the reversible stages of a tile, `openjp2-rs/src/tcd.rs` and `t1.rs`

`opj_tcd_encode_tile` (`tcd.rs:1579-1682`) runs level shift, component transform, wavelet transform and block coder;
`opj_tcd_decode_tile` (`tcd.rs:1683-1927`) undoes them for a whole tile. Modelled: components coded with the 5/3 transform
(`qmfbid == 1`), no region of interest (`roishift == 0`), no custom component transform, no resolution left out. `none` is a
panic, an access outside a buffer, or a stage that reports an error. Allocation succeeds. The block loops hand every block
to a thread pool; as the blocks write to disjoint places the order does not matter, and the model runs them in order.
-/
namespace Jp2.Pipe
open Tcd (Rect Band Prec TileC TileS bandEmpty)
open T1 (Style)
open T2 (EncCblk EncPrec EncBand DecCblk DecPrec DecBand Layer)

/-- What the stages read of a component: precision and sign of the samples (`opj_image_comp`), code block style (`opj_tccp`). -/
structure CompX where
  prec : Nat
  sgnd : Bool
  sty : Nat
deriving DecidableEq, Repr

/-- The bits of `cblksty`, `consts.rs:123-133`. -/
def styleOf (sty : Nat) : Style where
  bypass := decide (sty &&& 1 ≠ 0)
  reset := decide (sty &&& 2 ≠ 0)
  termall := decide (sty &&& 4 ≠ 0)
  vsc := decide (sty &&& 8 ≠ 0)
  pterm := decide (sty &&& 16 ≠ 0)
  segsym := decide (sty &&& 32 ≠ 0)

def width (r : Rect) : Nat := (r.x1 - r.x0).toNat
def height (r : Rect) : Nat := (r.y1 - r.y0).toNat

/-- A resolution as the wavelet transform sees it. -/
def toRes (r : Rect) : Dwt.Res := ⟨r.x0.toNat, r.y0.toNat, r.x1.toNat, r.y1.toNat⟩

/-! ## Level shift -/

/-- `m_dc_level_shift`: the encoder's, `j2k.rs:7518-7521`, and the decoder's, `j2k.rs:1472-1483`. -/
def CompX.shift (c : CompX) : Int := if c.sgnd then 0 else 2 ^ (c.prec - 1)

/-- The smallest and the largest sample, `tcd.rs:2475-2481`. -/
def CompX.lo (c : CompX) : Int := if c.sgnd then -2 ^ (c.prec - 1) else 0
def CompX.hi (c : CompX) : Int := if c.sgnd then 2 ^ (c.prec - 1) - 1 else 2 ^ c.prec - 1

/-- `opj_tcd_dc_level_shift_encode` on one component, `tcd.rs:2638-2678`. -/
def dcEnc (m : Mode) (shift : Int) : List Int → Option (List Int)
  | [] => some []
  | x :: xs => (ar m (x - shift)).bind fun y => (dcEnc m shift xs).map fun ys => y :: ys

/-- `opj_int_clamp`. -/
def clamp (x lo hi : Int) : Int := if x < lo then lo else if hi < x then hi else x

/-- `opj_tcd_dc_level_shift_decode` on one component, `tcd.rs:2483-2501`. -/
def dcDec (m : Mode) (shift lo hi : Int) : List Int → Option (List Int)
  | [] => some []
  | x :: xs => (ar m (x + shift)).bind fun y => (dcDec m shift lo hi xs).map fun ys => clamp y lo hi :: ys

/-- The component loop of the level shift, `tcd.rs:2651-2676`. -/
def dcEncAll (m : Mode) : List CompX → List (List Int) → Option (List (List Int))
  | [], [] => some []
  | c :: cs, x :: xs => (dcEnc m c.shift x).bind fun y => (dcEncAll m cs xs).map fun ys => y :: ys
  | _, _ => none

/-- The component loop of the level shift, `tcd.rs:2440-2532`. -/
def dcDecAll (m : Mode) : List CompX → List (List Int) → Option (List (List Int))
  | [], [] => some []
  | c :: cs, x :: xs => (dcDec m c.shift c.lo c.hi x).bind fun y => (dcDecAll m cs xs).map fun ys => y :: ys
  | _, _ => none

/-! ## Component transform -/

/-- `opj_tcd_mct_encode`, `tcd.rs:2679-2735`, for `mct` 0 and 1: `n` is the number of samples of component 0. -/
def mctEnc (m : Mode) (mct n : Nat) (cs : List (List Int)) : Option (List (List Int)) :=
  if mct = 0 then some cs
  else match cs with
    | a :: b :: c :: rest => (Mct.encode m n a b c).map fun r => r.1 :: r.2.1 :: r.2.2 :: rest
    | _ => none

/-- The checks of `opj_tcd_mct_decode` on three components or more, `tcd.rs:2262-2297`: the number of resolutions, and the
number of samples of the highest. -/
def sameShape : List TileC → Bool
  | a :: b :: c :: _ =>
    a.ress.length == b.ress.length && a.ress.length == c.ress.length &&
    width a.rect * height a.rect == width b.rect * height b.rect && width a.rect * height a.rect == width c.rect * height c.rect
  | _ => true

/-- `opj_tcd_mct_decode`, `tcd.rs:2242-2413`, for `mct` 0 and 1 when all components are decoded. With fewer than three
components nothing is done (`tcd.rs:2404-2411`). -/
def mctDec (m : Mode) (mct n : Nat) (tcs : List TileC) (cs : List (List Int)) : Option (List (List Int)) :=
  if mct = 0 then some cs
  else if sameShape tcs = false then none
  else match cs with
    | a :: b :: c :: rest => (Mct.decode m n a b c).map fun r => r.1 :: r.2.1 :: r.2.2 :: rest
    | _ => some cs

/-! ## Wavelet transform -/

/-- `opj_tcd_dwt_encode`, `tcd.rs:2736-2755`; `junk` is what the work buffer holds at first. -/
def dwtEnc (m : Mode) (junk : Nat → Int) (tc : TileC) (x : List Int) : Option (Mem Int) :=
  Dwt.encodeTile (ar m) junk (toRes tc.rect) ((tc.ress.drop 1).map fun r => toRes r.rect) (Mem.ofList x)

def dwtEncAll (m : Mode) (junk : Nat → Nat → Int) : List TileC → List (List Int) → Option (List (Mem Int))
  | [], [] => some []
  | tc :: tcs, x :: xs => (dwtEnc m (junk tcs.length) tc x).bind fun y => (dwtEncAll m junk tcs xs).map fun ys => y :: ys
  | _, _ => none

/-- The first `n` words of an allocation. -/
def readOut (d : Mem Int) : Nat → Option (List Int)
  | 0 => some []
  | n + 1 => (readOut d n).bind fun l => (d n).map fun v => l ++ [v]

/-- `opj_tcd_dwt_decode`, `tcd.rs:2206-2241`, and the buffer read as the list of its `w·h` samples. -/
def dwtDec (m : Mode) (junk : Nat → Int) (tc : TileC) (d : Mem Int) : Option (List Int) :=
  (tc.ress[0]?).bind fun r0 =>
  (Dwt.decodeTile (ar m) junk (toRes tc.rect) (toRes r0.rect) ((tc.ress.drop 1).map fun r => toRes r.rect) d).bind fun d =>
  readOut d (width tc.rect * height tc.rect)

def dwtDecAll (m : Mode) (junk : Nat → Nat → Int) : List TileC → List (Mem Int) → Option (List (List Int))
  | [], [] => some []
  | tc :: tcs, x :: xs => (dwtDec m (junk tcs.length) tc x).bind fun y => (dwtDecAll m junk tcs xs).map fun ys => y :: ys
  | _, _ => none

/-- Number of samples of the first component. -/
def samples0 (tcs : List TileC) : Nat :=
  match tcs with
  | [] => 0
  | tc :: _ => width tc.rect * height tc.rect

/-- The stages of `opj_tcd_encode_tile` before the block coder, `tcd.rs:1627-1653`. -/
def forward (m : Mode) (mct : Nat) (cxs : List CompX) (tcs : List TileC) (junk : Nat → Nat → Int) (xs : List (List Int)) : Option (List (Mem Int)) :=
  (dcEncAll m cxs xs).bind fun xs => (mctEnc m mct (samples0 tcs) xs).bind fun xs => dwtEncAll m junk tcs xs

/-- The stages of `opj_tcd_decode_tile` after the block decoder, `tcd.rs:1902-1924`. -/
def inverse (m : Mode) (mct : Nat) (cxs : List CompX) (tcs : List TileC) (junk : Nat → Nat → Int) (ds : List (Mem Int)) : Option (List (List Int)) :=
  (dwtDecAll m junk tcs ds).bind fun xs => (mctDec m mct (samples0 tcs) tcs xs).bind fun xs => dcDecAll m cxs xs

/-! ## Where a block sits in the buffer of its component -/

/-- The offset of a band in its resolution along one axis: `bit` is the bit of `bandno`, `len` the extent of the resolution below;
`t1.rs:2458-2469`, `1855-1866`. -/
def offAxis (bit : Bool) (lo : Option Int) (d : Int) : Option Nat :=
  (if bit then lo.map fun l => d + l else some d).bind fun v => if 0 ≤ v then some v.toNat else none

/-- The index of the first sample of a block in the buffer, `t1.rs:2447-2469, 2483`, and in the decoder `1850-1866, 1973`. -/
def corner (tc : TileC) (rn : Nat) (b : Band) (cb : Rect) : Option Nat :=
  let pres := if rn = 0 then none else tc.ress[rn - 1]?
  (offAxis (b.bandno % 2 == 1) (pres.map fun r => r.rect.x1 - r.rect.x0) (cb.x0 - b.rect.x0)).bind fun x =>
  (offAxis (b.bandno / 2 % 2 == 1) (pres.map fun r => r.rect.y1 - r.rect.y0) (cb.y0 - b.rect.y0)).map fun y =>
  y * width tc.rect + x

/-- The order of the samples in the block coder, `t1.rs:2486-2531`: rows and columns. -/
def stripes (w h : Nat) : List (Nat × Nat) :=
  ((List.range (h / 4)).flatMap fun k => (List.range w).flatMap fun x => (List.range 4).map fun j => (4 * k + j, x)) ++
  ((List.range w).flatMap fun x => (List.range (h % 4)).map fun j => (h / 4 * 4 + j, x))

/-- The samples of a block, in that order and shifted, `t1.rs:2486-2531`. The index within the tile is a `u32`. -/
def gather (data : Mem Int) (base tw : Nat) : List (Nat × Nat) → Option (List Int)
  | [] => some []
  | (j, i) :: l => (data (base + (j * tw + i) % 2 ^ 32)).bind fun v => (gather data base tw l).map fun vs => T1.shl6 v :: vs

/-- The decoded block is written to the buffer, `t1.rs:1973-2024`. -/
def place (D : List Int) (base tw w h : Nat) (data : Mem Int) : Option (Mem Int) :=
  loopM (fun j d => loopM (fun i d => (D[j * w + i]?).bind fun v => wr d (base + j * tw + i) (Int.tdiv v 2)) w 0 d) h 0 data

/-! ## Block coder -/

/-- What the block coder is given beside the samples: the block's buffer and where it starts in it, and what the rate allocation
decides for every layer (see `T2.makeLayers`). -/
structure Plan where
  mem : List UInt8
  start : Nat
  choices : List ((Nat → Nat → Bool) × Bool × Layer)

/-- A code block: `opj_t1_cblk_encode_processor`, `t1.rs:2433-2607`, and the layers `opj_tcd_rateallocate` makes of its passes. -/
def codeBlock (tc : TileC) (st : Style) (data : Mem Int) (rn : Nat) (b : Band) (cb : Rect) (pl : Plan) : Option EncCblk :=
  (corner tc rn b cb).bind fun base =>
  (gather data base (width tc.rect) (stripes (width cb) (height cb))).bind fun px =>
  (T1.encodeCblk b.bandno (width cb) (height cb) st px pl.mem pl.start).bind fun co =>
  (T2.makeLayers co.passes pl.choices 0).map fun ls => ⟨co.mem.drop pl.start, co.numbps, co.passes, ls, 0, 0⟩

/-- A list worked through with the index. -/
def mapIM {α β : Type} (f : Nat → α → Option β) : Nat → List α → Option (List β)
  | _, [] => some []
  | i, a :: l => (f i a).bind fun b => (mapIM f (i + 1) l).map fun bs => b :: bs

/-- The tag trees of a precinct, `tcd.rs:1279-1303`: the number of nodes is 0 when the result is null. -/
def tree (m : Mode) (cw ch : Nat) : Option (Nat × Mem Tgt.Node) := (Tgt.create m cw ch).map fun r => r.getD (0, fun _ => none)

/-- A band of precinct `k` as the encoder leaves it for packets: `opj_t1_encode_cblks`, `t1.rs:2609-2688`, skips empty bands. -/
def codeBand (m : Mode) (tc : TileC) (st : Style) (data : Mem Int) (bps : Int) (plan : Nat → Plan) (rn k : Nat) (b : Band) : Option EncBand :=
  if bandEmpty b.rect then some ⟨bps, true, ⟨0, fun _ => none, fun _ => none, []⟩⟩
  else
    (b.precs[k]?).bind fun p => (tree m p.cw p.ch).bind fun t =>
    (mapIM (fun j cb => codeBlock tc st data rn b cb (plan j)) 0 p.cblks).map fun cs => ⟨bps, false, ⟨t.1, t.2, t.2, cs⟩⟩

/-- All bands of precinct `k` of resolution `rn`. `bps` is the number of bit planes of each band (`tcd.rs:1105-1107`). -/
def codePrec (m : Mode) (tc : TileC) (st : Style) (data : Mem Int) (bps : Nat → Int) (plan : Nat → Nat → Plan) (rn k : Nat) : Option (List EncBand) :=
  (tc.ress[rn]?).bind fun r => mapIM (fun bi b => codeBand m tc st data (bps bi) (plan bi) rn k b) 0 r.bands

/-! ## Block decoder -/

/-- The decoder's bands of precinct `k` of resolution `rn` before the first packet. -/
def freshPrec (m : Mode) (tc : TileC) (bps : Nat → Int) (rn k : Nat) : Option (List DecBand) :=
  (tc.ress[rn]?).bind fun r => mapIM (fun bi b => (b.precs[k]?).bind fun p => (tree m p.cw p.ch).map fun t =>
    (⟨bps bi, bandEmpty b.rect, ⟨t.1, t.2, t.2, p.cblks.map fun _ => {}⟩⟩ : DecBand)) 0 r.bands

/-- The two bytes behind the data of each block: resolution, band, precinct, block. -/
abbrev Extra := Nat → Nat → Nat → Nat → UInt8 × UInt8

/-- `opj_t1_clbl_decode_processor`, `t1.rs:1823-2089`. -/
def decBlock (tc : TileC) (st : Style) (rn : Nat) (b : Band) (cb : Rect) (d : DecCblk) (x : UInt8 × UInt8) (data : Mem Int) : Option (Mem Int) :=
  (corner tc rn b cb).bind fun base =>
  (T2.decodeBlock b.bandno (width cb) (height cb) st d x.1 x.2).bind fun r => r.bind fun D =>
  place D base (width tc.rect) (width cb) (height cb) data

/-- `for (i, a) in l.enumerate() { s = f(i, a, s)? }` -/
def eachM {α σ : Type} (f : Nat → α → σ → Option σ) : Nat → List α → σ → Option σ
  | _, [], s => some s
  | i, a :: l, s => (f i a s).bind fun s => eachM f (i + 1) l s

/-- `opj_t1_decode_cblks`, `t1.rs:2091-2221`, for a whole tile: all resolutions, bands, precincts, blocks. `D` are the bands as
the packets left them. -/
def decComp (tc : TileC) (st : Style) (D : Nat → Nat → List DecBand) (ex : Extra) (data : Mem Int) : Option (Mem Int) :=
  eachM (fun rn r => eachM (fun bi b => eachM (fun k p => eachM (fun j cb data =>
    (((D rn k)[bi]?).bind fun d => d.prec.cblks[j]?).bind fun d => decBlock tc st rn b cb d (ex rn bi k j) data)
    0 p.cblks) 0 b.precs) 0 r.bands) 0 tc.ress data

/-- The component loop, `tcd.rs:2174-2205`; `junk` is what the fresh buffers hold. -/
def decComps (D : Nat → Nat → Nat → List DecBand) (ex : Nat → Extra) (junk : Nat → Nat → Int) : Nat → List TileC → List CompX → Option (List (Mem Int))
  | _, [], [] => some []
  | c, tc :: tcs, cx :: cxs =>
    (decComp tc (styleOf cx.sty) (D c) (ex c) (Dwt.fresh (junk c) (width tc.rect * height tc.rect))).bind fun d =>
    (decComps D ex junk (c + 1) tcs cxs).map fun ds => d :: ds
  | _, _, _ => none

/-- `opj_tcd_decode_tile` after the packets, `tcd.rs:1885-1924`. -/
def decodeSamples (m : Mode) (mct : Nat) (cxs : List CompX) (tcs : List TileC) (D : Nat → Nat → Nat → List DecBand) (ex : Nat → Extra)
    (junk junk' : Nat → Nat → Int) : Option (List (List Int)) :=
  (decComps D ex junk 0 tcs cxs).bind fun ds => inverse m mct cxs tcs junk' ds

end Jp2.Pipe

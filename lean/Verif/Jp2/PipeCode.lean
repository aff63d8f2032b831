import Verif.Jp2.Pipe
import Verif.Jp2.PiEnc
import Verif.Jp2.Setup
/-!
# The encoder and the decoder of a tile, `openjp2-rs/src/tcd.rs`

The stages of `Pipe.lean`, the packet iterators of `Pi.lean` and the packet loops of `T2Loop.lean` put together.
-/
namespace Jp2.Pipe
open Tcd (TileC initTile)
open T2 (EncTile EncBand)
open Pi (Letter)

/-! ## The structures of the tile as the packets see them -/

/-- The parameters of the packet iterators: the same grid and components; `opj_pi_create_decode` and `opj_pi_initialise_encode`
(`pi.rs:1331-1464, 1544-1647`) read the same image and coding parameters as `opj_tcd_init_tile`. -/
def piParams (q : Tcd.Params) (layers : Nat) (prg : Int) : Pi.TileParams :=
  ⟨q.x0, q.y0, q.x1, q.y1, q.cpTx0, q.cpTy0, q.tdx, q.tdy, q.tw, q.comps.map fun c => ⟨c.dx, c.dy, c.prc⟩, layers, prg, []⟩

/-- The number of precincts of a resolution, 0 when there is no such resolution. -/
def precCount (tcs : List TileC) (c rn : Nat) : Nat :=
  match (tcs[c]?).bind fun tc => tc.ress[rn]? with
  | none => 0
  | some r => r.pw * r.ph

/-- Precinct `k` of resolution `rn` of component `c`, coded. -/
def codeAt (m : Mode) (tcs : List TileC) (cxs : List CompX) (ds : List (Mem Int)) (bps : Nat → Nat → Nat → Int) (plan : Nat → Nat → Nat → Nat → Nat → Plan)
    (c rn k : Nat) : Option (List EncBand) :=
  (tcs[c]?).bind fun tc => (cxs[c]?).bind fun cx => (ds[c]?).bind fun d => codePrec m tc (styleOf cx.sty) d (bps c rn) (plan c rn k) rn k

/-- The decoder's precincts before the first packet. -/
def freshTile (m : Mode) (tcs : List TileC) (bps : Nat → Nat → Nat → Int) : T2.Tile :=
  fun c rn k => ((tcs[c]?).bind fun tc => freshPrec m tc (bps c rn) rn k).getD []

/-! ## The encoder and the decoder of a tile -/

/-- What the encoder makes of a tile: coefficients, coded precincts, tile-parts, and the sizes of the packets of each. -/
structure Coding where
  coefs : List (Mem Int)
  blocks : EncTile
  parts : List (List UInt8)
  sizes : List (List Nat)

def Coding.bytes (K : Coding) : List UInt8 := K.parts.flatten

/-- All precincts of the tile, if every block can be coded: `opj_t1_encode_cblks`, `t1.rs:2609-2688`, and the rate allocation. -/
def codeAll (m : Mode) (tcs : List TileC) (cxs : List CompX) (ds : List (Mem Int)) (bps : Nat → Nat → Nat → Int)
    (plan : Nat → Nat → Nat → Nat → Nat → Plan) : Option EncTile :=
  if (List.range tcs.length).all fun c => (List.range 33).all fun rn => (List.range (precCount tcs c rn)).all fun k =>
      (codeAt m tcs cxs ds bps plan c rn k).isSome
  then some fun c rn k => if k < precCount tcs c rn then (codeAt m tcs cxs ds bps plan c rn k).getD [] else []
  else none

/-- What both sides know of the tile: image, tile grid and components, layers, progression order, component transform, the
components' precision and style, coding style, bit planes per band. -/
structure Setup where
  q : Tcd.Params
  n : Nat
  layers : Nat
  prg : Int
  mct : Nat
  cxs : List CompX
  csty : Nat
  bps : Nat → Nat → Nat → Int

/-- The bit planes of a band (`tcd.rs:1113`: exponent, plus guard bits, less one), for the exponents `opj_dwt_calc_explicit_stepsizes` gives
a reversible component (`dwt.rs:1356-1415`) and the two guard bits of `opj_j2k_setup_encoder` (`j2k.rs:7544`). -/
def setupBps (numres prec rn bi : Nat) : Int :=
  match Jp2.Setup.bandStep 0 1 numres prec (if rn = 0 then 0 else 3 * (rn - 1) + 1 + bi) with
  | .ok (e, _) => e + 2 - 1
  | .error _ => 0

def Setup.pi (S : Setup) : Pi.TileParams := piParams S.q S.layers S.prg
def Setup.sty (S : Setup) (c : Nat) : Nat := ((S.cxs[c]?).map fun x => x.sty).getD 0

/-- `opj_tcd_encode_tile`, `tcd.rs:1579-1682`: the stages with the first tile-part, then the packets of every tile-part, each into
its own buffer `room i`. `flag` is the letter tile-parts are divided at, `fuel` bounds the packet iterators. -/
def encodeTile (m : Mode) (fuel : Nat) (S : Setup) (flag : Option Letter) (plan : Nat → Nat → Nat → Nat → Nat → Plan) (room : Nat → List UInt8)
    (junk : Nat → Nat → Int) (xs : List (List Int)) : Option Coding :=
  match initTile true S.q S.n with
  | .error _ => none
  | .ok T =>
    (forward m S.mct S.cxs T.comps junk xs).bind fun ds =>
    (codeAll m T.comps S.cxs ds S.bps plan).bind fun E =>
    (Pi.encodeParts m fuel S.pi flag S.n).bind fun r => r.bind fun parts =>
    match T2.encodeTileParts S.csty S.layers (parts.zip ((List.range parts.length).map room)) 0 E with
    | .error _ => none
    | .ok (outs, _, _) => some ⟨ds, E, outs.map Prod.fst, outs.map Prod.snd⟩

/-- `opj_tcd_decode_tile`, `tcd.rs:1683-1927`, for a whole tile: number of bytes taken, and the samples of each component. -/
def decodeTile (m : Mode) (fuel : Nat) (S : Setup) (strict : Bool) (ex : Nat → Extra) (junk junk' : Nat → Nat → Int) (src : List UInt8) :
    Option (Nat × List (List Int)) :=
  match initTile false S.q S.n with
  | .error _ => none
  | .ok T =>
    (Pi.decodePackets m fuel S.pi S.n).bind fun r => r.bind fun ps =>
    match T2.decodePackets S.csty S.sty strict ⟨S.layers, fun _ _ _ => true⟩ ps none (freshTile m T.comps S.bps) src with
    | .error _ => none
    | .ok (len, _, D) => (decodeSamples m S.mct S.cxs T.comps D ex junk junk').map fun xs => (len, xs)

end Jp2.Pipe

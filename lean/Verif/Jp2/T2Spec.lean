import Verif.Jp2.T2
import Verif.Jp2.T1Code
/-!
# What the packet theorems speak about

Independent of how the packets are written: which coding passes end a codeword segment (ITU-T T.800, Table D.8 and D.9), which
bytes a layer of a block stands for, and what a decoder must know of a block after some layers.
-/
namespace Jp2.T2
open Jp2.Bio Jp2.Tgt

/-- Does pass number `i` end a codeword segment? With termination on each pass (style bit 2) always; with selective bypass (bit 0)
the tenth pass does, and from there on each second and third pass of a bit plane; otherwise none. -/
def endsSegment (sty i : Nat) : Bool :=
  decide (sty &&& 4 ≠ 0) || (decide (sty &&& 1 ≠ 0) && (i == 9 || (decide (10 ≤ i) && (i - 10) % 3 != 0)))

/-- The bytes of the given passes. -/
def size (ps : List T1.Pass) : Nat := (ps.map fun p => p.len).sum

/-- The passes of the given layers. -/
def passesIn (ls : List Layer) : Nat := (ls.map fun l => l.numpasses).sum

/-- A coded block with its passes distributed over layers: the layers take the passes in order, each with the bytes that belong
to its passes; the terminated passes are those the style asks for (the last one may be terminated or not). -/
structure BlockOk (sty : Nat) (c : EncCblk) : Prop where
  few : ∀ ly ∈ c.layers, ly.numpasses ≤ 164
  enough : passesIn c.layers ≤ c.passes.length
  term : ∀ i p, c.passes[i]? = some p → i + 1 < c.passes.length → p.term = endsSegment sty i
  cap : sty &&& 5 = 0 → c.passes.length ≤ 109
  many : c.passes.length < 2 ^ 31
  bytes : size c.passes ≤ c.data.length
  small : c.data.length < 2 ^ 25
  place : ∀ l ly, c.layers[l]? = some ly → ly.numpasses ≠ 0 →
    ly.off = size (c.passes.take (passesIn (c.layers.take l))) ∧
    ly.off + ly.len = size (c.passes.take (passesIn (c.layers.take (l + 1))))

/-- The tag trees of a precinct of `w × h` code blocks, in any state: `nodes` nodes, linked as `opj_tgt_create` links them. -/
def TreeOk (m : Mode) (w h nodes : Nat) (t : Mem Node) : Prop :=
  if w * h = 0 then nodes = 0
  else ∃ t0, create m w h = some (some (nodes, t0)) ∧ ∀ i, (t i).map (fun nd => nd.parent) = (t0 i).map (fun nd => nd.parent)

/-- The number of bit planes of a block, in a band of `bps`: as `i32` at most `bps` (negative for a block whose coefficients have
fractional bits only), and the difference is not too large. -/
def Fits (bps : Int) (n : Nat) : Prop := n < 2 ^ 32 ∧ 0 ≤ bps - asI32 n ∧ bps - asI32 n < 999

/-- A band whose precinct has `w × h` blocks, to be encoded in `L` layers. -/
structure BandOk (m : Mode) (sty L w h : Nat) (b : EncBand) : Prop where
  bps : 0 ≤ b.numbps ∧ b.numbps < 999
  count : b.prec.cblks.length = w * h
  trees : TreeOk m w h b.prec.nodes b.prec.incl ∧ TreeOk m w h b.prec.nodes b.prec.imsb
  cblks : ∀ c ∈ b.prec.cblks, BlockOk sty c ∧ c.layers.length = L ∧ Fits b.numbps c.numbps

/-- The decoder's view of the same band before the first packet: the same geometry, nothing received yet. -/
structure Twin (m : Mode) (w h : Nat) (b : EncBand) (d : DecBand) : Prop where
  bps : d.numbps = b.numbps
  count : d.prec.cblks.length = w * h
  trees : TreeOk m w h d.prec.nodes d.prec.incl ∧ TreeOk m w h d.prec.nodes d.prec.imsb
  fresh : ∀ c ∈ d.prec.cblks, c.numbps = 0 ∧ c.chunks = []

/-- A band to be sent, next to the decoder's. An empty band is not looked at. -/
def Pair (m : Mode) (sty L : Nat) (b : EncBand) (d : DecBand) : Prop :=
  d.empty = b.empty ∧ d.numbps = b.numbps ∧ (b.empty = false → ∃ w h, w * h ≤ 2 ^ 30 ∧ BandOk m sty L w h b ∧ Twin m w h b d)

/-- What the block decoder is given for a block after `l` layers: the codeword segments of the passes in these layers, as
(length, number of passes), their bytes, and the number of bit planes. -/
structure Got (l : Nat) (c : EncCblk) (d : DecCblk) : Prop where
  segs : (d.segs.take d.realNumSegs).map (fun s => (s.len, s.realNumPasses)) = T1.segsOf 0 0 (c.passes.take (passesIn (c.layers.take l)))
  data : d.chunks.flatten = c.data.take (size (c.passes.take (passesIn (c.layers.take l))))
  bps : d.numbps = if passesIn (c.layers.take l) = 0 then 0 else c.numbps

/-- The packets of layers `lay`, `lay + 1`, … of one precinct, each into a buffer of its own: `packno` and buffer per layer. -/
def encLayers (csty : Nat) : Nat → List (Nat × List UInt8) → List EncBand → Except Err (List (List UInt8) × List EncBand)
  | _, [], bands => .ok ([], bands)
  | lay, (packno, dest) :: ds, bands => do
    let (out, bands) ← encodePacket csty packno lay bands dest
    let (outs, bands) ← encLayers csty (lay + 1) ds bands
    return (out :: outs, bands)

/-- Decoding the packets of layers `lay`, `lay + 1`, … of one precinct, each from the data that starts with it: the number of
bytes each took. -/
def decLayers (csty cblksty : Nat) (strict : Bool) : Nat → List (List UInt8) → List DecBand → Except Err (List Nat × List DecBand)
  | _, [], bands => .ok ([], bands)
  | lay, src :: ss, bands => do
    let (n, _, bands) ← decodePacket csty cblksty lay strict none bands src
    let (ns, bands) ← decLayers csty cblksty strict (lay + 1) ss bands
    return (n :: ns, bands)

end Jp2.T2

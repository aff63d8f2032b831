import Verif.Jp2.Codec
import Verif.Jp2.CutSpec
import Verif.Jp2.PipeSpec
import Verif.Jp2.TpWriteSpec
/-!
# Images that can be coded without loss
-/
namespace Jp2.Codec
open Jp2.Hdr (Enc)
open Jp2.Cut (CompI)

/-- Reversible coding, no region of interest; where no precinct sizes are wanted they are the largest. -/
def Reversible (e : Enc) : Prop :=
  ∀ t ∈ e.tccps, t.qmfbid = 1 ∧ t.qntsty = 0 ∧ t.roishift = 0 ∧ (t.csty % 2 = 0 → ∀ i < t.numres, t.prcs[i]? = some (15, 15))

/-- The image to encode is the one the parameters describe: its components have a sample for each of their positions in the image area, at
least one, in the range of their precision. -/
structure Image (e : Enc) (cs : List CompI) : Prop where
  same : cs.map (fun c => (c.prec, c.sgnd, c.dx, c.dy)) = e.comps.map fun c => (c.prec, c.sgnd, c.dx, c.dy)
  size : ∀ c ∈ cs, c.data.length = (Hdr.cdiv e.x1 c.dx - Hdr.cdiv e.x0 c.dx) * (Hdr.cdiv e.y1 c.dy - Hdr.cdiv e.y0 c.dy)
  ne : ∀ c ∈ cs, c.data ≠ []
  range : ∀ c ∈ cs, ∀ v ∈ c.data, if c.sgnd = 1 then -2 ^ (c.prec - 1) ≤ v ∧ v < 2 ^ (c.prec - 1) else 0 ≤ v ∧ v < 2 ^ c.prec

/-- What cutting an image into several tiles needs (see C71). -/
def CanCut (sz : Nat × Nat) (e : Enc) (cs : List CompI) : Prop :=
  (encPar e).tw * (encPar e).th = 1 ∨ (∀ c ∈ cs, Cut.Keeps c) ∧ ∀ p ∈ (params sz (encPar e)).comps, Cut.Aligned (params sz (encPar e)) p

/-- The first part of a tile has a packet: there is one, and if the tile is divided into parts, there is one in the first layer, resolution or
component, whichever parts are divided at. (The decoder refuses a tile whose first part is empty, see C67.) -/
def Starts (S : Pipe.Setup) (flag : Option Pi.Letter) : Prop :=
  ∃ q, Pi.Spec.IsPacket (Pi.Spec.tileRect S.pi S.n) S.pi.comps (Pi.Spec.whole S.pi) q ∧ ∀ f, flag = some f → f.of q = 0

/-- The parameters allow coding without loss; `P` bounds the precision. -/
structure Suits (m : Mode) (sz : Nat × Nat) (flag : Option Pi.Letter) (e : Enc) (P : Nat) : Prop where
  rev : Reversible e
  /-- All structures of a tile fit into memory, see C45. -/
  small : Tcd.Small (params sz (encPar e))
  room : 0 < sz.1 ∧ 0 < sz.2
  prec : ∀ c ∈ e.comps, c.prec ≤ P
  /-- The component transform has three components of one size to work on. -/
  colour : e.mct = 0 ∨ ∃ a b c rest, e.comps = a :: b :: c :: rest ∧ (a.dx = b.dx ∧ a.dy = b.dy) ∧ a.dx = c.dx ∧ a.dy = c.dy
  /-- Every tile suits the reversible stages and the packets, see C70. -/
  tile : ∀ n < (encPar e).tw * (encPar e).th, ∀ T, Tcd.initTile true (params sz (encPar e)) n = .ok T → Pipe.Suits (setup sz (encPar e) n) P T
  sends : ∀ n < (encPar e).tw * (encPar e).th, Pipe.Sends (setup sz (encPar e) n) flag
  starts : ∀ n < (encPar e).tw * (encPar e).th, Starts (setup sz (encPar e) n) flag
  /-- Every tile is to be written in at least one and at most 255 parts. -/
  parts : ∀ n < (encPar e).tw * (encPar e).th, ∀ i, Pi.tileInfo m (setup sz (encPar e) n).pi n = some i →
    ∃ k, Tp.counts flag ⟨(setup sz (encPar e) n).pi, i⟩ = .ok [k] ∧ 1 ≤ k ∧ k ≤ 255

/-- The component handed over has the samples of the component encoded. -/
structure Same (c : CompI) (o : Area.Comp) : Prop where
  step : o.dx = c.dx ∧ o.dy = c.dy
  size : o.w * o.h = c.data.length
  data : o.data.map (fun l => l.take (o.w * o.h)) = some (c.data.map some)

end Jp2.Codec

import Verif.Jp2.T2Spec
/-!
# What decoding packets from any bytes must guarantee
-/
namespace Jp2.T2
open Jp2.Bio Jp2.Tgt

/-- How many passes codeword segment `i` of a block can hold: one with termination on each pass (style bit 2); 10, 2, 1, 2, 1, … with
selective bypass (bit 0); otherwise there is one segment for everything (109 passes). -/
def capAt (sty i : Nat) : Nat :=
  if sty &&& 4 ≠ 0 then 1 else if sty &&& 1 ≠ 0 then (if i = 0 then 10 else if i % 2 = 1 then 2 else 1) else 109

/-- The pass counts of the segments of a block: none above its capacity, all but the last full. -/
def Aligned (sty : Nat) (l : List Nat) : Prop :=
  ∀ (i p : Nat), l[i]? = some p → p ≤ capAt sty i ∧ (i + 1 < l.length → p = capAt sty i)

/-- The segments the block decoder is given: length and number of passes. -/
def DecCblk.view (c : DecCblk) : List (Nat × Nat) := (c.segs.take c.realNumSegs).map fun s => (s.len, s.realNumPasses)

/-- The block decoder can run on the block: its segments exist, they claim no more bytes than have been received, and (unless the
block is coded in high throughput mode, style bit 6) their pass counts are right. -/
def Decodable (sty : Nat) (c : DecCblk) : Prop :=
  c.realNumSegs ≤ c.segs.length ∧ (c.view.map Prod.fst).sum ≤ c.chunks.flatten.length ∧
  (sty &&& 0x40 = 0 → Aligned sty (c.view.map Prod.snd))

/-- A band of a tile before its first packet: the number of bit planes is not negative; trees as created, blocks with nothing in
them. -/
def NewBand (m : Mode) (b : DecBand) : Prop :=
  b.empty = false → (0 ≤ b.numbps ∧ b.numbps < 2 ^ 31 - 1) ∧ ∃ w h, w * h ≤ 2 ^ 30 ∧ b.prec.cblks.length = w * h ∧
    (w * h = 0 → b.prec.nodes = 0) ∧
    (w * h ≠ 0 → create m w h = some (some (b.prec.nodes, b.prec.incl)) ∧ b.prec.imsb = b.prec.incl) ∧
    ∀ c ∈ b.prec.cblks, c.numsegs = 0 ∧ c.realNumSegs = 0 ∧ c.chunks = []

end Jp2.T2

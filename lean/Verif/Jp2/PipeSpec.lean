import Verif.Jp2.PipeStages
import Verif.Jp2.PipeComp
import Verif.Jp2.PipeCode
import Verif.Jp2.T2TileProps
/-!
# Tiles that can be coded without loss
-/
namespace Jp2.Pipe
open Tcd (TileS)
open Pi (ParamsFit IndexFits OrderOk Letter)
open Pi.Spec (tileRect SamePrec)
open Dwt (NoThin)

/-- The samples fit the tile `T`: as many in each component as it covers, in the range of its precision, which is at most `P`. The
component transform has three components of one size to work on. -/
structure Samples (S : Setup) (P : Nat) (T : TileS) (xs : List (List Int)) : Prop where
  range : List.Forall₂ (SamplesOk P) S.cxs xs
  count : List.Forall₂ (fun tc x => x.length = width tc.rect * height tc.rect) T.comps xs
  colour : S.mct = 0 ∨ S.mct = 1 ∧ ∃ a b c rest a' b' c' rest', S.q.comps = a :: b :: c :: rest ∧ T.comps = a' :: b' :: c' :: rest' ∧
    a.prc.length = b.prc.length ∧ a.prc.length = c.prc.length ∧
    width a'.rect * height a'.rect = width b'.rect * height b'.rect ∧ width a'.rect * height a'.rect = width c'.rect * height c'.rect

/-- The tile `T` and its coding parameters: precision, levels and transform leave the coefficients within 31 bits, no component is
empty in width or has 2^32 samples, and no level has an odd origin and no extent (the transform's first step would leave the line). -/
structure Suits (S : Setup) (P : Nat) (T : TileS) : Prop where
  fit : Tcd.Fit S.q S.n
  cblk : ∀ c ∈ S.q.comps, c.cblkw ≤ 10 ∧ c.cblkh ≤ 10
  prec : P ≤ 29
  grow : ∀ c ∈ S.q.comps, (2 : Int) ^ S.mct * 2 ^ (P - 1) * 4 ^ (c.prc.length - 1) ≤ 2 ^ 30 - 2
  area : ∀ tc ∈ T.comps, 0 < width tc.rect ∧ width tc.rect * height tc.rect < 2 ^ 32
  thin : ∀ tc ∈ T.comps, NoThin (toRes tc.rect) (tc.ress.length - 1)
  bps : ∀ c rn bi, 0 ≤ S.bps c rn bi ∧ S.bps c rn bi < 999
  styles : ∀ x ∈ S.cxs, x.sty &&& 0x40 = 0

/-- The packets of the tile: the conditions of `C50_tile_arrives`. -/
structure Sends (S : Setup) (flag : Option Letter) : Prop where
  params : ParamsFit S.pi S.n
  index : IndexFits (tileRect S.pi S.n) S.pi.comps S.layers
  layers : 0 < S.layers ∧ S.layers ≤ 999
  order : OrderOk (tileRect S.pi S.n) S.pi.comps S.prg
  flag : (flag = none ∧ S.prg ≠ 2) ∨ ∃ f, flag = some f ∧ ((S.prg = 0 ∧ f = .lay) ∨ (S.prg = 1 ∧ f = .res) ∨ (S.prg = 4 ∧ f = .comp)) ∧
    (S.prg = 0 ∨ S.prg = 1 → SamePrec (tileRect S.pi S.n) S.pi.comps)

/-- What the encoder made fits the number formats: a coefficient has at most 25 bits beside its sign (the block coder shifts it by
six), and no block has more bit planes than its band announces. -/
structure Coding.Fits (K : Coding) : Prop where
  coefs : ∀ d ∈ K.coefs, ∀ q v, d q = some v → v.natAbs < 2 ^ 25
  planes : ∀ c rn k, ∀ b ∈ K.blocks c rn k, ∀ x ∈ b.prec.cblks, (x.numbps : Int) ≤ b.numbps

end Jp2.Pipe

import Verif.Jp2.PipeProps
/-!
# Runs of the encoder and the decoder of a tile, and an image that is lost

`C70_tile_lossless` asks that no block has more bit planes than its band announces. The encoder does not check this
(`t2.rs:686-690`), and the bit planes it announces (`setupBps`) do not account for the bit the component transform adds.
-/
namespace Jp2.Pipe
open Tcd (TileS initTile)
open Jp2.Pi (Letter)

/-- What the encoder writes for the tile of the example. -/
def exRun (layers : Nat) (bps : Nat → Nat → Nat → Int) (choices : List ((Nat → Nat → Bool) × Bool × T2.Layer)) (xs : List (List Int)) : Option Coding :=
  encodeTile .checked 400 (exS layers bps) (some .lay) (exPlan choices) (fun _ => List.replicate 300 0) (fun _ _ => 7) xs

-- the tile of the example is written, in two tile-parts
example : (exRun 2 (fun _ _ _ => 11) exTwo exXs).map (fun K => K.parts.map List.length) = some [106, 115] := by decide +kernel

/-- Eight-bit samples, all 0 or 255: the sign pattern of the low-pass filter of the wavelet transform. -/
def exSharp : List (List Int) :=
  [[255, 0, 0, 0, 255, 0, 255, 255, 255, 0, 0, 255, 255, 255, 0, 0, 255, 255, 255, 0, 255, 0, 0, 0, 255],
   [0, 255, 255, 255, 0, 255, 0, 0, 0, 255, 255, 0, 0, 0, 255, 255, 0, 0, 0, 255, 0, 255, 255, 255, 0],
   [255, 0, 0, 0, 255, 0, 255, 255, 255, 0, 0, 255, 255, 255, 0, 0, 255, 255, 255, 0, 255, 0, 0, 0, 255]]

/-- What is read back. -/
def exBlurred : List (List Int) :=
  [[238, 15, 47, 15, 238, 15, 238, 206, 238, 15, 47, 207, 111, 207, 47, 15, 238, 206, 238, 15, 238, 15, 47, 15, 238],
   [16, 239, 207, 239, 16, 239, 16, 48, 16, 239, 207, 48, 144, 48, 207, 239, 16, 48, 16, 239, 16, 239, 207, 239, 16],
   [238, 15, 47, 15, 238, 15, 238, 206, 238, 15, 47, 207, 111, 207, 47, 15, 238, 206, 238, 15, 238, 15, 47, 15, 238]]

def exDefault (_ rn bi : Nat) : Int := setupBps 2 8 rn bi

theorem exDefault_bounds (c rn bi : Nat) : 0 ≤ exDefault c rn bi ∧ exDefault c rn bi < 999 := by
  have key : ∀ g, g ∈ [0, 1, 2] → ∀ r, Setup.encodeStep 8192 (wrap32 (((8 : Nat) : Int) + (g : Nat))) = .ok r → r.1 ≤ 20 := by
    intro g hg
    have h : ∀ g ∈ [0, 1, 2], (match Setup.encodeStep 8192 (wrap32 (((8 : Nat) : Int) + (g : Nat))) with | .ok r => decide (r.1 ≤ 20) | .error _ => true) = true := by decide +kernel
    intro r hr
    have := h g hg
    rw [hr] at this
    simpa using this
  have hg : ∀ o, Setup.gain 1 o ∈ [0, 1, 2] := by
    intro o; unfold Setup.gain; repeat' split
    all_goals simp_all
  show 0 ≤ setupBps 2 8 rn bi ∧ setupBps 2 8 rn bi < 999
  unfold setupBps
  generalize (if rn = 0 then 0 else 3 * (rn - 1) + 1 + bi) = b
  cases h : Setup.bandStep 0 1 2 8 b with
  | error e => simp
  | ok r =>
    have := key _ (hg (Setup.bandOrient b)) r h
    simp only
    omega

set_option maxRecDepth 8000 in
theorem exLost : (exRun 1 exDefault exOne exSharp).map (fun K => (K.bytes.length, decodeTile .checked 400 (exS 1 exDefault) true
    (fun _ _ _ _ _ => (255, 255)) (fun _ _ => 9) (fun _ _ => 8) K.bytes)) = some (109, some (109, exBlurred)) := by decide +kernel

/-- **The default is not lossless.** With the bit planes the encoder announces for eight-bit samples and one decomposition level
(`setupBps 2 8`), there are samples of three components such that the tile meets every condition of `C70_tile_lossless` but that on
what the encoder makes, the encoder and the decoder both succeed, the decoder takes all the bytes, and the samples it gives are others. -/
theorem C70_default_planes_too_few : ∃ (S : Setup) (flag : Option Letter) (TE TD : TileS) (plan : Nat → Nat → Nat → Nat → Nat → Plan) (xs ys : List (List Int)) (fuel : Nat)
    (room : Nat → List UInt8) (junk : Nat → Nat → Int) (K : Coding) (ex : Nat → Extra) (junk1 junk2 : Nat → Nat → Int),
    S.mct = 1 ∧ (∀ c rn bi, S.bps c rn bi = setupBps 2 8 rn bi) ∧
    initTile true S.q S.n = .ok TE ∧ initTile false S.q S.n = .ok TD ∧ Suits S 8 TE ∧ Samples S 8 TE xs ∧ Sends S flag ∧
    (∀ c rn k bi j, PlanOk S.layers (plan c rn k bi j)) ∧ encodeTile .checked fuel S flag plan room junk xs = some K ∧
    decodeTile .checked fuel S true ex junk1 junk2 K.bytes = some (K.bytes.length, ys) ∧ ys ≠ xs := by
  have h := exLost
  cases hK : exRun 1 exDefault exOne exSharp with
  | none => rw [hK] at h; cases h
  | some K =>
    rw [hK] at h
    simp only [Option.map_some, Option.some.injEq, Prod.mk.injEq] at h
    refine ⟨exS 1 exDefault, some .lay, _, _, exPlan exOne, exSharp, exBlurred, 400, _, _, K, (fun _ _ _ _ _ => (255, 255)), (fun _ _ => 9), (fun _ _ => 8), rfl, fun _ _ _ => rfl, ex_tile true _ _, ex_tile false _ _,
      ex_suits _ _ exDefault_bounds, ex_samples _ _ _ _ _ (by decide) (by decide) (by decide), ex_sends _ (by decide) _, ex_plan exOne ⟨_, rfl, rfl⟩, hK, ?_, by decide⟩
    exact h.2.trans (by rw [h.1])

end Jp2.Pipe

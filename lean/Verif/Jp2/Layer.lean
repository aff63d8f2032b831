import Verif.Jp2.T2
/-!
# Distributing the passes of a block over quality layers

`/repo/openjp2-rs/src/tcd.rs`, `opj_tcd_makelayer`. The rate-distortion comparison, which is in floating point, is a parameter:
`accept n passno` says whether pass `passno` is worth taking when `n` passes are taken so far.
-/
namespace Jp2.T2

/-- The loop over the passes not in a layer yet, `tcd.rs:109-142`: `k` passes left to look at. The pass before the `n`-th and the
pass looked at are read. -/
def pickLoop (accept : Nat → Nat → Bool) (passes : List T1.Pass) : Nat → Nat → Nat → Option Nat
  | 0, _, n => some n
  | k + 1, passno, n =>
    (passes[passno]?).bind fun _ =>
    (if n = 0 then some () else (passes[n - 1]?).map fun _ => ()).bind fun _ =>
    pickLoop accept passes k (passno + 1) (if accept n passno then passno + 1 else n)

/-- One layer of one block, `tcd.rs:101-191`, `final` set: `all` is a negative threshold, `inl` is `numpassesinlayers` and `old` what
the layer held before. The new layer, and the new `numpassesinlayers`. -/
def makeLayer (accept : Nat → Nat → Bool) (all : Bool) (passes : List T1.Pass) (inl : Nat) (old : Layer) : Option (Layer × Nat) :=
  (if all then some passes.length else pickLoop accept passes (passes.length - inl) inl inl).bind fun n =>
  if n < inl then none else
  if n - inl = 0 then some ({ old with numpasses := 0 }, inl) else
  (passes[n - 1]?).bind fun p =>
  if inl = 0 then some (⟨n - inl, p.rate, 0⟩, n) else
  (passes[inl - 1]?).map fun q => (⟨n - inl, (2 ^ 32 + p.rate - q.rate) % 2 ^ 32, q.rate⟩, n)

/-- All layers of a block, in the order `opj_tcd_rateallocate` makes them (`tcd.rs:370-690`, the call at 666; `layno == 0` starts with `numpassesinlayers` 0, 101-103): for each the threshold and what the
trials left in the layer. -/
def makeLayers (passes : List T1.Pass) : List ((Nat → Nat → Bool) × Bool × Layer) → Nat → Option (List Layer)
  | [], _ => some []
  | (accept, all, old) :: ls, inl =>
    (makeLayer accept all passes inl old).bind fun (ly, inl) => (makeLayers passes ls inl).map fun l => ly :: l

end Jp2.T2

import Verif.Jp2.Layer
/-!
# Fixed quality layers

`/repo/openjp2-rs/src/tcd.rs`, `opj_tcd_rateallocate_fixed` and `opj_tcd_makelayer_fixed`: a matrix of the user (`cp_matrice`) says how many bit planes of
16 each layer has, for every resolution and band.
-/
namespace Jp2.T2

/-- The entry of the matrix for layer `i`, resolution `j` and band `k`, `tcd.rs:236-241`. There are at most 10 layers and 10 resolutions (`j2k.rs:6912-6929`), so
the index does not wrap. -/
def entry (mat : List Nat) (numres i j k : Nat) : Option Nat := mat[i * numres * 3 + j * 3 + k]?

/-- Scaling to the precision, `tcd.rs:235-245`. In floating point in the code: exact as long as `m * prec < 2^24`. Negative entries are not modelled. -/
def scaled (prec m : Nat) : Int := (m * prec / 16 : Nat)

/-- `imsb`, `tcd.rs:274-277`: the planes of the component that the block does not have. -/
def imsbOf (prec numbps : Nat) : Int := asI32 ((prec + 2 ^ 32 - numbps) % 2 ^ 32)

/-- The planes a layer adds, `tcd.rs:280-305`; `prev` is the entry of the layer before. -/
def planesFixed (prev : Option Int) (cur imsb : Int) : Int :=
  match prev with
  | none => if cur ≤ imsb then 0 else cur - imsb
  | some prev =>
    if prev ≤ imsb then
      if cur - prev - (imsb - prev) < 0 then 0 else cur - prev - (imsb - prev)
    else cur - prev

/-- `n`, the passes up to and with this layer, `tcd.rs:309-324`. -/
def fixedN (value : Int) (inl : Nat) : Nat :=
  if inl = 0 then
    if value ≠ 0 then ((3 * value - 2 + inl) % 2 ^ 32).toNat else inl
  else ((3 * value + inl) % 2 ^ 32).toNat

/-- One layer of one block, `tcd.rs:306-355`, `final` set. Reading a pass the block does not have is an error (in the code it gives what an
earlier block left, or leaves the array). -/
def makeFixed (prec numbps : Nat) (prev : Option Int) (cur : Int) (passes : List T1.Pass) (inl : Nat) (old : Layer) : Option (Layer × Nat) :=
  let n := fixedN (planesFixed prev cur (imsbOf prec numbps)) inl
  let np := (2 ^ 32 + n - inl) % 2 ^ 32
  if np = 0 then some ({ old with numpasses := 0 }, inl) else
  (passes[(2 ^ 32 + n - 1) % 2 ^ 32]?).bind fun p =>
  if inl = 0 then some (⟨np, p.rate, 0⟩, n) else
  (passes[inl - 1]?).map fun q => (⟨np, (2 ^ 32 + p.rate - q.rate) % 2 ^ 32, q.rate⟩, n)

/-- The layers from `i` on, `opj_tcd_rateallocate_fixed`, `tcd.rs:48-55`, for a block of band `band` of resolution `res`: `olds` is what the layers held before. -/
def fixedLoop (mat : List Nat) (numres res band prec numbps : Nat) (passes : List T1.Pass) : Nat → List Layer → Nat → Option (List Layer)
  | _, [], _ => some []
  | i, old :: olds, inl =>
    (entry mat numres i res band).bind fun m =>
    (if i = 0 then some none else (entry mat numres (i - 1) res band).map some).bind fun prev =>
    (makeFixed prec numbps (prev.map (scaled prec)) (scaled prec m) passes (if i = 0 then 0 else inl) old).bind fun (ly, inl) =>
    (fixedLoop mat numres res band prec numbps passes (i + 1) olds inl).map fun l => ly :: l

/-- All layers of a block. -/
def makeFixedLayers (mat : List Nat) (numres res band prec numbps : Nat) (passes : List T1.Pass) (olds : List Layer) : Option (List Layer) :=
  fixedLoop mat numres res band prec numbps passes 0 olds 0

end Jp2.T2

import Verif.Jp2.Pi
/-!
# Progression orders, ISO/IEC 15444-1 B.6, B.7 and B.12.1

An independent description of the packets of a tile and of the five orders in which they appear.
Everything is stated over the natural numbers, in terms of the tile rectangle and of each component's
subsampling and precinct exponents.
-/
namespace Jp2.Pi.Spec

/-- `⌈a / b⌉` -/
def ceil (a b : Nat) : Nat := (a + b - 1) / b

/-- One axis of a tile-component resolution: tile interval `[t0, t1)`, subsampling `d`, number of
decomposition levels above the resolution `lev`, precinct exponent `pp`. -/
structure Axis where
  t0 : Nat
  t1 : Nat
  d : Nat
  lev : Nat
  pp : Nat

/-- Resolution-level coordinates (B-14): `tr0 = ⌈t0 / (d·2^lev)⌉`. -/
def Axis.tr0 (a : Axis) : Nat := ceil a.t0 (a.d * 2 ^ a.lev)
def Axis.tr1 (a : Axis) : Nat := ceil a.t1 (a.d * 2 ^ a.lev)

/-- Number of precincts along the axis (B-16). -/
def Axis.num (a : Axis) : Nat :=
  if a.tr0 < a.tr1 then ceil a.tr1 (2 ^ a.pp) - a.tr0 / 2 ^ a.pp else 0

/-- Distance between precincts on the reference grid. -/
def Axis.step (a : Axis) : Nat := a.d * 2 ^ (a.pp + a.lev)

/-- B.12.1.3: "if ((v divisible by d·2^(PP+lev)) or ((v = t0) and (tr0·2^lev not divisible by
2^(PP+lev))))". -/
def Axis.here (a : Axis) (v : Nat) : Bool :=
  v % a.step = 0 || (v = a.t0 && a.tr0 * 2 ^ a.lev % 2 ^ (a.pp + a.lev) ≠ 0)

/-- (B-20): the precinct coordinate belonging to reference-grid position `v`. -/
def Axis.prc (a : Axis) (v : Nat) : Nat := ceil v (a.d * 2 ^ a.lev) / 2 ^ a.pp - a.tr0 / 2 ^ a.pp

/-- The tile rectangle. -/
structure Tile where
  tx0 : Nat
  ty0 : Nat
  tx1 : Nat
  ty1 : Nat

variable (t : Tile) (cs : List CompParams)

/-- Horizontal and vertical axis of resolution `r` of component `c`, if they exist. -/
def axes (c r : Nat) : Option (Axis × Axis) :=
  match cs[c]? with
  | none => none
  | some cp =>
    match cp.prc[r]? with
    | none => none
    | some q => some (⟨t.tx0, t.tx1, cp.dx, cp.prc.length - 1 - r, q.1⟩,
        ⟨t.ty0, t.ty1, cp.dy, cp.prc.length - 1 - r, q.2⟩)

/-- Number of precincts of resolution `r` of component `c` (0 when there is no such resolution). -/
def numPrec (c r : Nat) : Nat :=
  match axes t cs c r with
  | none => 0
  | some (ax, ay) => ax.num * ay.num

/-- The precinct of resolution `r` of component `c` anchored at `(x, y)`, if any. -/
def precAt (c r x y : Nat) : List Nat :=
  match axes t cs c r with
  | none => []
  | some (ax, ay) =>
    if ax.num * ay.num ≠ 0 ∧ ay.here y ∧ ax.here x then [ax.prc x + ax.num * ay.prc y] else []

/-- `a, a+1, …, b-1` -/
def upto (a b : Nat) : List Nat := List.range' a (b - a)

/-- Ranges of a progression: `[lay0, lay1) × [res0, res1) × [comp0, comp1)`. -/
structure Bounds where
  lay0 : Nat
  lay1 : Nat
  res0 : Nat
  res1 : Nat
  comp0 : Nat
  comp1 : Nat

variable (b : Bounds)

/-- Layer-resolution-component-precinct (B.12.1.1). -/
def lrcp : List Pkt :=
  (upto b.lay0 b.lay1).flatMap fun l => (upto b.res0 b.res1).flatMap fun r =>
    (upto b.comp0 b.comp1).flatMap fun c => (List.range (numPrec t cs c r)).map fun k => ⟨l, r, c, k⟩

/-- Resolution-layer-component-precinct (B.12.1.2). -/
def rlcp : List Pkt :=
  (upto b.res0 b.res1).flatMap fun r => (upto b.lay0 b.lay1).flatMap fun l =>
    (upto b.comp0 b.comp1).flatMap fun c => (List.range (numPrec t cs c r)).map fun k => ⟨l, r, c, k⟩

/-- Resolution-position-component-layer (B.12.1.3). -/
def rpcl : List Pkt :=
  (upto b.res0 b.res1).flatMap fun r =>
    (upto t.ty0 t.ty1).flatMap fun y => (upto t.tx0 t.tx1).flatMap fun x =>
      (upto b.comp0 b.comp1).flatMap fun c => (precAt t cs c r x y).flatMap fun k =>
        (upto b.lay0 b.lay1).map fun l => ⟨l, r, c, k⟩

/-- Position-component-resolution-layer (B.12.1.4). -/
def pcrl : List Pkt :=
  (upto t.ty0 t.ty1).flatMap fun y => (upto t.tx0 t.tx1).flatMap fun x =>
    (upto b.comp0 b.comp1).flatMap fun c => (upto b.res0 b.res1).flatMap fun r =>
      (precAt t cs c r x y).flatMap fun k => (upto b.lay0 b.lay1).map fun l => ⟨l, r, c, k⟩

/-- Component-position-resolution-layer (B.12.1.5). -/
def cprl : List Pkt :=
  (upto b.comp0 b.comp1).flatMap fun c =>
    (upto t.ty0 t.ty1).flatMap fun y => (upto t.tx0 t.tx1).flatMap fun x =>
      (upto b.res0 b.res1).flatMap fun r => (precAt t cs c r x y).flatMap fun k =>
        (upto b.lay0 b.lay1).map fun l => ⟨l, r, c, k⟩

/-- The progression order with code `prg` (Table A.16). -/
def order (prg : Int) : List Pkt :=
  if prg = 0 then lrcp t cs b
  else if prg = 1 then rlcp t cs b
  else if prg = 2 then rpcl t cs b
  else if prg = 3 then pcrl t cs b
  else if prg = 4 then cprl t cs b
  else []

/-- The packets of the range: one for each layer, resolution, component and precinct that exist. -/
def IsPacket (p : Pkt) : Prop :=
  b.lay0 ≤ p.layno ∧ p.layno < b.lay1 ∧ b.res0 ≤ p.resno ∧ p.resno < b.res1 ∧
  b.comp0 ≤ p.compno ∧ p.compno < b.comp1 ∧ p.precno < numPrec t cs p.compno p.resno

/-- The tile with index `n` (B-7 … B-10), for the image and tile grid described by `p`. -/
def tileRect (p : TileParams) (n : Nat) : Tile :=
  ⟨max (p.cpTx0 + n % p.tw * p.tdx) p.x0, max (p.cpTy0 + n / p.tw * p.tdy) p.y0,
    min (p.cpTx0 + (n % p.tw + 1) * p.tdx) p.x1, min (p.cpTy0 + (n / p.tw + 1) * p.tdy) p.y1⟩

/-- Among the steps of an axis, smaller ones divide larger ones. This is the case when every component has
the same subsampling, and when every subsampling factor is a power of two. -/
def Aligned : Prop :=
  ∀ c r ax ay c' r' ax' ay', axes t cs c r = some (ax, ay) → axes t cs c' r' = some (ax', ay') →
    (ax.step ≤ ax'.step → ax.step ∣ ax'.step) ∧ (ay.step ≤ ay'.step → ay.step ∣ ay'.step)

/-- The ranges of a codestream progression volume: `POC` gives no first layer. -/
def pocBounds (numlayers : Nat) (p : Poc) : Bounds :=
  ⟨0, min p.layno1 numlayers, p.resno0, p.resno1, p.compno0, p.compno1⟩

/-- The ranges when there is no `POC`: everything. (A component has at most 33 resolutions.) -/
def whole (p : TileParams) : Bounds := ⟨0, p.numlayers, 0, 33, 0, p.comps.length⟩

end Jp2.Pi.Spec

namespace Jp2.Pi
open Spec

/-! ## The hypotheses of the theorems -/

/-- A component within the ranges a codestream allows (`SIZ`: subsampling 1..255; `COD`/`COC`: at most 32
decomposition levels, precinct exponents of 4 bits). -/
structure CompFit (cp : CompParams) : Prop where
  dx : 0 < cp.dx ∧ cp.dx ≤ 255
  dy : 0 < cp.dy ∧ cp.dy ≤ 255
  res : 0 < cp.prc.length ∧ cp.prc.length ≤ 33
  pp : ∀ q ∈ cp.prc, q.1 ≤ 15 ∧ q.2 ≤ 15

/-- Every precinct step fits a `u32`. -/
def Fit32 (t : Tile) (cs : List CompParams) : Prop :=
  ∀ c r ax ay, axes t cs c r = some (ax, ay) → ax.step < 2 ^ 32 ∧ ay.step < 2 ^ 32

/-- The hypotheses about sizes: every number of precincts, resolutions, components and layers, multiplied,
fits a `u32`. -/
structure IndexFits (t : Tile) (cs : List CompParams) (numlayers : Nat) : Prop where
  ne : ∃ c r, numPrec t cs c r ≠ 0
  fits : ∃ R, (∀ cp ∈ cs, cp.prc.length ≤ R) ∧
    ∀ c r, (numlayers + 1) * (R * (cs.length * numPrec t cs c r)) < 2 ^ 32

/-- Parameters within the limits of the codestream syntax and of the decoder's own checks. -/
structure ParamsFit (p : TileParams) (n : Nat) : Prop where
  tw : 0 < p.tw
  gx : p.cpTx0 + n % p.tw * p.tdx < 2 ^ 32
  gy : p.cpTy0 + n / p.tw * p.tdy < 2 ^ 32
  dx : p.tdx < 2 ^ 32
  dy : p.tdy < 2 ^ 32
  x1 : p.x1 ≤ 2 ^ 31
  y1 : p.y1 ≤ 2 ^ 31
  x : (tileRect p n).tx0 ≤ (tileRect p n).tx1
  y : (tileRect p n).ty0 ≤ (tileRect p n).ty1
  comps : ∀ cp ∈ p.comps, CompFit cp
  nc : p.comps.length ≤ 16384
  nl : p.numlayers ≤ 65535

/-- The list of progressions of a tile: one for the whole tile, or the progression order changes. -/
def volumes (p : TileParams) : List (Bounds × Int) :=
  if p.pocs.isEmpty then [(whole p, p.prg)] else p.pocs.map fun q => (pocBounds p.numlayers q, q.prg)

/-- What each order needs beyond that. -/
def OrderOk (t : Tile) (cs : List CompParams) (prg : Int) : Prop :=
  0 ≤ prg ∧ prg ≤ 4 ∧ (prg = 2 ∨ prg = 3 → Aligned t cs) ∧ (prg = 3 ∨ prg = 4 → Fit32 t cs)

end Jp2.Pi

import Verif.Jp2.Pi
/-!
# The packet iterator of the encoder

Files: `openjp2-rs/src/pi.rs`, `openjp2-rs/src/j2k.rs`, `openjp2-rs/src/t2.rs`. Which packets the encoder writes
for a tile, in which order, and how they are distributed over tile-parts.

Modelled: the final pass (`FINAL_PASS`) with a profile that is neither a digital cinema nor a broadcast profile
(`rsiz`), with or without progression order changes, with or without tile-parts. Not modelled: the trial passes of
rate allocation (`THRESH_CALC`) and the special cases for digital cinema and broadcast profiles.
-/
namespace Jp2.Pi

/-- `ProgressionStep`, `j2k.rs:144-150`. -/
inductive Letter where
  | comp | res | prec | lay
deriving DecidableEq, Repr

/-- `ProgressionOrder::from_c_enum` and `get_order`, `j2k.rs:174-193`. There is no entry for `OPJ_RPCL` (2): it is
converted to `Unknown`, whose order is empty. -/
def lettersOf (prg : Int) : List Letter :=
  if prg = 4 then [.comp, .prec, .res, .lay]
  else if prg = 3 then [.prec, .comp, .res, .lay]
  else if prg = 1 then [.res, .lay, .comp, .prec]
  else if prg = 0 then [.lay, .res, .comp, .prec]
  else []

/-- The encoder's own fields of `opj_poc_t`: start and end of every range, the step of the position grid, the
progression, and the counters `*_t` that survive from one tile-part to the next. -/
structure EncPoc where
  layS : Nat := 0
  layE : Nat := 0
  resS : Nat := 0
  resE : Nat := 0
  compS : Nat := 0
  compE : Nat := 0
  prcS : Nat := 0
  prcE : Nat := 0
  txS : Nat := 0
  txE : Nat := 0
  tyS : Nat := 0
  tyE : Nat := 0
  dx : Nat := 0
  dy : Nat := 0
  prg : Int := 0
  layT : Nat := 0
  resT : Nat := 0
  compT : Nat := 0
  prcT : Nat := 0
  tx0T : Nat := 0
  ty0T : Nat := 0
deriving DecidableEq, Repr

/-- What setting up the iterators computes for the tile: bounds, component tables and grid steps,
`opj_get_all_encoding_parameters`, `pi.rs:1379-1517`. -/
structure TileInfo where
  b : Nat × Nat × Nat × Nat
  cs : List Comp
  mp : Nat
  mr : Nat
  dx : Nat
  dy : Nat

/-- `*p_dx_min = opj_uint_min(*p_dx_min, l_dx)` when the step fits a `u32`, `pi.rs:1448-1472`. -/
def encMin (acc : Nat) : Option Nat → Nat
  | none => acc
  | some d => Math.uintMin acc d

/-- The grid steps of one component's resolutions, `pi.rs:1436-1472`. -/
def encRes (c : Comp) (numres : Nat) : Nat → List Res → Nat × Nat → Nat × Nat
  | _, [], acc => acc
  | n, r :: rs, acc =>
    encRes c numres (n + 1) rs
      (encMin acc.1 (resStep c.dx r.pdx numres n), encMin acc.2 (resStep c.dy r.pdy numres n))

/-- All components, `pi.rs:1394-1515`; the minima start at `0x7FFFFFFF`. -/
def encComps : List Comp → Nat × Nat → Nat × Nat
  | [], acc => acc
  | c :: cs, acc => encComps cs (encRes c c.res.length 0 c.res acc)

/-- `opj_get_all_encoding_parameters`, `pi.rs:1379-1517`. -/
def tileInfo (m : Mode) (t : TileParams) (tileno : Nat) : Option TileInfo :=
  (mkComps m (tileBounds t tileno) t.comps).map fun cs =>
    let d := encComps cs (0x7FFFFFFF, 0x7FFFFFFF)
    ⟨tileBounds t tileno, cs, maxPrec cs, maxRes cs, d.1, d.2⟩

/-- The part of the set-up common to all `EncPoc`: precincts, area and grid. -/
def EncPoc.onTile (i : TileInfo) (p : EncPoc) : EncPoc :=
  { p with prcS := 0, prcE := i.mp, txS := i.b.1, tyS := i.b.2.1, txE := i.b.2.2.1, tyE := i.b.2.2.2, dx := i.dx,
           dy := i.dy }

/-- `opj_pi_update_encode_not_poc`, `pi.rs:1718-1737`, for one progression. -/
def encWhole (t : TileParams) (i : TileInfo) : EncPoc :=
  EncPoc.onTile i { compS := 0, compE := i.cs.length, resS := 0, resE := i.mr, layS := 0, layE := t.numlayers,
                    prg := t.prg }

/-- One progression order change, `pi.rs:1631-1666`. -/
def encPoc (i : TileInfo) (layS : Nat) (q : Poc) : EncPoc :=
  EncPoc.onTile i { compS := q.compno0, compE := q.compno1, resS := q.resno0, resE := q.resno1, layS := layS,
                    layE := q.layno1, prg := q.prg }

/-- The progression order changes after the first, `pi.rs:1649-1668`: the first layer is chosen by comparing with
the change before, whose `layE` is `prev`. -/
def encPocsFrom (i : TileInfo) : Nat → List Poc → List EncPoc
  | _, [] => []
  | prev, q :: qs => encPoc i (if prev < q.layno1 then q.layno1 else 0) q :: encPocsFrom i q.layno1 qs

/-- `opj_pi_update_encode_poc_and_final`, `pi.rs:1628-1668`, and `opj_pi_update_encode_not_poc`: all progressions of
the tile. They run at every tile-part and give the same values each time, so the model runs them once. -/
def encPocs (t : TileParams) (i : TileInfo) : List EncPoc :=
  match t.pocs with
  | [] => [encWhole t i]
  | q :: qs => encPoc i 0 q :: encPocsFrom i q.layno1 qs

/-- `opj_j2k_get_num_tp`, `j2k.rs:839-901`: number of tile-parts of a progression; `none` is the failing assertion
(`j2k.rs:864`). `flag` is the letter after which the user asks for a new tile-part, `none` if they do not. The
letters are those of the tile's progression order, not of the change's.

The position of the letter, `m_tp_pos`, is not part of the result: the counter `i` it is set from (`j2k.rs:845, 892`)
is never incremented, so it is always 0. -/
def numTp (flag : Option Letter) (prg : Int) (p : EncPoc) : Option Nat :=
  if lettersOf prg = [] then none
  else match flag with
    | none => some 1
    | some f => some (go f 1 (lettersOf prg))
where
  /-- `for step in prog.get_order()`, `j2k.rs:866-895` -/
  go (f : Letter) : Nat → List Letter → Nat
    | n, [] => n
    | n, l :: ls =>
      let e := match l with
        | .comp => p.compE
        | .res => p.resE
        | .prec => p.prcE
        | .lay => p.layE
      if f = l then n * e % 2 ^ 32 else go f (n * e % 2 ^ 32) ls

/-- `opj_pi_create_encode` without tile-parts, `pi.rs:2440-2451`. -/
def pocAll (p : EncPoc) : Poc :=
  { layno0 := p.layS, layno1 := p.layE, resno0 := p.resS, resno1 := p.resE, compno0 := p.compS, compno1 := p.compE,
    precno0 := p.prcS, precno1 := p.prcE, tx0 := p.txS, ty0 := p.tyS, tx1 := p.txE, ty1 := p.tyE, prg := p.prg }

/-- The letters behind the position of the split, `pi.rs:2453-2485`, here all but the first: the whole range. -/
def rangeRest (p : EncPoc) : List Letter → Poc → Poc
  | [], q => q
  | .res :: ls, q => rangeRest p ls { q with resno0 := p.resS, resno1 := p.resE }
  | .comp :: ls, q => rangeRest p ls { q with compno0 := p.compS, compno1 := p.compE }
  | .lay :: ls, q => rangeRest p ls { q with layno0 := p.layS, layno1 := p.layE }
  | .prec :: ls, q =>
    if p.prg = 0 ∨ p.prg = 1 then rangeRest p ls { q with precno0 := p.prcS, precno1 := p.prcE }
    else rangeRest p ls { q with tx0 := p.txS, ty0 := p.tyS, tx1 := p.txE, ty1 := p.tyE }

/-- `v + d - v % d` on `u32`; `wrapping_rem` panics on 0. -/
def cellEnd (v d : Nat) : Option Nat := if d = 0 then none else some ((v + d + 2 ^ 32 - v % d) % 2 ^ 32)

/-- `v - d - v % d` on `u32`. -/
def cellStart (v d : Nat) : Option Nat := if d = 0 then none else some ((v + 2 ^ 33 - d - v % d) % 2 ^ 32)

/-- The letter at the position of the split, first tile-part, `pi.rs:2486-2538`. -/
def rangeFirst (p : EncPoc) (q : Poc) : Letter → Option (Poc × EncPoc)
  | .comp => some ({ q with compno0 := p.compS, compno1 := inc32 p.compS }, { p with compT := inc32 p.compS })
  | .res => some ({ q with resno0 := p.resS, resno1 := inc32 p.resS }, { p with resT := inc32 p.resS })
  | .lay => some ({ q with layno0 := p.layS, layno1 := inc32 p.layS }, { p with layT := inc32 p.layS })
  | .prec =>
    if p.prg = 0 ∨ p.prg = 1 then
      some ({ q with precno0 := p.prcS, precno1 := inc32 p.prcS }, { p with prcT := inc32 p.prcS })
    else do
      let x ← cellEnd p.txS p.dx
      let y ← cellEnd p.tyS p.dy
      some ({ q with tx0 := p.txS, tx1 := x, ty0 := p.tyS, ty1 := y }, { p with tx0T := x, ty0T := y })

/-- `x.wrapping_sub(1)` on `u32` -/
def dec32 (a : Nat) : Nat := (a + 2 ^ 32 - 1) % 2 ^ 32

/-- The letter at the position of the split, later tile-parts, `pi.rs:2541-2730`: first the range of the tile-part
before (`:2543-2575`), then the next one if the counter has not reached the end. The position of the split is 0, so
`opj_pi_check_next_level(-1, …)` is 0 (`pi.rs:1827, 1907`) and a counter at its end stays there. -/
def rangeNext (p : EncPoc) (q : Poc) : Letter → Option (Poc × EncPoc)
  | .comp =>
    if p.compT = p.compE then some ({ q with compno0 := dec32 p.compT, compno1 := p.compT }, p)
    else some ({ q with compno0 := p.compT, compno1 := inc32 p.compT }, { p with compT := inc32 p.compT })
  | .res =>
    if p.resT = p.resE then some ({ q with resno0 := dec32 p.resT, resno1 := p.resT }, p)
    else some ({ q with resno0 := p.resT, resno1 := inc32 p.resT }, { p with resT := inc32 p.resT })
  | .lay =>
    if p.layT = p.layE then some ({ q with layno0 := dec32 p.layT, layno1 := p.layT }, p)
    else some ({ q with layno0 := p.layT, layno1 := inc32 p.layT }, { p with layT := inc32 p.layT })
  | .prec =>
    if p.prg = 0 ∨ p.prg = 1 then
      if p.prcT = p.prcE then some ({ q with precno0 := dec32 p.prcT, precno1 := p.prcT }, p)
      else some ({ q with precno0 := p.prcT, precno1 := inc32 p.prcT }, { p with prcT := inc32 p.prcT })
    else do
      let x0 ← cellStart p.tx0T p.dx
      let y0 ← cellStart p.ty0T p.dy
      let x1 ← cellEnd p.tx0T p.dx
      let y1 ← cellEnd p.ty0T p.dy
      let xs ← cellEnd p.txS p.dx
      let q := { q with tx0 := x0, tx1 := p.tx0T, ty0 := y0, ty1 := p.ty0T }
      if p.txE ≤ p.tx0T then
        if p.tyE ≤ p.ty0T then some (q, p)
        else some ({ q with ty0 := p.ty0T, ty1 := y1, tx0 := p.txS, tx1 := xs }, { p with ty0T := y1, tx0T := xs })
      else some ({ q with tx0 := p.tx0T, tx1 := x1 }, { p with tx0T := x1 })

/-- `opj_pi_create_encode`, `pi.rs:2412-2734`, for tile-part `tpnum` of a progression, with the split at position 0.
The letters are those of the progression order change. -/
def createEncode (tpOn : Bool) (p : EncPoc) (tpnum : Nat) : Option (Poc × EncPoc) :=
  if tpOn then
    match lettersOf p.prg with
    | [] => some ({ prg := p.prg }, p)
    | l :: ls =>
      if tpnum = 0 then rangeFirst p (rangeRest p ls { prg := p.prg }) l
      else rangeNext p (rangeRest p ls { prg := p.prg }) l
  else some (pocAll p, p)

/-- A new iterator, `opj_pi_initialise_encode`, `pi.rs:2267-2386`: its own empty `include` of
`numlayers * step_l` entries. Only the first iterator of a tile has `tp_on` set (`pi.rs:2280`). -/
def encIt (t : TileParams) (i : TileInfo) (tpOn : Bool) (q : Poc) : It :=
  let stepR := i.cs.length * i.mp % 2 ^ 32
  let stepL := i.mr * stepR % 2 ^ 32
  { tpOn := tpOn, inc := fun _ => false, incSize := t.numlayers * stepL % 2 ^ 32, stepL := stepL, stepR := stepR,
    stepC := i.mp, stepP := 1, poc := q, comps := i.cs, tx0 := i.b.1, ty0 := i.b.2.1, tx1 := i.b.2.2.1,
    ty1 := i.b.2.2.2, dx := i.dx, dy := i.dy }

/-- The tile-parts `tpnum, tpnum + 1, …` (`n` of them) of one progression: the packets of each,
`j2k.rs:12767-12830, 12837-…` and the packet loop `t2.rs:223-…`. `first` says whether it is the first progression of
the tile. -/
def encParts (m : Mode) (fuel : Nat) (t : TileParams) (i : TileInfo) (tpOn first : Bool) :
    Nat → Nat → EncPoc → Option (List (List Pkt))
  | 0, _, _ => some []
  | n + 1, tpnum, p => do
    let (q, p') ← createEncode tpOn p tpnum
    let d ← drain m fuel fuel (encIt t i (tpOn && first) q)
    let r ← encParts m fuel t i tpOn first n (tpnum + 1) p'
    some (d.1 :: r)

/-- The loop over the progressions, `j2k.rs:12671, 12831-…`. -/
def encProgs (m : Mode) (fuel : Nat) (t : TileParams) (i : TileInfo) (flag : Option Letter) :
    Bool → List EncPoc → Option (List (List Pkt))
  | _, [] => some []
  | first, p :: ps => do
    let n ← numTp flag t.prg p
    let a ← encParts m fuel t i flag.isSome first n 0 p
    let b ← encProgs m fuel t i flag false ps
    some (a ++ b)

/-- The packets the encoder writes for a tile, tile-part by tile-part. Outer `none`: a panic. Inner `none`: the tile is
refused because `include` would be empty (`opj_calloc` of 0 bytes is null, `pi.rs:2284-2292`). `flag` is the letter of
the tile-part division, if there is one. -/
def encodeParts (m : Mode) (fuel : Nat) (t : TileParams) (flag : Option Letter) (tileno : Nat) :
    Option (Option (List (List Pkt))) := do
  let i ← tileInfo m t tileno
  if (encIt t i false {}).incSize = 0 then return none
  else
    let r ← encProgs m fuel t i flag true (encPocs t i)
    return some r

end Jp2.Pi

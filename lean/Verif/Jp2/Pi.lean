import Verif.Jp2.Arith
import Verif.Jp2.Math
/-!
# Packet iterators: `openjp2-rs/src/pi.rs` (decoder side) and the packet loop of `t2.rs`

`u32`/`u64` are `Nat`, wrapped where the Rust wraps. `Mode` says whether the crate was built with
overflow checks. The iterators are goto programs (nested `loop { match current_block … }` produced by
c2rust): they are modelled as small-step machines with one label per jump target, so that an execution
is a sequence of steps and not an assumed loop nest. `none`/`fault` is a panic or an out-of-bounds
access. Allocation failures are not modelled.
-/
namespace Jp2.Pi

/-- `a << k` on `u64`: panics for `k ≥ 64` under overflow checks, masks the amount otherwise. -/
def shl64 (m : Mode) (a k : Nat) : Option Nat :=
  if k < 64 then some (a * 2 ^ k % 2 ^ 64)
  else match m with | .checked => none | .wrapping => some (a * 2 ^ (k % 64) % 2 ^ 64)

/-- `a >> k` on `u64`. -/
def shr64 (m : Mode) (a k : Nat) : Option Nat :=
  if k < 64 then some (a / 2 ^ k)
  else match m with | .checked => none | .wrapping => some (a / 2 ^ (k % 64))

/-- `a << k` on `u32`. -/
def shl32 (m : Mode) (a k : Nat) : Option Nat :=
  if k < 32 then some (a * 2 ^ k % 2 ^ 32)
  else match m with | .checked => none | .wrapping => some (a * 2 ^ (k % 32) % 2 ^ 32)

/-- `a >> k` on `u32`; also `opj_uint_floordivpow2`, `math.rs:38-40`. -/
def shr32 (m : Mode) (a k : Nat) : Option Nat :=
  if k < 32 then some (a / 2 ^ k)
  else match m with | .checked => none | .wrapping => some (a / 2 ^ (k % 32))

/-- `a - b` on `u32`. -/
def sub32 (m : Mode) (a b : Nat) : Option Nat :=
  if b ≤ a then some (a - b)
  else match m with | .checked => none | .wrapping => some (2 ^ 32 + a - b)

/-- `opj_uint64_ceildiv_res_uint32`, `math.rs:79-82`, in both build modes. -/
def ceildivRes (m : Mode) (a b : Nat) : Option Nat :=
  if b = 0 then none
  else if a + b < 2 ^ 64 then some ((a + b - 1) / b % 2 ^ 32)
  else match m with | .checked => none | .wrapping => some ((a + b - 1) % 2 ^ 64 / b % 2 ^ 32)

/-- `a % b` on `u64`; panics for `b = 0`. -/
def rem (a b : Nat) : Option Nat := if b = 0 then none else some (a % b)

/-- `opj_pi_resolution`, `pi.rs:12-20`. -/
structure Res where
  pdx : Nat
  pdy : Nat
  pw : Nat
  ph : Nat
deriving DecidableEq, Repr

/-- `opj_pi_comp`, `pi.rs:22-30`; `numresolutions` is the length of `res`. -/
structure Comp where
  dx : Nat
  dy : Nat
  res : List Res
deriving DecidableEq, Repr

/-- The fields of `opj_poc_t` the iterators use (`types.rs`), with the progression order as an integer. -/
structure Poc where
  layno0 : Nat := 0
  layno1 : Nat := 0
  resno0 : Nat := 0
  resno1 : Nat := 0
  compno0 : Nat := 0
  compno1 : Nat := 0
  precno0 : Nat := 0
  precno1 : Nat := 0
  tx0 : Nat := 0
  ty0 : Nat := 0
  tx1 : Nat := 0
  ty1 : Nat := 0
  prg : Int := 0
deriving DecidableEq, Repr

/-- `opj_pi_iterator`, `pi.rs:32-59`; `numcomps` is the length of `comps`, the `include` array is a
function together with its size. -/
structure It where
  tpOn : Bool := false
  inc : Nat → Bool
  incSize : Nat
  stepL : Nat
  stepR : Nat
  stepC : Nat
  stepP : Nat
  compno : Nat := 0
  resno : Nat := 0
  precno : Nat := 0
  layno : Nat := 0
  first : Bool := true
  poc : Poc
  comps : List Comp
  tx0 : Nat
  ty0 : Nat
  tx1 : Nat
  ty1 : Nat
  x : Nat := 0
  y : Nat := 0
  dx : Nat := 0
  dy : Nat := 0

/-- The packet an iterator points at. -/
structure Pkt where
  layno : Nat
  resno : Nat
  compno : Nat
  precno : Nat
deriving DecidableEq, Repr

/-- The four counters the packet loops read after `opj_pi_next` returned 1, `t2.rs:244-247, 369-377`. -/
def It.pkt (s : It) : Pkt := ⟨s.layno, s.resno, s.compno, s.precno⟩

/-- Jump targets. `skip` is the re-entry point after a packet. -/
inductive Label where
  | skip | lay | res | comp | prec | x | y | compInc | resInc | compChk | resChk
deriving DecidableEq, Repr

/-- Result of one step. -/
inductive Out where
  | goto (l : Label) (s : It)
  /-- `return 1i32` / `return 0i32` -/
  | ret (b : Bool) (s : It)
  /-- panic or access outside an array -/
  | fault

/-- `wrapping_add(1)` on `u32`. -/
def inc32 (a : Nat) : Nat := (a + 1) % 2 ^ 32

/-- The `include` index, `pi.rs:161-166` and the same expression in the other iterators; wrapping
`u32` arithmetic, reduced once at the end. -/
def It.index (s : It) : Nat :=
  (s.layno * s.stepL + s.resno * s.stepR + s.compno * s.stepC + s.precno * s.stepP) % 2 ^ 32

/-- Look up `include`, claim the packet if it is free: `pi.rs:161-183` (and `:277-292`, `:480-495`,
`:752-767`, `:1048-1063`). -/
def claim (s : It) : Out :=
  if s.incSize ≤ s.index then .ret false s
  else if s.inc s.index then .goto .skip s
  else .ret true { s with inc := fun i => if i = s.index then true else s.inc i }

/-- Entry test of every iterator, e.g. `pi.rs:122-126`. -/
def compsOk (s : It) : Bool :=
  s.poc.compno0 < s.comps.length && s.poc.compno1 < (s.comps.length + 1) % 2 ^ 32

/-- `opj_pi_next_lrcp`, `pi.rs:132-225`: one jump. -/
def stepLrcp : Label → It → Out
  | .skip, s => .goto .prec { s with precno := inc32 s.precno }
  | .lay, s =>
    if s.poc.layno1 ≤ s.layno then .ret false s
    else .goto .res { s with resno := s.poc.resno0 }
  | .res, s =>
    if s.resno < s.poc.resno1 then .goto .compChk { s with compno := s.poc.compno0 }
    else .goto .lay { s with layno := inc32 s.layno }
  | .prec, s => if s.precno < s.poc.precno1 then claim s else .goto .compInc s
  | .compInc, s => .goto .compChk { s with compno := inc32 s.compno }
  | .compChk, s =>
    if s.compno < s.poc.compno1 then
      match s.comps[s.compno]? with
      | none => .fault
      | some c =>
        if c.res.length ≤ s.resno then .goto .compInc s
        else match c.res[s.resno]? with
          | none => .fault
          | some r =>
            .goto .prec { s with
              poc := { s.poc with
                precno1 := if s.tpOn then s.poc.precno1 else r.pw * r.ph % 2 ^ 32 },
              precno := s.poc.precno0 }
    else .goto .res { s with resno := inc32 s.resno }
  | _, _ => .fault

/-- `opj_pi_next_rlcp`, `pi.rs:244-328`: one jump. -/
def stepRlcp : Label → It → Out
  | .skip, s => .goto .prec { s with precno := inc32 s.precno }
  | .res, s =>
    if s.poc.resno1 ≤ s.resno then .ret false s
    else .goto .lay { s with layno := s.poc.layno0 }
  | .lay, s =>
    if s.layno < s.poc.layno1 then .goto .compChk { s with compno := s.poc.compno0 }
    else .goto .res { s with resno := inc32 s.resno }
  | .prec, s => if s.precno < s.poc.precno1 then claim s else .goto .compInc s
  | .compInc, s => .goto .compChk { s with compno := inc32 s.compno }
  | .compChk, s =>
    if s.compno < s.poc.compno1 then
      match s.comps[s.compno]? with
      | none => .fault
      | some c =>
        if c.res.length ≤ s.resno then .goto .compInc s
        else match c.res[s.resno]? with
          | none => .fault
          | some r =>
            .goto .prec { s with
              poc := { s.poc with
                precno1 := if s.tpOn then s.poc.precno1 else r.pw * r.ph % 2 ^ 32 },
              precno := s.poc.precno0 }
    else .goto .lay { s with layno := inc32 s.layno }
  | _, _ => .fault

/-- `((d << k) >> k) == d` on `u64`, `pi.rs:535-537, 549`. -/
def guard64 (m : Mode) (d k : Nat) : Option Bool :=
  (shl64 m d k).bind fun a => (shr64 m a k).map fun b => b == d

/-- `((d << k) >> k) as u32 == d` with both shifts on `u32`, `pi.rs:804-806, 1100-1102`. -/
def guard32 (m : Mode) (d k : Nat) : Option Bool :=
  (shl32 m d k).bind fun a => (shr32 m a k).map fun b => b == d

/-- `((d << k) as u64 >> k) as u32 == d`: left shift on `u32`, right shift on `u64`,
`pi.rs:830-832, 1126-1128`. -/
def guard32w (m : Mode) (d k : Nat) : Option Bool :=
  (shl32 m d k).bind fun a => (shr64 m a k).map fun b => b % 2 ^ 32 == d

/-- One coordinate of the position test, e.g. `pi.rs:555-558`: does the packet belong to position `v`?
`v % (d << rp) == 0 || (v == t0 && ((tr0 << levelno) % (1 << rp)) != 0)`. -/
def posOk (m : Mode) (v d rp t0 tr0 levelno : Nat) : Option Bool := do
  let st ← shl64 m d rp
  let a ← rem v st
  if a = 0 then some true
  else if v = t0 then
    let b ← shl64 m tr0 levelno
    let e ← shl64 m 1 rp
    let c ← rem b e
    some (c != 0)
  else some false

/-- One coordinate of the precinct number, e.g. `pi.rs:577-580`. -/
def prcOf (m : Mode) (v dl pd tr0 : Nat) : Option Nat := do
  let a ← ceildivRes m v dl
  let b ← shr32 m a pd
  let c ← shr32 m tr0 pd
  sub32 m b c

/-- The body shared by the position-driven iterators: `pi.rs:529-588` (RPCL), `:799-877` (PCRL),
`:1095-1173` (CPRL). `g1`, `g2` are the two overflow guards, which differ between them.
`some none` is `continue` (no packet here), `some (some p)` sets `precno`. -/
def precinct (m : Mode) (g1 g2 : Mode → Nat → Nat → Option Bool) (s : It) (c : Comp) (r : Res) :
    Option (Option Nat) := do
  let levelno := c.res.length - 1 - s.resno
  let ax ← g1 m c.dx levelno
  if !ax then return none
  let ay ← g1 m c.dy levelno
  if !ay then return none
  let dlx ← shl64 m c.dx levelno
  let dly ← shl64 m c.dy levelno
  let trx0 ← ceildivRes m s.tx0 dlx
  let try0 ← ceildivRes m s.ty0 dly
  let trx1 ← ceildivRes m s.tx1 dlx
  let try1 ← ceildivRes m s.ty1 dly
  let rpx := (r.pdx + levelno) % 2 ^ 32
  let rpy := (r.pdy + levelno) % 2 ^ 32
  let bx ← g2 m c.dx rpx
  if !bx then return none
  let by' ← g2 m c.dy rpy
  if !by' then return none
  let oy ← posOk m s.y c.dy rpy s.ty0 try0 levelno
  if !oy then return none
  let ox ← posOk m s.x c.dx rpx s.tx0 trx0 levelno
  if !ox then return none
  if r.pw = 0 ∨ r.ph = 0 then return none
  if trx0 = trx1 ∨ try0 = try1 then return none
  let prci ← prcOf m s.x dlx r.pdx trx0
  let prcj ← prcOf m s.y dly r.pdy try0
  return some ((prci + prcj * r.pw) % 2 ^ 32)

/-- `x += dx - x % dx` on `u32` (`wrapping_rem` panics on 0), e.g. `pi.rs:592-594`. -/
def advance (v d : Nat) : Option Nat := if d = 0 then none else some ((v + (d - v % d)) % 2 ^ 32)

/-- The step a resolution contributes, `pi.rs:372-400`: `d << (pd + levels above)` when it fits a `u32`. -/
def resStep (d pd numres resno : Nat) : Option Nat :=
  let k := (2 ^ 32 + (2 ^ 32 + (pd + numres) - 1) - resno) % 2 ^ 32
  if k < 32 ∧ d ≤ (2 ^ 32 - 1) / 2 ^ k then some (d * 2 ^ k % 2 ^ 32) else none

/-- Fold one step into the minimum, `pi.rs:396-400`. -/
def minStep (acc : Nat) : Option Nat → Nat
  | none => acc
  | some d => if acc = 0 then d else Math.uintMin acc d

/-- The inner loop over the resolutions of a component, `pi.rs:366-443`: numbers `n, n+1, …`. -/
def foldRes (c : Comp) (numres : Nat) : Nat → List Res → Nat × Nat → Nat × Nat
  | _, [], acc => acc
  | n, r :: rs, acc =>
    foldRes c numres (n + 1) rs
      (minStep acc.1 (resStep c.dx r.pdx numres n), minStep acc.2 (resStep c.dy r.pdy numres n))

/-- The loop over all components, `pi.rs:363-445` (RPCL) and `:628-711` (PCRL). -/
def foldComps : List Comp → Nat × Nat → Nat × Nat
  | [], acc => acc
  | c :: cs, acc => foldComps cs (foldRes c c.res.length 0 c.res acc)

/-- `if tp_on == 0 { poc.t?? = t?? }`, `pi.rs:449-454`. -/
def setArea (s : It) : It :=
  if s.tpOn then s
  else { s with poc := { s.poc with ty0 := s.ty0, tx0 := s.tx0, ty1 := s.ty1, tx1 := s.tx1 } }

/-- `opj_pi_next_rpcl`, `pi.rs:458-599`: one jump. -/
def stepRpcl (m : Mode) : Label → It → Out
  | .skip, s => .goto .lay { s with layno := inc32 s.layno }
  | .res, s =>
    if s.poc.resno1 ≤ s.resno then .ret false s
    else .goto .y { s with y := s.poc.ty0 }
  | .y, s =>
    if s.y < s.poc.ty1 then .goto .x { s with x := s.poc.tx0 }
    else .goto .res { s with resno := inc32 s.resno }
  | .lay, s => if s.layno < s.poc.layno1 then claim s else .goto .compInc s
  | .x, s =>
    if s.x < s.poc.tx1 then .goto .compChk { s with compno := s.poc.compno0 }
    else match advance s.y s.dy with
      | none => .fault
      | some y => .goto .y { s with y := y }
  | .compInc, s => .goto .compChk { s with compno := inc32 s.compno }
  | .compChk, s =>
    if s.compno < s.poc.compno1 then
      match s.comps[s.compno]? with
      | none => .fault
      | some c =>
        if c.res.length ≤ s.resno then .goto .compInc s
        else match c.res[s.resno]? with
          | none => .fault
          | some r =>
            match precinct m guard64 guard64 s c r with
            | none => .fault
            | some none => .goto .compInc s
            | some (some p) => .goto .lay { s with precno := p, layno := s.poc.layno0 }
    else match advance s.x s.dx with
      | none => .fault
      | some x => .goto .x { s with x := x }
  | _, _ => .fault

/-- `opj_pi_next_pcrl`, `pi.rs:724-886`: one jump. The local `comp` always points at component `compno`
when it is read, so it is looked up where it is used. -/
def stepPcrl (m : Mode) : Label → It → Out
  | .skip, s => .goto .lay { s with layno := inc32 s.layno }
  | .y, s =>
    if s.poc.ty1 ≤ s.y then .ret false s
    else .goto .x { s with x := s.poc.tx0 }
  | .x, s =>
    if s.x < s.poc.tx1 then .goto .comp { s with compno := s.poc.compno0 }
    else match advance s.y s.dy with
      | none => .fault
      | some y => .goto .y { s with y := y }
  | .lay, s => if s.layno < s.poc.layno1 then claim s else .goto .resInc s
  | .comp, s =>
    if s.compno < s.poc.compno1 then .goto .resChk { s with resno := s.poc.resno0 }
    else match advance s.x s.dx with
      | none => .fault
      | some x => .goto .x { s with x := x }
  | .resInc, s => .goto .resChk { s with resno := inc32 s.resno }
  | .resChk, s =>
    match s.comps[s.compno]? with
    | none => .fault
    | some c =>
      if s.resno < Math.uintMin s.poc.resno1 c.res.length then
        match c.res[s.resno]? with
        | none => .fault
        | some r =>
          match precinct m guard32 guard32w s c r with
          | none => .fault
          | some none => .goto .resInc s
          | some (some p) => .goto .lay { s with precno := p, layno := s.poc.layno0 }
      else .goto .comp { s with compno := inc32 s.compno }
  | _, _ => .fault

/-- `opj_pi_next_cprl`, `pi.rs:923-1181`: one jump. -/
def stepCprl (m : Mode) : Label → It → Out
  | .skip, s => .goto .lay { s with layno := inc32 s.layno }
  | .comp, s =>
    if s.poc.compno1 ≤ s.compno then .ret false s
    else match s.comps[s.compno]? with
      | none => .fault
      | some c =>
        let d := foldRes c c.res.length 0 c.res (0, 0)
        let s := { s with dx := d.1, dy := d.2 }
        if s.dx = 0 ∨ s.dy = 0 then .ret false s
        else
          let s := setArea s
          .goto .y { s with y := s.poc.ty0 }
  | .y, s =>
    if s.y < s.poc.ty1 then .goto .x { s with x := s.poc.tx0 }
    else .goto .comp { s with compno := inc32 s.compno }
  | .lay, s => if s.layno < s.poc.layno1 then claim s else .goto .resInc s
  | .x, s =>
    if s.x < s.poc.tx1 then .goto .resChk { s with resno := s.poc.resno0 }
    else match advance s.y s.dy with
      | none => .fault
      | some y => .goto .y { s with y := y }
  | .resInc, s => .goto .resChk { s with resno := inc32 s.resno }
  | .resChk, s =>
    match s.comps[s.compno]? with
    | none => .fault
    | some c =>
      if s.resno < Math.uintMin s.poc.resno1 c.res.length then
        match c.res[s.resno]? with
        | none => .fault
        | some r =>
          match precinct m guard32 guard32w s c r with
          | none => .fault
          | some none => .goto .resInc s
          | some (some p) => .goto .lay { s with precno := p, layno := s.poc.layno0 }
      else match advance s.x s.dx with
        | none => .fault
        | some x => .goto .x { s with x := x }
  | _, _ => .fault

/-- Run a machine until it returns; `none` if it faults or has not returned after `fuel` jumps. -/
def run (step : Label → It → Out) : Nat → Label → It → Option (Bool × It)
  | 0, _, _ => none
  | fuel + 1, l, s =>
    match step l s with
    | .goto l' s' => run step fuel l' s'
    | .ret b s' => some (b, s')
    | .fault => none

/-- First call of `opj_pi_next_rpcl`/`_pcrl` only, `pi.rs:357-456`: compute the steps and the area. -/
def startPos (s : It) : Option It :=
  let d := foldComps s.comps (0, 0)
  let s := { s with first := false, dx := d.1, dy := d.2 }
  if s.dx = 0 ∨ s.dy = 0 then none else some (setArea s)

/-- `opj_pi_next_lrcp`, `pi.rs:117-227`. -/
def nextLrcp (fuel : Nat) (s : It) : Option (Bool × It) :=
  if !compsOk s then some (false, s)
  else if s.first then run stepLrcp fuel .lay { s with first := false, layno := s.poc.layno0 }
  else run stepLrcp fuel .skip s

/-- `opj_pi_next_rlcp`, `pi.rs:229-330`. -/
def nextRlcp (fuel : Nat) (s : It) : Option (Bool × It) :=
  if !compsOk s then some (false, s)
  else if s.first then run stepRlcp fuel .res { s with first := false, resno := s.poc.resno0 }
  else run stepRlcp fuel .skip s

/-- `opj_pi_next_rpcl`, `pi.rs:335-601`. When the steps are zero the Rust keeps `first = 0` and returns 0. -/
def nextRpcl (m : Mode) (fuel : Nat) (s : It) : Option (Bool × It) :=
  if !compsOk s then some (false, s)
  else if s.first then
    match startPos s with
    | none => some (false, { s with first := false })
    | some s => run (stepRpcl m) fuel .res { s with resno := s.poc.resno0 }
  else run (stepRpcl m) fuel .skip s

/-- `opj_pi_next_pcrl`, `pi.rs:606-888`. -/
def nextPcrl (m : Mode) (fuel : Nat) (s : It) : Option (Bool × It) :=
  if !compsOk s then some (false, s)
  else if s.first then
    match startPos s with
    | none => some (false, { s with first := false })
    | some s => run (stepPcrl m) fuel .y { s with y := s.poc.ty0 }
  else run (stepPcrl m) fuel .skip s

/-- `opj_pi_next_cprl`, `pi.rs:892-1183`. -/
def nextCprl (m : Mode) (fuel : Nat) (s : It) : Option (Bool × It) :=
  if !compsOk s then some (false, s)
  else if s.first then run (stepCprl m) fuel .comp { s with first := false, compno := s.poc.compno0 }
  else run (stepCprl m) fuel .skip s

/-- `opj_pi_next`, `pi.rs:2830-2841`. -/
def next (m : Mode) (fuel : Nat) (s : It) : Option (Bool × It) :=
  if s.poc.prg = 0 then nextLrcp fuel s
  else if s.poc.prg = 1 then nextRlcp fuel s
  else if s.poc.prg = 2 then nextRpcl m fuel s
  else if s.poc.prg = 3 then nextPcrl m fuel s
  else if s.poc.prg = 4 then nextCprl m fuel s
  else some (false, s)

/-- `while opj_pi_next(pi) != 0 { … }`, `t2.rs:244, 369`: the packets it visits, in order, and the
iterator it leaves. `fuel` bounds both the number of calls and the jumps of each call. -/
def drain (m : Mode) (fuel : Nat) : Nat → It → Option (List Pkt × It)
  | 0, _ => none
  | n + 1, s =>
    match next m fuel s with
    | none => none
    | some (false, s') => some ([], s')
    | some (true, s') => (drain m fuel n s').map fun q => (s'.pkt :: q.1, q.2)

/-- The loop over the progression order changes of a tile, `t2.rs:328-…`: the iterators share one
`include` array (`pi.rs:2118-2119`). The test for `OPJ_PROG_UNKNOWN` (`t2.rs:337-341`), which makes the
decoder give up, is not modelled: such an iterator yields no packet. -/
def drainAll (m : Mode) (fuel : Nat) : List It → (Nat → Bool) → Option (List Pkt × (Nat → Bool))
  | [], inc => some ([], inc)
  | s :: ss, inc =>
    (drain m fuel fuel { s with inc := inc }).bind fun q =>
      (drainAll m fuel ss q.2.inc).map fun r => (q.1 ++ r.1, r.2)

/-! ## Construction -/

/-- Coding parameters of one component: subsampling from the image component, and the precinct
exponents `prcw[resno]`, `prch[resno]` of its `numresolutions` resolutions (`types.rs` `opj_tccp`). -/
structure CompParams where
  dx : Nat
  dy : Nat
  prc : List (Nat × Nat)
deriving DecidableEq, Repr

/-- The parts of `opj_image`, `opj_cp` and `opj_tcp` that packet iteration reads. `pocs` is empty unless
`tcp.POC` is set; then it holds the `numpocs + 1` progression order changes. -/
structure TileParams where
  x0 : Nat
  y0 : Nat
  x1 : Nat
  y1 : Nat
  cpTx0 : Nat
  cpTy0 : Nat
  tdx : Nat
  tdy : Nat
  tw : Nat
  comps : List CompParams
  numlayers : Nat
  prg : Int
  pocs : List Poc := []
deriving Repr

/-- Tile bounds, `pi.rs:1379-1388`: `(tx0, ty0, tx1, ty1)`. -/
def tileBounds (t : TileParams) (tileno : Nat) : Nat × Nat × Nat × Nat :=
  let p := tileno % t.tw
  let q := tileno / t.tw
  let lx := (t.cpTx0 + p * t.tdx) % 2 ^ 32
  let ly := (t.cpTy0 + q * t.tdy) % 2 ^ 32
  (Math.uintMax lx t.x0, Math.uintMax ly t.y0,
    Math.uintMin (Math.uintAdds lx t.tdx) t.x1, Math.uintMin (Math.uintAdds ly t.tdy) t.y1)

/-- Number of precincts along one axis, `pi.rs:1471-1490`: from the tile-component bounds `tc0`, `tc1`,
the level and the precinct exponent. The `u32` shift `… << pd` drops high bits. -/
def prcCount (m : Mode) (tc0 tc1 levelno pd : Nat) : Option Nat := do
  let r0 ← Math.uintCeildivpow2 tc0 levelno
  let r1 ← Math.uintCeildivpow2 tc1 levelno
  let a ← shr32 m r0 pd
  let p0 ← shl32 m a pd
  let b ← Math.uintCeildivpow2 r1 pd
  let p1 ← shl32 m b pd
  let e ← shr32 m ((2 ^ 32 + p1 - p0) % 2 ^ 32) pd
  return if r0 = r1 then 0 else e

/-- The resolutions of a component, `pi.rs:1435-1508`: `levelno` counts down from `numresolutions`. -/
def resolutions (m : Mode) (tcx0 tcy0 tcx1 tcy1 : Nat) : List (Nat × Nat) → Option (List Res)
  | [] => some []
  | (pdx, pdy) :: rest => do
    let pw ← prcCount m tcx0 tcx1 rest.length pdx
    let ph ← prcCount m tcy0 tcy1 rest.length pdy
    let rs ← resolutions m tcx0 tcy0 tcx1 tcy1 rest
    return ⟨pdx, pdy, pw, ph⟩ :: rs

/-- One component, `pi.rs:1425-1434` and the copy into the iterator, `:2032-2061`. -/
def mkComp (m : Mode) (b : Nat × Nat × Nat × Nat) (c : CompParams) : Option Comp := do
  let tcx0 ← Math.uintCeildiv b.1 c.dx
  let tcy0 ← Math.uintCeildiv b.2.1 c.dy
  let tcx1 ← Math.uintCeildiv b.2.2.1 c.dx
  let tcy1 ← Math.uintCeildiv b.2.2.2 c.dy
  let rs ← resolutions m tcx0 tcy0 tcx1 tcy1 c.prc
  return ⟨c.dx, c.dy, rs⟩

/-- All components. -/
def mkComps (m : Mode) (b : Nat × Nat × Nat × Nat) : List CompParams → Option (List Comp)
  | [] => some []
  | c :: cs => do
    let x ← mkComp m b c
    let xs ← mkComps m b cs
    return x :: xs

/-- `p_max_prec`, `pi.rs:1501-1505`: largest wrapped product `pw * ph`. -/
def maxPrec (cs : List Comp) : Nat :=
  cs.foldl (fun a c => c.res.foldl (fun a r => if a < r.pw * r.ph % 2 ^ 32 then r.pw * r.ph % 2 ^ 32 else a) a) 0

/-- `p_max_res`, `pi.rs:1430-1432`. -/
def maxRes (cs : List Comp) : Nat := cs.foldl (fun a c => if a < c.res.length then c.res.length else a) 0

/-- `opj_pi_update_decode_not_poc` for one iterator, `pi.rs:1800-1812`. -/
def pocWhole (t : TileParams) (numcomps maxprec maxres : Nat) : Poc :=
  { layno0 := 0, layno1 := t.numlayers, resno0 := 0, resno1 := maxres, compno0 := 0,
    compno1 := numcomps, precno0 := 0, precno1 := maxprec, prg := t.prg }

/-- `opj_pi_update_decode_poc` for one iterator, `pi.rs:1763-1776`. -/
def pocOf (t : TileParams) (maxprec : Nat) (p : Poc) : Poc :=
  { layno0 := 0, layno1 := Math.uintMin p.layno1 t.numlayers, resno0 := p.resno0, resno1 := p.resno1,
    compno0 := p.compno0, compno1 := p.compno1, precno0 := 0, precno1 := maxprec, prg := p.prg }

/-- `opj_pi_create_decode`, `pi.rs:1913-2140`. Outer `none`: a panic. Inner `none`: the null pointer,
returned when the size of `include` would overflow or is zero (`opj_calloc` of 0 bytes is null). -/
def createDecode (m : Mode) (t : TileParams) (tileno : Nat) : Option (Option (List It)) := do
  let b := tileBounds t tileno
  let cs ← mkComps m b t.comps
  let mp := maxPrec cs
  let mr := maxRes cs
  let stepC := mp
  let stepR := cs.length * stepC % 2 ^ 32
  let stepL := mr * stepR % 2 ^ 32
  if stepL ≤ (2 ^ 32 - 1) / ((t.numlayers + 1) % 2 ^ 32) then
    let size := (t.numlayers + 1) % 2 ^ 32 * stepL % 2 ^ 32
    if size = 0 then return none
    else
      let mk (p : Poc) : It :=
        { inc := fun _ => false, incSize := size, stepL := stepL, stepR := stepR, stepC := stepC,
          stepP := 1, poc := p, comps := cs, tx0 := b.1, ty0 := b.2.1, tx1 := b.2.2.1, ty1 := b.2.2.2 }
      if t.pocs.isEmpty then return some [mk (pocWhole t cs.length mp mr)]
      else return some (t.pocs.map fun p => mk (pocOf t mp p))
  else return none

/-- The packets `opj_t2_decode_packets` visits for a tile, in order (`t2.rs:300-…`), when no packet
fails to decode. -/
def decodePackets (m : Mode) (fuel : Nat) (t : TileParams) (tileno : Nat) :
    Option (Option (List Pkt)) :=
  (createDecode m t tileno).bind fun
    | none => some none
    | some its => (drainAll m fuel its fun _ => false).map fun q => some q.1

end Jp2.Pi

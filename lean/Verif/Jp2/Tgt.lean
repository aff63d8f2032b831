import Verif.Jp2.Arith
import Verif.Jp2.Mem
import Verif.Jp2.T2Codes
/-!
# Tag trees: `openjp2-rs/src/tgt.rs`

Nodes live in one allocation, `Mem Node`; a node pointer is an index and a null pointer is `none`.
Running out of memory is not modelled, nor is `opj_tgt_init` on a tree of another size (it repeats the
loops of `opj_tgt_create`; on a tree of the same size it is `reset`).
-/
namespace Jp2.Tgt
open Jp2.Bio

/-- `opj_tgt_node_t`. -/
structure Node where
  parent : Option Nat
  value : Int
  low : Int
  known : Bool
deriving DecidableEq, Repr

/-! ## Construction -/

/-- The level sizes computed by the first loop of `opj_tgt_create`, `tgt.rs:74-89`, for fewer than 2^31 leaves each way, as the list of
`(nplh[i], nplv[i])`; `room` is how many more array slots there are (32 in all; the last is only
written). `none` is an index past the array or the overflow of the product. -/
def levels (m : Mode) : Nat → Nat → Nat → Option (List (Nat × Nat))
  | 0, _, _ => none
  | room + 1, w, h =>
    (ar m (w * h)).bind fun n =>
    if (n % 2 ^ 32).toNat ≤ 1 then some [(w, h)]
    else (levels m room ((w + 1) / 2) ((h + 1) / 2)).map ((w, h) :: ·)

/-- `(*node).parent = p`. -/
def setParent (t : Mem Node) (i p : Nat) : Option (Mem Node) :=
  (t i).bind fun nd => wr t i { nd with parent := some p }

/-- The loop over one row, `tgt.rs:113-127`: `k` nodes left; returns the new `node` and `l_parent_node`. -/
def linkRow : Nat → Mem Node → Nat → Nat → Option (Mem Node × Nat × Nat)
  | 0, t, node, par => some (t, node, par)
  | 1, t, node, par => (setParent t node par).map fun t => (t, node + 1, par + 1)
  | k + 2, t, node, par =>
    (setParent t node par).bind fun t => (setParent t (node + 1) par).bind fun t =>
    linkRow k t (node + 2) (par + 1)

/-- Rows `j .. h-1` of one level, `tgt.rs:111-135`. -/
def linkRows (w h : Nat) : Nat → Nat → Mem Node → Nat → Nat → Nat → Option (Mem Node × Nat × Nat × Nat)
  | 0, _, t, node, par, par0 => some (t, node, par, par0)
  | k + 1, j, t, node, par, par0 =>
    (linkRow w t node par).bind fun (t, node, par) =>
    if j % 2 = 1 ∨ j = h - 1 then linkRows w h k (j + 1) t node par par
    else linkRows w h k (j + 1) t node par0 (par0 + w)

/-- All levels but the last, `tgt.rs:109-137`. -/
def linkLevels : List (Nat × Nat) → Mem Node → Nat → Nat → Nat → Option (Mem Node × Nat)
  | [], t, node, _, _ => some (t, node)
  | [_], t, node, _, _ => some (t, node)
  | (w, h) :: rest, t, node, par, par0 =>
    (linkRows w h h 0 t node par par0).bind fun (t, node, par, par0) => linkLevels rest t node par par0

/-- `opj_tgt_reset`, `tgt.rs:272-287`, over `n` nodes. -/
def reset (n : Nat) (t : Mem Node) : Option (Mem Node) :=
  loopM (fun i t => (t i).bind fun nd => wr t i { nd with value := 999, low := 0, known := false }) n 0 t

/-- A zero-filled allocation of `n` nodes. -/
def calloc (n : Nat) : Mem Node := fun i => if i < n then some ⟨none, 0, 0, false⟩ else none

/-- `opj_tgt_create`, `tgt.rs:50-141`: the number of nodes and the nodes; `some none` is a null result.
Forming the address one past the nodes (`tgt.rs:103-106` for a single leaf) is allowed. -/
def create (m : Mode) (w h : Nat) : Option (Option (Nat × Mem Node)) :=
  (levels m 31 w h).bind fun ls =>
  let n := (ls.map fun p => p.1 * p.2).sum % 2 ^ 32
  if n = 0 then some none
  else
    (linkLevels ls (calloc n) 0 (w * h % 2 ^ 32) (w * h % 2 ^ 32)).bind fun (t, node) =>
    (t node).bind fun nd => (wr t node { nd with parent := none }).bind fun t =>
    (reset n t).map fun t => some (n, t)

/-! ## Values -/

/-- `opj_tgt_setvalue`, `tgt.rs:289-300`. The climb is bounded by `fuel`; `none` when it has not ended. -/
def setvalueLoop : Nat → Mem Node → Nat → Int → Option (Mem Node)
  | 0, _, _, _ => none
  | fuel + 1, t, i, v =>
    (t i).bind fun nd =>
    if nd.value > v then
      (wr t i { nd with value := v }).bind fun t =>
      match nd.parent with
      | none => some t
      | some p => setvalueLoop fuel t p v
    else some t

/-- A tree with at most 2^30 leaves has at most 31 levels. -/
def setvalue (t : Mem Node) (leaf : Nat) (v : Int) : Option (Mem Node) := setvalueLoop 32 t leaf v

/-! ## Coding -/

/-- The climb to the root, `tgt.rs:312-319` and `358-365`: the root and the stack, last pushed first. `room` is
the free space of the 31-entry stack. -/
def climb (t : Mem Node) : Nat → Nat → List Nat → Option (Nat × List Nat)
  | room, i, stk =>
    (t i).bind fun nd =>
    match nd.parent with
    | none => some (i, stk)
    | some p =>
      match room with
      | 0 => none
      | room + 1 => climb t room p (i :: stk)

/-- The `while low < threshold` loop of `opj_tgt_encode`, `tgt.rs:327-338`; the first argument is
`threshold - low`. -/
def encLoop : Nat → Bio → Node → Int → Option (Bio × Node × Int)
  | 0, s, nd, low => some (s, nd, low)
  | k + 1, s, nd, low =>
    if low ≥ nd.value then
      if nd.known then some (s, nd, low)
      else (putbit s 1).map fun s => (s, { nd with known := true }, low)
    else (putbit s 0).bind fun s => encLoop k s nd (low + 1)

/-- The node loop of `opj_tgt_encode`, `tgt.rs:320-345`, over the nodes from the root to the leaf. -/
def encPath (thr : Int) : Bio → Mem Node → Int → List Nat → Option (Bio × Mem Node)
  | s, t, _, [] => some (s, t)
  | s, t, low, i :: is =>
    (t i).bind fun nd =>
    let low := if low > nd.low then low else nd.low
    (encLoop (thr - low).toNat s nd low).bind fun (s, nd, low) =>
    (wr t i { nd with low := low }).bind fun t => encPath thr s t low is

/-- `opj_tgt_encode`, `tgt.rs:302-346`. -/
def encode (s : Bio) (t : Mem Node) (leaf : Nat) (thr : Int) : Option (Bio × Mem Node) :=
  (climb t 31 leaf []).bind fun (root, stk) => encPath thr s t 0 (root :: stk)

/-- The loop of `opj_tgt_decode`, `tgt.rs:373-379`; the first argument is `threshold - low`. Reading a 1 sets
`value` to `low`, which ends the loop. -/
def decLoop : Nat → Bio → Node → Int → Option (Bio × Node × Int)
  | 0, s, nd, low => some (s, nd, low)
  | k + 1, s, nd, low =>
    if low < nd.value then
      (read s 1).bind fun (b, s) =>
      if b ≠ 0 then some (s, { nd with value := low }, low) else decLoop k s nd (low + 1)
    else some (s, nd, low)

/-- The node loop of `opj_tgt_decode`, `tgt.rs:366-386`. -/
def decPath (thr : Int) : Bio → Mem Node → Int → List Nat → Option (Bio × Mem Node)
  | s, t, _, [] => some (s, t)
  | s, t, low, i :: is =>
    (t i).bind fun nd =>
    let low := if low > nd.low then low else nd.low
    (decLoop (thr - low).toNat s nd low).bind fun (s, nd, low) =>
    (wr t i { nd with low := low }).bind fun t => decPath thr s t low is

/-- `opj_tgt_decode`, `tgt.rs:348-392`. The answer is `value < threshold` at the leaf. -/
def decode (s : Bio) (t : Mem Node) (leaf : Nat) (thr : Int) : Option (Bool × Bio × Mem Node) :=
  (climb t 31 leaf []).bind fun (root, stk) =>
  (decPath thr s t 0 (root :: stk)).bind fun (s, t) =>
  (t leaf).map fun nd => (decide (nd.value < thr), s, t)

/-- The caller's loop in `opj_t2_read_packet_header`, `t2.rs`: `i = 0; while !decode(tree, leaf, i) { i += 1 }`.
Bounded by `fuel`. -/
def firstTrue : Nat → Int → Bio → Mem Node → Nat → Option (Int × Bio × Mem Node)
  | 0, _, _, _, _ => none
  | fuel + 1, i, s, t, leaf =>
    (decode s t leaf i).bind fun (b, s, t) => if b then some (i, s, t) else firstTrue fuel (i + 1) s t leaf

end Jp2.Tgt

import Verif.Jp2.T1
import Verif.Jp2.T1Std
/-!
# Specification: from the decisions of the standard to bytes, and back

The arithmetic and raw coders are those of `Mqc.lean`; their correctness is C32-C34.
-/
namespace Jp2.T1.Std
open Jp2.Mqc (Mqc startCtxs)

/-- The block of `w` by `h` coefficients `px y x` with six fractional bits. The most negative integer counts as the one above
it. -/
def blockOf (o w h : Nat) (causal : Bool) (px : Nat → Nat → Int) : Block where
  w := w
  h := h
  band := o
  causal := causal
  mag y x := min (px y x).natAbs (2 ^ 31 - 1) / 64
  neg y x := decide (px y x < 0)

/-! ## Coding -/

/-- Decisions go to the coder. -/
def send : Mqc → List Dcs → Option Mqc
  | s, [] => some s
  | s, (some cx, d) :: l => (Mqc.encode s cx d).bind fun s => send s l
  | s, (none, d) :: l => (Mqc.bypassEnc s d).bind fun s => send s l

/-- Termination of the coder, D.4.2, with or without predictable termination. -/
def close (raw pterm : Bool) (s : Mqc) : Option Mqc :=
  if raw then Mqc.bypassFlushEnc s pterm else if pterm then Mqc.ertermEnc s else Mqc.flush s

/-- The passes of a block of `n` planes; `fresh`: the coder has to be started anew first. -/
def code (st : Style) (n : Nat) : Bool → Mqc → List CPass → Option Mqc
  | _, s, [] => some s
  | fresh, s, p :: l =>
    (if fresh then if p.raw then Mqc.bypassInitEnc s else Mqc.restartInitEnc s else some s).bind fun s =>
    (send s p.dcs).bind fun s =>
    (if ends st.bypass st.termall n p.b p.t then close p.raw st.pterm s else some s).bind fun s =>
    code st n (ends st.bypass st.termall n p.b p.t) (if st.reset then { s with ctxs := startCtxs } else s) l

/-! ## Decoding -/

/-- The decoder finds these decisions. -/
def receive : Mqc → List Dcs → Option Mqc
  | s, [] => some s
  | s, (some cx, d) :: l => (Mqc.decode s cx).bind fun (d', s) => if d' = d then receive s l else none
  | s, (none, d) :: l => (Mqc.rawDecode s).bind fun (d', s) => if d' = d then receive s l else none

/-- Passes of one segment. Contexts are reset after each but raw ones, which do not change them. -/
def receiveAll (reset : Bool) : Mqc → List CPass → Option Mqc
  | s, [] => some s
  | s, p :: l => (receive s p.dcs).bind fun s => receiveAll reset (if reset && !p.raw then { s with ctxs := startCtxs } else s) l

/-- Segments, each with its length in bytes and the passes coded in it, all raw or all not raw, found one after the other
in `buf`. -/
def receiveSegs (st : Style) (buf : List UInt8) : Nat → List Nat → List (Nat × List CPass) → Bool
  | _, _, [] => true
  | _, _, (_, []) :: _ => false
  | pos, ctxs, (len, p :: ps) :: l =>
    ps.all (fun q => q.raw == p.raw) &&
    match (if p.raw then Mqc.rawInitDec buf pos len ctxs else Mqc.initDec buf pos len ctxs).bind fun c => receiveAll st.reset c (p :: ps) with
    | none => false
    | some c => receiveSegs st buf (pos + len) c.ctxs l

end Jp2.T1.Std

import Verif.Jp2.Extra
/-!
# The extra options there are
-/
namespace Jp2.Setup

/-- An option. -/
inductive Opt
  | plt (on : Bool)
  | tlm (on : Bool)
  | guard (n : Nat)
deriving DecidableEq

def ascii (s : List Char) : List UInt8 := s.map fun c => c.toNat.toUInt8

/-- Its text. -/
def Opt.text : Opt → List UInt8
  | .plt true => ascii ['P', 'L', 'T', '=', 'Y', 'E', 'S']
  | .plt false => ascii ['P', 'L', 'T', '=', 'N', 'O']
  | .tlm true => ascii ['T', 'L', 'M', '=', 'Y', 'E', 'S']
  | .tlm false => ascii ['T', 'L', 'M', '=', 'N', 'O']
  | .guard n => ascii ['G', 'U', 'A', 'R', 'D', '_', 'B', 'I', 'T', 'S', '=', Char.ofNat ('0'.toNat + n)]

/-- There are at most seven guard bits. -/
def Opt.Valid : Opt → Prop
  | .guard n => n ≤ 7
  | _ => True

/-- The last of the options counts. -/
def lastPlt (a : Bool) (l : List Opt) : Bool := l.foldl (fun a o => match o with | .plt b => b | _ => a) a
def lastTlm (a : Bool) (l : List Opt) : Bool := l.foldl (fun a o => match o with | .tlm b => b | _ => a) a
def lastGuard (a : Option Nat) (l : List Opt) : Option Nat := l.foldl (fun a o => match o with | .guard n => some n | _ => a) a

/-- The component with other guard bits, if there are any. -/
def withGuard (g : Option Nat) (t : Hdr.Tccp) : Hdr.Tccp := { t with numgbits := g.getD t.numgbits }

/-- The decimal numeral `t` stands for `v`: digits, perhaps behind a sign. -/
def Numeral (t : List UInt8) (v : Int) : Prop :=
  ∃ (s : List UInt8) (ds : List Nat), ds ≠ [] ∧ (∀ d ∈ ds, d ≤ 9) ∧ t = s ++ ds.map (fun d => (48 + d).toUInt8) ∧
    ((s = [] ∨ s = ascii ['+']) ∧ v = (ds.foldl (fun a d => 10 * a + d) 0 : Nat) ∨ s = ascii ['-'] ∧ v = -(ds.foldl (fun a d => 10 * a + d) 0 : Nat))

end Jp2.Setup

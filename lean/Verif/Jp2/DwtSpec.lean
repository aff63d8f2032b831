/-!
# Specification of the reversible 5/3 transform

Independent of the code: the lifting equations of ITU-T T.800 Annex F on a line of samples, with
symmetric extension at the ends. A line starting at an even coordinate has `cas = 0`, at an odd one
`cas = 1`; sample `k` is a high-pass position when its coordinate is odd.
-/
namespace Jp2.Dwt

/-- Left and right neighbour of sample `k` on a line of `n` samples, mirrored at the ends. -/
def lft (k : Nat) : Nat := if k = 0 then 1 else k - 1
def rgt (n k : Nat) : Nat := if k + 1 = n then k - 1 else k + 1

/-- The high-pass value at `k`: the sample minus the rounded-down mean of its neighbours. -/
def predict (n : Nat) (x : Nat → Int) (k : Nat) : Int := x k - (x (lft k) + x (rgt n k)) / 2

/-- The transformed line, still interleaved. -/
def lift (n cas : Nat) (x : Nat → Int) (k : Nat) : Int :=
  if n = 1 then (if cas = 0 then x k else 2 * x k)
  else if (k + cas) % 2 = 1 then predict n x k
  else x k + (predict n x (lft k) + predict n x (rgt n k) + 2) / 4

/-- Number of low-pass samples of a line of `n` samples. -/
def lowCount (n cas : Nat) : Nat := (n + (1 - cas)) / 2

/-- Where the `i`-th output sample (all low-pass samples, then all high-pass samples) sits on the line. -/
def pos (sn cas i : Nat) : Nat := if i < sn then 2 * i + cas else 2 * (i - sn) + (1 - cas)

/-- The forward transform of a line. -/
def fwd1 (n cas : Nat) (x : Nat → Int) (i : Nat) : Int := lift n cas x (pos (lowCount n cas) cas i)

end Jp2.Dwt

/-!
# What block coding should do
-/
namespace Jp2.T1

/-- A coefficient `x` with six fractional bits as reconstructed when the bit planes below `e` are missing: in halves, the
magnitude bits kept and half a step. The most negative integer counts as the one above it. -/
def recon (e : Nat) (x : Int) : Int :=
  let m := min x.natAbs (2 ^ 31 - 1) / 64 / 2 ^ e
  if m = 0 then 0 else x.sign * ((2 * m + 1) * 2 ^ e)

end Jp2.T1

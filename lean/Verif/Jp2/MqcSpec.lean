import Verif.Jp2.Mqc
/-!
# Specification: the probability state machine of ISO/IEC 15444-1, Table C.2

Written from the standard, not from the code.
-/
namespace Jp2.Mqc

/-- Table C.2: for each index, `Qe`, `NMPS`, `NLPS` and `SWITCH`. -/
def tableC2 : List (Nat × Nat × Nat × Nat) := [
  (0x5601, 1, 1, 1), (0x3401, 2, 6, 0), (0x1801, 3, 9, 0), (0x0AC1, 4, 12, 0),
  (0x0521, 5, 29, 0), (0x0221, 38, 33, 0), (0x5601, 7, 6, 1), (0x5401, 8, 14, 0),
  (0x4801, 9, 14, 0), (0x3801, 10, 14, 0), (0x3001, 11, 17, 0), (0x2401, 12, 18, 0),
  (0x1C01, 13, 20, 0), (0x1601, 29, 21, 0), (0x5601, 15, 14, 1), (0x5401, 16, 14, 0),
  (0x5101, 17, 15, 0), (0x4801, 18, 16, 0), (0x3801, 19, 17, 0), (0x3401, 20, 18, 0),
  (0x3001, 21, 19, 0), (0x2801, 22, 19, 0), (0x2401, 23, 20, 0), (0x2201, 24, 21, 0),
  (0x1C01, 25, 22, 0), (0x1801, 26, 23, 0), (0x1601, 27, 24, 0), (0x1401, 28, 25, 0),
  (0x1201, 29, 26, 0), (0x1101, 30, 27, 0), (0x0AC1, 31, 28, 0), (0x09C1, 32, 29, 0),
  (0x08A1, 33, 30, 0), (0x0521, 34, 31, 0), (0x0441, 35, 32, 0), (0x02A1, 36, 33, 0),
  (0x0221, 37, 34, 0), (0x0141, 38, 35, 0), (0x0111, 39, 36, 0), (0x0085, 40, 37, 0),
  (0x0049, 41, 38, 0), (0x0025, 42, 39, 0), (0x0015, 43, 40, 0), (0x0009, 44, 41, 0),
  (0x0005, 45, 42, 0), (0x0001, 45, 43, 0), (0x5601, 46, 46, 0)]

/-- The index and sense of the more probable symbol after coding one decision that caused a renormalisation, C.2.5 and C.2.6:
the more probable symbol moves to `NMPS`; the less probable one to `NLPS`, and the sense changes if `SWITCH` is set. -/
def nextC2 (i mps d : Nat) : Option (Nat × Nat) :=
  (tableC2[i]?).map fun (_, nm, nl, sw) => if d = mps then (nm, mps) else (nl, if sw = 1 then 1 - mps else mps)

/-- Table D.7: the index each of the 19 contexts starts with. Contexts 0 to 8 are zero coding, 9 to 13 sign, 14 to 16 magnitude,
17 run length, 18 uniform. -/
def tableD7 (cx : Nat) : Nat := if cx = 0 then 4 else if cx = 17 then 3 else if cx = 18 then 46 else 0

end Jp2.Mqc

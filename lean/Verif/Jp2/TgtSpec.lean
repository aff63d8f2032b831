/-!
# What a tag tree over `w × h` leaves is

Level 0 is the leaves in raster order; each level halves both dimensions, rounding up, until one node is left.
-/
namespace Jp2.Tgt

/-- The number of nodes across `n` leaves at level `l`: `n / 2^l` rounded up. -/
def across (n l : Nat) : Nat := (n + 2 ^ l - 1) / 2 ^ l

/-- The number of nodes on the levels below `l`. -/
def below (w h l : Nat) : Nat := ((List.range l).map fun i => across w i * across h i).sum

/-- The index of the node in column `x`, row `y` of level `l`. -/
def nodeAt (w h l x y : Nat) : Nat := below w h l + y * across w l + x

/-- `L` is the number of levels: the first single-node level is `L - 1`. -/
def IsDepth (w h L : Nat) : Prop :=
  0 < L ∧ across w (L - 1) * across h (L - 1) = 1 ∧ ∀ l, l < L - 1 → 1 < across w l * across h l

end Jp2.Tgt

import Verif.Jp2.Area
import Verif.Jp2.TcdSpec
/-!
# What it means to decode an area

Sample `(u, v)` of a component whose samples are `dx` and `dy` points apart, decoded at a resolution reduced by `2^r`, lies at
the point `(u·dx·2^r, v·dy·2^r)` of the reference grid.
-/
namespace Jp2.Area

/-- The `w` positions from `a` on are those that lie in `[x0, x1)` when `step` points apart. -/
def Covers (a w x0 x1 step : Nat) : Prop := ∀ u : Nat, (a ≤ u ∧ u < a + w) ↔ (x0 ≤ u * step ∧ u * step < x1)

/-- The component has exactly the samples of the plane `P` that lie in the box, row by row. -/
def Holds (P : Int → Int → Int) (b : Box) (dx dy r : Nat) (c : Comp) : Prop :=
  ∃ (a e : Nat) (buf : List (Option Int)), c.data = some buf ∧ c.w * c.h ≤ buf.length ∧
    Covers a c.w b.x0 b.x1 (dx * 2 ^ r) ∧ Covers e c.h b.y0 b.y1 (dy * 2 ^ r) ∧
    ∀ i j : Nat, i < c.w → j < c.h → buf[j * c.w + i]? = some (some (P (a + i : Nat) (e + j : Nat)))

/-- The box has a sample of the component. -/
def HasSample (b : Box) (dx dy r : Nat) : Prop :=
  (∃ u : Nat, b.x0 ≤ u * (dx * 2 ^ r) ∧ u * (dx * 2 ^ r) < b.x1) ∧ ∃ v : Nat, b.y0 ≤ v * (dy * 2 ^ r) ∧ v * (dy * 2 ^ r) < b.y1

/-- The component that comes `k`-th when the components `sel` are asked for (all of them if the list is empty). -/
def asked (sel : List Nat) (k : Nat) : Option Nat := if sel = [] then some k else sel[k]?

/-- A point of the image lies in tile `n`. -/
def InTile (p : Tcd.Params) (n x y : Nat) : Prop :=
  (p.x0 ≤ x ∧ x < p.x1) ∧ (p.y0 ≤ y ∧ y < p.y1) ∧
  (p.cpTx0 + n % p.tw * p.tdx ≤ x ∧ x < p.cpTx0 + (n % p.tw + 1) * p.tdx) ∧
  p.cpTy0 + n / p.tw * p.tdy ≤ y ∧ y < p.cpTy0 + (n / p.tw + 1) * p.tdy

/-- The planes `Q` have the samples of `P` that lie in tile `n`. -/
def Agrees (p : Tcd.Params) (r : Nat) (P Q : Nat → Int → Int → Int) (n : Nat) : Prop :=
  ∀ (i : Nat) (c : Tcd.CompP), p.comps[i]? = some c → ∀ u v : Nat, InTile p n (u * (c.dx * 2 ^ r)) (v * (c.dy * 2 ^ r)) → Q i u v = P i u v

/-- A point lies in the box. -/
def Box.has (b : Box) (x y : Nat) : Prop := (b.x0 ≤ x ∧ x < b.x1) ∧ b.y0 ≤ y ∧ y < b.y1

end Jp2.Area

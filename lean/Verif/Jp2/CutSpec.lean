import Verif.Jp2.Cut
import Verif.Jp2.TcdSpec
import Verif.Jp2.TcdShape
/-!
# What the samples of a tile are
-/
namespace Jp2.Cut
open Jp2.Tcd (Rect CompP cdiv compRect)
open Jp2.Area (render)

/-- The image area of the parameters. -/
def area (q : Tcd.Params) : Rect := ⟨q.x0, q.y0, q.x1, q.y1⟩

/-- The component has the samples of the plane `P` that lie in the image, row by row. -/
structure Shows (q : Tcd.Params) (P : Int → Int → Int) (p : CompP) (c : CompI) : Prop where
  dx : c.dx = p.dx
  dy : c.dy = p.dy
  data : c.data = render P (compRect (area q) p)

/-- Samples that survive the buffer of bytes: without sign and in the range of a precision of at most 16 bits, or in 32 bits if the
precision is from 17 to 32. -/
def Keeps (c : CompI) : Prop :=
  (1 ≤ c.prec ∧ c.prec ≤ 16 ∧ ∀ v ∈ c.data, 0 ≤ v ∧ v < 2 ^ c.prec) ∨ (16 < c.prec ∧ c.prec ≤ 32 ∧ ∀ v ∈ c.data, -2 ^ 31 ≤ v ∧ v < 2 ^ 31)

/-- The width the code takes the image to have is its width in samples, and its samples can be counted in 32 bits. -/
def Aligned (q : Tcd.Params) (p : CompP) : Prop :=
  cdiv ((q.x1 : Int) - q.x0) p.dx = cdiv q.x1 p.dx - cdiv q.x0 p.dx ∧
  (cdiv q.x1 p.dx - cdiv q.x0 p.dx) * (cdiv q.y1 p.dy - cdiv q.y0 p.dy) < 2 ^ 32

/-- The components of the image with those of the coding parameters and their planes. -/
inductive ShowsAll (q : Tcd.Params) : List CompP → List CompI → List (Int → Int → Int) → Prop
  | nil : ShowsAll q [] [] []
  | cons {p ps c cs P Ps} : Shows q P p c → ShowsAll q ps cs Ps → ShowsAll q (p :: ps) (c :: cs) (P :: Ps)

/-- The samples of every plane that lie in the tile-component. -/
def tileSamples (t : Rect) : List CompP → List (Int → Int → Int) → List (List Int)
  | p :: ps, P :: Ps => render P (compRect t p) :: tileSamples t ps Ps
  | _, _ => []

end Jp2.Cut

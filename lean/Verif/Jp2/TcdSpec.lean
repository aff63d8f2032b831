import Verif.Jp2.Tcd
/-!
# What the structure of a tile has to be (ISO/IEC 15444-1 Annex B)

Everything here is about the data structure itself: which coefficients its code blocks hold, and where a
coefficient sits on the sample grid of its tile-component.
-/
namespace Jp2.Tcd

/-- A component within the limits of the codestream syntax: subsampling 1..255 (`SIZ`), at most 32
decomposition levels, precinct exponents of four bits, not 0 above the lowest resolution (`COD`, `COC`). -/
structure CompFit (c : CompP) : Prop where
  dx : 0 < c.dx ∧ c.dx ≤ 255
  dy : 0 < c.dy ∧ c.dy ≤ 255
  res : 0 < c.prc.length ∧ c.prc.length ≤ 33
  pd : ∀ r q, c.prc[r]? = some q → q.1 ≤ 15 ∧ q.2 ≤ 15 ∧ (r ≠ 0 → 1 ≤ q.1 ∧ 1 ≤ q.2)

/-- Parameters within the limits of the codestream syntax, for a tile of the grid. -/
structure Fit (p : Params) (n : Nat) : Prop where
  tw : 0 < p.tw
  gx : p.cpTx0 + n % p.tw * p.tdx < 2 ^ 32
  gy : p.cpTy0 + n / p.tw * p.tdy < 2 ^ 32
  tdx : p.tdx < 2 ^ 32
  tdy : p.tdy < 2 ^ 32
  x0 : p.x0 < 2 ^ 32
  y0 : p.y0 < 2 ^ 32
  x1 : p.x1 < 2 ^ 32
  y1 : p.y1 < 2 ^ 32
  ne : p.comps ≠ []
  comps : ∀ c ∈ p.comps, CompFit c
  szPrec : 0 < p.szPrec
  szBlk : 0 < p.szBlk

/-- The tile grid of a codestream (B.3): it starts at or before the image area, its first tile meets the
image area, and `tw × th` tiles are what it takes to cover it. -/
structure Grid (p : Params) (th : Nat) : Prop where
  x : p.cpTx0 ≤ p.x0 ∧ p.x0 < p.cpTx0 + p.tdx ∧ p.x0 < p.x1
  y : p.cpTy0 ≤ p.y0 ∧ p.y0 < p.cpTy0 + p.tdy ∧ p.y0 < p.y1
  tw : p.tw = (p.x1 - p.cpTx0 + p.tdx - 1) / p.tdx
  th : th = (p.y1 - p.cpTy0 + p.tdy - 1) / p.tdy

/-- The conditions under which every resolution of a tile fits: the image ends `2^15` before `2^31`, and
neither the precincts of a resolution nor the code blocks of a precinct can need `2^32` bytes. -/
structure Small (p : Params) : Prop where
  x1 : p.x1 + 2 ^ 15 ≤ 2 ^ 31
  y1 : p.y1 + 2 ^ 15 ≤ 2 ^ 31
  prec : ∀ c ∈ p.comps, ∀ pd ∈ c.prc, (p.x1 / 2 ^ pd.1 + 1) * (p.y1 / 2 ^ pd.2 + 1) * p.szPrec < 2 ^ 32
  blk : ∀ c ∈ p.comps, ∀ pd ∈ c.prc, 2 ^ (pd.1 - c.cblkw) * 2 ^ (pd.2 - c.cblkh) * p.szBlk < 2 ^ 32

/-- `(x, y)` lies in the rectangle. -/
def Rect.has (r : Rect) (x y : Int) : Prop := r.x0 ≤ x ∧ x < r.x1 ∧ r.y0 ≤ y ∧ y < r.y1

/-- The address of a coefficient: resolution, band of the resolution (counted from 0), precinct, code
block, and the coordinates in the band. -/
structure Coef where
  res : Nat
  band : Nat
  prec : Nat
  blk : Nat
  u : Int
  v : Int

/-- The tile-component has a code block with this address and the coefficient lies in it. -/
def Coef.inBlock (t : TileC) (q : Coef) : Prop :=
  ∃ r b k c, t.ress[q.res]? = some r ∧ r.bands[q.band]? = some b ∧ b.precs[q.prec]? = some k ∧
    k.cblks[q.blk]? = some c ∧ c.has q.u q.v

/-- Where a coefficient sits on the sample grid of a tile-component with `L` decomposition levels (B.5).
The samples of resolution `r` are `2^(L-r)` apart. The lowest resolution is the LL band; at the others,
bands 0, 1, 2 are HL, LH, HH: HL holds the odd columns, LH the odd rows, HH what is odd both ways. -/
def Coef.pos (L : Nat) (q : Coef) : Int × Int :=
  if q.res = 0 then (2 ^ L * q.u, 2 ^ L * q.v)
  else (2 ^ (L - q.res) * (2 * q.u + if q.band = 1 then 0 else 1), 2 ^ (L - q.res) * (2 * q.v + if q.band = 0 then 0 else 1))

end Jp2.Tcd

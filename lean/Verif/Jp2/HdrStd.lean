import Verif.Jp2.HdrSpec
/-!
# Marker segments as Annex A of ITU-T T.800 spells them out

Independent of the encoder: what the bytes of a segment mean.
-/
namespace Jp2.Hdr

/-- A component number: one byte with fewer than 257 components, else two (Tables A.16, A.23, A.31, A.32). -/
def compNumber (csiz i : Nat) : List UInt8 := if csiz < 257 then be 1 i else be 2 i

/-! ## Coding style (Tables A.15 to A.23) -/

/-- The coding style of a component: decomposition levels, exponents of the code-block size, style of the coding
passes, transform, and the exponents of the precinct sizes if they are given. -/
structure Style where
  levels : Nat
  xcb : Nat
  ycb : Nat
  modes : Nat
  reversible : Bool
  precincts : Option (List (Nat × Nat)) := none

/-- The bytes of `SPcod` and `SPcoc`. -/
def Style.bytes (s : Style) : List UInt8 :=
  be 1 s.levels ++ be 1 (s.xcb - 2) ++ be 1 (s.ycb - 2) ++ be 1 s.modes ++ be 1 (if s.reversible then 1 else 0) ++
    match s.precincts with
    | none => []
    | some l => l.flatMap fun q => be 1 (q.1 + 16 * q.2)

/-- `Scoc`. -/
def Style.scoc (s : Style) : Nat := if s.precincts.isSome then 1 else 0

/-- The precinct size of resolution `r`: the largest one unless it is given. -/
def Style.precinct (s : Style) (r : Nat) : Option (Nat × Nat) :=
  match s.precincts with
  | none => some (15, 15)
  | some l => l[r]?

/-- Within the limits of the standard. -/
structure Style.Valid (s : Style) : Prop where
  levels : s.levels ≤ 32
  xcb : 2 ≤ s.xcb ∧ s.xcb ≤ 10
  ycb : 2 ≤ s.ycb ∧ s.ycb ≤ 10
  block : s.xcb + s.ycb ≤ 12
  modes : s.modes < 128
  number : ∀ l, s.precincts = some l → l.length = s.levels + 1
  precincts : ∀ l, s.precincts = some l → ∀ r q, l[r]? = some q → q.1 ≤ 15 ∧ q.2 ≤ 15 ∧ (0 < r → 0 < q.1 ∧ 0 < q.2)

/-- The body of `COC`. -/
def cocBody (csiz i : Nat) (s : Style) : List UInt8 := compNumber csiz i ++ be 1 s.scoc ++ s.bytes

/-! ## Quantization (Tables A.27 to A.31) -/

/-- How step sizes are given: exponents only, exponent and mantissa of the lowest band, or of every band. -/
inductive Steps where
  | none (exps : List Nat)
  | derived (exp mant : Nat)
  | expounded (steps : List (Nat × Nat))
deriving DecidableEq

/-- Guard bits and step sizes. -/
structure Quant where
  guard : Nat
  steps : Steps
deriving DecidableEq

/-- The low five bits of `Sqcd`. -/
def Steps.tag : Steps → Nat
  | .none _ => 0
  | .derived _ _ => 1
  | .expounded _ => 2

/-- The bytes of `SPqcd`. -/
def Steps.bytes : Steps → List UInt8
  | .none l => l.flatMap fun e => be 1 (8 * e)
  | .derived e m => be 2 (2048 * e + m)
  | .expounded l => l.flatMap fun s => be 2 (2048 * s.1 + s.2)

/-- The bytes of `Sqcd`, `SPqcd` and of `Sqcc`, `SPqcc`. -/
def Quant.bytes (q : Quant) : List UInt8 := be 1 (32 * q.guard + q.steps.tag) ++ q.steps.bytes

/-- Exponent and mantissa of band `b` (equation E-5: one less per level above the lowest). -/
def Steps.step (levels : Nat) : Steps → Nat → Option (Nat × Nat)
  | .none l, b => (l[b]?).map fun e => (e, 0)
  | .derived e m, b => if b ≤ 3 * levels then some (e - (b - 1) / 3, m) else Option.none
  | .expounded l, b => l[b]?

/-- Within the limits of the standard, for `levels` decomposition levels. -/
def Steps.Valid (levels : Nat) : Steps → Prop
  | .none l => l.length = 3 * levels + 1 ∧ ∀ e ∈ l, e ≤ 31
  | .derived e m => e ≤ 31 ∧ m ≤ 2047
  | .expounded l => l.length = 3 * levels + 1 ∧ ∀ s ∈ l, s.1 ≤ 31 ∧ s.2 ≤ 2047

/-- Within the limits of the standard. -/
def Quant.Valid (levels : Nat) (q : Quant) : Prop := levels ≤ 32 ∧ q.guard ≤ 7 ∧ q.steps.Valid levels

/-- The body of `QCC`. -/
def qccBodyStd (csiz i : Nat) (q : Quant) : List UInt8 := compNumber csiz i ++ q.bytes

/-! ## Region of interest (Table A.24) -/

/-- The body of `RGN`. -/
def rgnBodyStd (csiz i shift : Nat) : List UInt8 := compNumber csiz i ++ be 1 0 ++ be 1 shift

/-! ## Progression order changes (Table A.32) -/

/-- A progression order change: first resolution and component, the layer, resolution and component it ends before,
and the order. -/
structure Change where
  rs : Nat
  cs : Nat
  lye : Nat
  re : Nat
  ce : Nat
  order : Nat

/-- The bytes of a change. -/
def Change.bytes (csiz : Nat) (c : Change) : List UInt8 :=
  be 1 c.rs ++ compNumber csiz c.cs ++ be 2 c.lye ++ be 1 c.re ++ compNumber csiz c.ce ++ be 1 c.order

/-- A change for an image with `csiz` components. The end of the components must have a number of its own: with 256
components an end of 256 has none (the standard writes 0). -/
structure Change.Valid (csiz layers : Nat) (c : Change) : Prop where
  rs : c.rs < c.re
  re : c.re ≤ 33
  cs : c.cs < c.ce
  ce : c.ce ≤ csiz ∧ c.ce < (if csiz < 257 then 256 else 16384)
  lye : 1 ≤ c.lye ∧ c.lye ≤ layers
  order : c.order ≤ 4

/-! ## Bit depths (Part 2, Table A.10) -/

/-- A progression order change as the packet iterators get it. -/
def Change.poc (c : Change) : Pi.Poc :=
  { resno0 := c.rs, compno0 := c.cs, layno1 := c.lye, resno1 := c.re, compno1 := c.ce, prg := c.order }

/-- The components with the precisions of a `CBD`. -/
def withDepths (cs : List Comp) (l : List (Bool × Nat)) : List Comp :=
  List.zipWith (fun c x => { c with sgnd := if x.1 then 1 else 0, prec := x.2 }) cs l

/-- The body of `CBD`: for each component whether it is signed, and its precision. -/
def cbdBody (l : List (Bool × Nat)) : List UInt8 :=
  be 2 l.length ++ l.flatMap fun x => be 1 ((if x.1 then 128 else 0) + (x.2 - 1))

/-! ## Streams -/

/-- A codestream up to some bytes behind its first `SOT` marker: `SOC`, the marker segments, `SOT`. -/
def stream (segs : List (Nat × List UInt8)) (rest : List UInt8) : List UInt8 :=
  be 2 0xFF4F ++ ((segs.flatMap fun s => segment s.1 s.2) ++ (be 2 0xFF90 ++ rest))

/-- Marker segments of known kinds whose length fits its field. -/
def Known (segs : List (Nat × List UInt8)) : Prop :=
  ∀ s ∈ segs, s.1 < 65536 ∧ 0xFF00 ≤ s.1 ∧ known s.1 = true ∧ s.1 ≠ 0xFF90 ∧ s.2.length + 2 < 65536

/-! ## The main header of a set of parameters -/

/-- The coding style of a component the encoder has been given. -/
def styleOf (t : Tccp) : Style :=
  ⟨t.numres - 1, t.cblkw, t.cblkh, t.cblksty, t.qmfbid == 1, if t.csty % 2 = 1 then some (t.prcs.take t.numres) else none⟩

/-- Its quantization. -/
def quantOf (t : Tccp) : Quant :=
  ⟨t.numgbits,
    if t.qntsty = 0 then .none ((t.steps.take (3 * t.numres - 2)).map Prod.fst)
    else if t.qntsty = 1 then .derived (t.steps.headD (0, 0)).1 (t.steps.headD (0, 0)).2
    else .expounded (t.steps.take (3 * t.numres - 2))⟩

/-- `SIZ` (Tables A.9 to A.11). -/
def stdSiz (e : Enc) : List UInt8 :=
  segment 0xFF51 (be 2 e.rsiz ++ be 4 e.x1 ++ be 4 e.y1 ++ be 4 e.x0 ++ be 4 e.y0 ++ be 4 e.tdx ++ be 4 e.tdy ++ be 4 e.tx0 ++
    be 4 e.ty0 ++ be 2 e.comps.length ++ e.comps.flatMap fun c => be 1 (c.prec - 1 + 128 * c.sgnd) ++ be 1 c.dx ++ be 1 c.dy)

/-- `COD` (Tables A.12 to A.15), with the style of component `t`. -/
def stdCod (e : Enc) (t : Tccp) : List UInt8 :=
  segment 0xFF52 (be 1 e.csty ++ be 1 e.prg ++ be 2 e.numlayers ++ be 1 e.mct ++ (styleOf t).bytes)

/-- `QCD`. -/
def stdQcd (t : Tccp) : List UInt8 := segment 0xFF5C (quantOf t).bytes

/-- `QCC` for every component, numbered from `i`, whose quantization is not that of `t0`. -/
def stdQccs (csiz : Nat) (t0 : Tccp) : Nat → List Tccp → List UInt8
  | _, [] => []
  | i, t :: ts =>
    (if quantOf t = quantOf t0 then [] else segment 0xFF5D (qccBodyStd csiz i (quantOf t))) ++ stdQccs csiz t0 (i + 1) ts

/-- `RGN` for every component, numbered from `i`, with a region of interest. -/
def stdRgns (csiz : Nat) : Nat → List Tccp → List UInt8
  | _, [] => []
  | i, t :: ts => (if t.roishift = 0 then [] else segment 0xFF5E (rgnBodyStd csiz i t.roishift)) ++ stdRgns csiz (i + 1) ts

/-- `TLM` with room for `n` tile-parts (Table A.33): tile numbers of one or two bytes, lengths of four. -/
def stdTlm : Option Nat → List UInt8
  | none => []
  | some n =>
    if n ≤ 255 then segment 0xFF55 (be 1 0 ++ be 1 0x50 ++ List.replicate (5 * n) 0)
    else segment 0xFF55 (be 1 0 ++ be 1 0x60 ++ List.replicate (6 * n) 0)

/-- `COM` with Latin text (Table A.42). -/
def stdCom : Option (List UInt8) → List UInt8
  | none => []
  | some c => segment 0xFF64 (be 2 1 ++ c)

/-- The main header. -/
def stdHeader (e : Enc) : List UInt8 :=
  match e.tccps with
  | [] => []
  | t :: ts => be 2 0xFF4F ++ stdSiz e ++ stdCod e t ++ stdQcd t ++ stdQccs e.comps.length t 1 ts ++ stdTlm e.tlm ++
      stdRgns e.comps.length 0 (t :: ts) ++ stdCom e.comment

end Jp2.Hdr

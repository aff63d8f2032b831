/-!
# Annex D of ISO/IEC 15444-1: the coding passes of a code block

Written from the standard, without flag words, shortcuts or memory. A decision is a bit with its context label, `none` for a raw
bit. The context labels are numbered as in Table D.7: 0-8 zero coding, 9-13 sign, 14-16 magnitude refinement, 17 run length,
18 uniform.
-/
namespace Jp2.T1.Std

/-- A block: size, sub-band (0 LL, 1 HL, 2 LH, 3 HH), vertically causal contexts or not, magnitudes and signs of the
coefficients. -/
structure Block where
  w : Nat
  h : Nat
  band : Nat
  causal : Bool
  mag : Nat → Nat → Nat
  neg : Nat → Nat → Bool

/-- Of each coefficient (row, column): is it significant, has it been refined, was it coded in the significance pass of the
current bit plane? -/
structure St where
  sig : Nat → Nat → Bool
  ref : Nat → Nat → Bool
  vis : Nat → Nat → Bool

def St.init : St := ⟨fun _ _ => false, fun _ _ => false, fun _ _ => false⟩

/-- `f` with the value at row `y`, column `x` changed to `v`. -/
def put (f : Nat → Nat → Bool) (y x : Nat) (v : Bool) : Nat → Nat → Bool := fun y' x' => if y' = y ∧ x' = x then v else f y' x'

/-- A decision: context label, `none` if raw, and bit. -/
abbrev Dcs := Option Nat × Nat

/-- Part of a coding pass. -/
abbrev Part := St → List Dcs × St
/-- One part after the other. -/
def inOrder : List Part → Part
  | [], s => ([], s)
  | p :: l, s => ((p s).1 ++ (inOrder l (p s).2).1, (inOrder l (p s).2).2)

/-! ## Contexts, D.3 -/

/-- Is the neighbour in row `y + i - 1`, column `x + j - 1` significant, as far as the coefficient at `(y, x)` may know? Outside
the block nothing is; with vertically causal contexts nor is anything in the next stripe (D.7). -/
def near (B : Block) (s : St) (y x i j : Nat) : Bool :=
  decide (1 ≤ y + i ∧ y + i ≤ B.h ∧ 1 ≤ x + j ∧ x + j ≤ B.w) && !(B.causal && i == 2 && y % 4 == 3) && s.sig (y + i - 1) (x + j - 1)

def one (b : Bool) : Nat := if b then 1 else 0

/-- Table D.1. -/
def tableD1 (band H V D : Nat) : Nat :=
  if band = 3 then
    if D ≥ 3 then 8
    else if D = 2 then if H + V ≥ 1 then 7 else 6
    else if D = 1 then if H + V ≥ 2 then 5 else if H + V = 1 then 4 else 3
    else if H + V ≥ 2 then 2 else if H + V = 1 then 1 else 0
  else
    let (H, V) := if band = 1 then (V, H) else (H, V)
    if H = 2 then 8
    else if H = 1 then if V ≥ 1 then 7 else if D ≥ 1 then 6 else 5
    else if V = 2 then 4
    else if V = 1 then 3
    else if D ≥ 2 then 2 else if D = 1 then 1 else 0

/-- The zero coding context of a coefficient. -/
def zc (B : Block) (s : St) (y x : Nat) : Nat :=
  tableD1 B.band (one (near B s y x 1 0) + one (near B s y x 1 2)) (one (near B s y x 0 1) + one (near B s y x 2 1))
    (one (near B s y x 0 0) + one (near B s y x 0 2) + one (near B s y x 2 0) + one (near B s y x 2 2))

/-- A neighbour's contribution to the sign context: 0, 1 or -1. -/
def chi (B : Block) (s : St) (y x i j : Nat) : Int :=
  if near B s y x i j then if B.neg (y + i - 1) (x + j - 1) then -1 else 1 else 0

/-- Table D.2: two neighbours together. -/
def tableD2 (a b : Int) : Int := max (-1) (min 1 (a + b))

/-- Table D.3: context and the bit to be added. -/
def tableD3 (H V : Int) : Nat × Nat :=
  if H = 1 then if V = 1 then (13, 0) else if V = 0 then (12, 0) else (11, 0)
  else if H = 0 then if V = 1 then (10, 0) else if V = 0 then (9, 0) else (10, 1)
  else if V = 1 then (11, 1) else if V = 0 then (12, 1) else (13, 1)

/-- The sign context of a coefficient. -/
def sc (B : Block) (s : St) (y x : Nat) : Nat × Nat :=
  tableD3 (tableD2 (chi B s y x 1 0) (chi B s y x 1 2)) (tableD2 (chi B s y x 0 1) (chi B s y x 2 1))

/-- Table D.4. -/
def mr (B : Block) (s : St) (y x : Nat) : Nat :=
  if s.ref y x then 16
  else if near B s y x 0 0 || near B s y x 0 1 || near B s y x 0 2 || near B s y x 1 0 || near B s y x 1 2 ||
    near B s y x 2 0 || near B s y x 2 1 || near B s y x 2 2 then 15 else 14

/-! ## Coding -/

/-- Bit `b` of the magnitude. -/
def bit (B : Block) (b y x : Nat) : Nat := B.mag y x / 2 ^ b % 2

/-- The decision for a sign: the sign bit itself if raw, otherwise with the bit of Table D.3 added. -/
def signDcs (B : Block) (raw : Bool) (s : St) (y x : Nat) : Dcs :=
  if raw then (none, one (B.neg y x)) else (some (sc B s y x).1, (one (B.neg y x) + (sc B s y x).2) % 2)

/-- A bit of the magnitude of an insignificant coefficient and, if it is set, the sign. -/
def codeBit (B : Block) (raw : Bool) (b : Nat) (s : St) (y x : Nat) : List Dcs × St :=
  if bit B b y x = 1 then ([(if raw then none else some (zc B s y x), 1), signDcs B raw s y x], { s with sig := put s.sig y x true })
  else ([(if raw then none else some (zc B s y x), 0)], s)

/-- Significance propagation, D.3.1. -/
def sigCoef (B : Block) (raw : Bool) (b y x : Nat) : Part := fun s =>
  if s.sig y x = false ∧ zc B s y x ≠ 0 then
    ((codeBit B raw b s y x).1, { (codeBit B raw b s y x).2 with vis := put s.vis y x true })
  else ([], s)

/-- Magnitude refinement, D.3.3. -/
def refCoef (B : Block) (raw : Bool) (b y x : Nat) : Part := fun s =>
  if s.sig y x = true ∧ s.vis y x = false then
    ([(if raw then none else some (mr B s y x), bit B b y x)], { s with ref := put s.ref y x true })
  else ([], s)

/-- Cleanup of one coefficient, D.3.4. -/
def clnCoef (B : Block) (b y x : Nat) : Part := fun s =>
  if s.sig y x = false ∧ s.vis y x = false then codeBit B false b s y x else ([], s)

/-- The number of zero bits before the first set one. -/
def run (B : Block) (b x : Nat) : List Nat → Nat
  | [] => 0
  | y :: l => if bit B b y x = 1 then 0 else run B b x l + 1

/-- The rows of stripe `k`. -/
def rows (B : Block) (k : Nat) : List Nat := ((List.range 4).map (4 * k + ·)).filter (· < B.h)

/-- Cleanup of column `x` of stripe `k`: run-length mode if there are four rows, all insignificant, not coded and in context 0. -/
def clnCol (B : Block) (b k x : Nat) : Part := fun s =>
  if (rows B k).length = 4 ∧ ∀ y ∈ rows B k, s.sig y x = false ∧ s.vis y x = false ∧ zc B s y x = 0 then
    let r := run B b x (rows B k)
    if r = 4 then ([(some 17, 0)], s)
    else
      let y := 4 * k + r
      let rest := inOrder (((rows B k).drop (r + 1)).map fun y => clnCoef B b y x) { s with sig := put s.sig y x true }
      ([(some 17, 1), (some 18, r / 2), (some 18, r % 2), signDcs B false s y x] ++ rest.1, rest.2)
  else inOrder ((rows B k).map fun y => clnCoef B b y x) s

/-- The scan of a block, D.1: stripe by stripe, column by column. -/
def scan (B : Block) (col : Nat → Nat → Part) : Part :=
  inOrder ((List.range ((B.h + 3) / 4)).flatMap fun k => (List.range B.w).map fun x => col k x)

/-- Pass `t` of bit plane `b`: significance propagation, refinement, or cleanup, after which nothing counts as coded in this
plane, and the segmentation symbol (D.5) if used. -/
def pass (B : Block) (segsym raw : Bool) (b t : Nat) : Part := fun s =>
  if t = 0 then scan B (fun k x => inOrder ((rows B k).map fun y => sigCoef B raw b y x)) s
  else if t = 1 then scan B (fun k x => inOrder ((rows B k).map fun y => refCoef B raw b y x)) s
  else
    let r := scan B (clnCol B b) s
    (r.1 ++ (if segsym then [(some 18, 1), (some 18, 0), (some 18, 1), (some 18, 0)] else []), { r.2 with vis := fun _ _ => false })

/-- Selective arithmetic coding bypass, Table D.9: the first two passes of a plane are raw from the fifth plane on. `n` is the
number of planes, `b` the plane. -/
def isRaw (bypass : Bool) (n b t : Nat) : Bool := bypass && decide (t < 2) && decide (b + 5 ≤ n)

/-- The passes of the planes below `b`, from the top one down: bit plane and pass of each. -/
def below : Nat → List (Nat × Nat)
  | 0 => []
  | b + 1 => (b, 0) :: (b, 1) :: (b, 2) :: below b

/-- The passes of a block of `n` bit planes: the top plane has a cleanup pass only. -/
def order : Nat → List (Nat × Nat)
  | 0 => []
  | b + 1 => (b, 2) :: below b

/-- A coding pass: bit plane, pass of the plane, raw or not, decisions. -/
structure CPass where
  b : Nat
  t : Nat
  raw : Bool
  dcs : List Dcs

/-- The passes in `l`, one after the other. -/
def passesOf (B : Block) (bypass segsym : Bool) (n : Nat) : List (Nat × Nat) → St → List CPass
  | [], _ => []
  | (b, t) :: l, s =>
    let r := pass B segsym (isRaw bypass n b t) b t s
    ⟨b, t, isRaw bypass n b t, r.1⟩ :: passesOf B bypass segsym n l r.2

/-- All the passes of a block of `n` bit planes. -/
def passes (B : Block) (bypass segsym : Bool) (n : Nat) : List CPass := passesOf B bypass segsym n (order n) St.init

/-- Is the coder terminated after the pass? Tables D.8 and D.9: after the last pass; after every pass, if so chosen; with
selective bypass after the cleanup pass of the fourth plane, and from then on after refinement and cleanup passes. -/
def ends (bypass termall : Bool) (n b t : Nat) : Bool :=
  termall || (b == 0 && t == 2) || (bypass && ((b + 4 == n && t == 2) || (decide (b + 5 ≤ n) && decide (1 ≤ t))))

end Jp2.T1.Std

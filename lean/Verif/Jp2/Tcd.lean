import Verif.Jp2.Math
/-!
# The structure of a tile: `opj_tcd_init_tile`, `openjp2-rs/src/tcd.rs:789-1373`

`u32` values are `Nat`, `i32` values are `Int`. The code treats the two axes alike, statement by
statement; the model has one function per group of statements and calls it once for each axis. Memory
allocation is taken to succeed, and what is carried over from the previous tile (buffers kept for reuse)
is not part of the model. Step sizes (`tcd.rs:1082-1104`) and tag trees (see `Tgt`) are left out.
-/
namespace Jp2.Tcd

/-- How a call can end early: a panic (arithmetic overflow, division by zero, over-long shift) or a
`return 0` after an error message. -/
inductive Err where
  | panic
  | refused
deriving DecidableEq, Repr

/-- Result of a helper that can panic. -/
def ofOpt {α : Type} : Option α → Except Err α
  | none => .error .panic
  | some a => .ok a

/-- Overflow-checked `i32` result. -/
def i32 (x : Int) : Except Err Int := if -2 ^ 31 ≤ x ∧ x < 2 ^ 31 then .ok x else .error .panic

/-- `a << k` on `i32`: high bits are dropped, an over-long shift panics. -/
def shlI (a : Int) (k : Nat) : Except Err Int := if k < 32 then .ok (wrap32 (a * 2 ^ k)) else .error .panic
/-- `a << k` on `u32`. -/
def shlU (a : Nat) (k : Nat) : Except Err Nat := if k < 32 then .ok (a * 2 ^ k % 2 ^ 32) else .error .panic
/-- `(a >> k) as u32` for an `i32` `a`. -/
def shrU (a : Int) (k : Nat) : Except Err Nat := if k < 32 then .ok ((a >>> k) % 2 ^ 32).toNat else .error .panic

/-- A rectangle `[x0, x1) × [y0, y1)` as the structures of `tcd.rs` store it. -/
structure Rect where
  x0 : Int
  y0 : Int
  x1 : Int
  y1 : Int
deriving DecidableEq, Repr

/-- `opj_tcd_precinct`: bounds, number of code blocks across and down, code blocks. -/
structure Prec where
  rect : Rect
  cw : Nat
  ch : Nat
  cblks : List Rect
deriving DecidableEq, Repr

/-- `opj_tcd_band`. `precs` is empty for the bands the encoder skips. -/
structure Band where
  bandno : Nat
  rect : Rect
  precs : List Prec
deriving DecidableEq, Repr

/-- `opj_tcd_resolution`. -/
structure Res where
  rect : Rect
  pw : Nat
  ph : Nat
  bands : List Band
deriving DecidableEq, Repr

/-- `opj_tcd_tilecomp`. -/
structure TileC where
  rect : Rect
  ress : List Res
deriving DecidableEq, Repr

/-- `opj_tcd_tile`. -/
structure TileS where
  rect : Rect
  comps : List TileC
deriving DecidableEq, Repr

/-- Parameters of one component: subsampling (`opj_image_comp`), precinct exponents of its resolutions
and code block exponents (`opj_tccp`). -/
structure CompP where
  dx : Nat
  dy : Nat
  prc : List (Nat × Nat)
  cblkw : Nat
  cblkh : Nat
deriving DecidableEq, Repr

/-- The parts of `opj_image` and `opj_cp` the function reads, and the sizes in bytes of a precinct and
of a code block structure (they enter the checks against 32-bit overflow). -/
structure Params where
  x0 : Nat
  y0 : Nat
  x1 : Nat
  y1 : Nat
  cpTx0 : Nat
  cpTy0 : Nat
  tdx : Nat
  tdy : Nat
  tw : Nat
  comps : List CompP
  szPrec : Nat
  szBlk : Nat
deriving Repr

/-- `x as i32` for a `u32` `x`. -/
def asI32 (x : Nat) : Int := wrap 32 x

/-- One axis of the tile border, `tcd.rs:840-848` and `849-856`: `tx0 = grid + p * td` and the
check that the coordinates are usable. -/
def tileAxis (grid p td i0 i1 : Nat) : Except Err (Int × Int) :=
  let tx0 := (grid + p * td % 2 ^ 32) % 2 ^ 32
  let a := asI32 (Math.uintMax tx0 i0)
  let b := asI32 (Math.uintMin (Math.uintAdds tx0 td) i1)
  if a < 0 ∨ b ≤ a then .error .refused else .ok (a, b)

/-- One axis of a tile-component, `tcd.rs:871-874`. -/
def compAxis (t0 t1 : Int) (d : Nat) : Except Err (Int × Int) := do
  let a ← ofOpt (Math.intCeildiv t0 (asI32 d))
  let b ← ofOpt (Math.intCeildiv t1 (asI32 d))
  return (a, b)

/-- One axis of a resolution, `tcd.rs:966-969`. -/
def resAxis (c0 c1 : Int) (lev : Nat) : Except Err (Int × Int) := do
  let a ← ofOpt (Math.intCeildivpow2 c0 lev)
  let b ← ofOpt (Math.intCeildivpow2 c1 lev)
  return (a, b)

/-- One axis of the precinct grid of a resolution, `tcd.rs:970-999`: where it starts and how many
precincts there are. -/
def prcAxis (r0 r1 : Int) (pd : Nat) : Except Err (Int × Nat) := do
  let f ← ofOpt (Math.intFloordivpow2 r0 pd)
  let s ← shlI f pd
  let c ← ofOpt (Math.intCeildivpow2 r1 pd)
  let e ← shlU (c % 2 ^ 32).toNat pd
  if 2147483647 < e then throw .refused
  if r0 = r1 then return (s, 0)
  let w ← i32 ((e : Int) - s)
  let n ← shrU w pd
  return (s, n)

/-- One axis of a band, `tcd.rs:1039-1068`. `ob` is the bit of `bandno` for this axis. -/
def bandAxis (c0 c1 : Int) (resno lev ob : Nat) : Except Err (Int × Int) :=
  if resno = 0 then resAxis c0 c1 lev
  else do
    let a ← ofOpt (Math.int64Ceildivpow2 (c0 - ob * 2 ^ lev) (lev + 1))
    let b ← ofOpt (Math.int64Ceildivpow2 (c1 - ob * 2 ^ lev) (lev + 1))
    return (a, b)

/-- One axis of precinct number `i` along it, `tcd.rs:1169-1190`: `cbg0` is the start of the grid of
code block groups, `cbg` the exponent of their size. -/
def precAxis (cbg0 : Int) (i cbg : Nat) (b0 b1 : Int) : Except Err (Int × Int) := do
  let one ← shlI 1 cbg
  let m ← i32 (asI32 i * one)
  let s ← i32 (cbg0 + m)
  let e ← i32 (s + one)
  return (Math.intMax s b0, Math.intMin e b1)

/-- One axis of the code block grid of a precinct, `tcd.rs:1194-1221`. -/
def cblkGrid (p0 p1 : Int) (cb : Nat) : Except Err (Int × Nat) := do
  let f ← ofOpt (Math.intFloordivpow2 p0 cb)
  let s ← shlI f cb
  let c ← ofOpt (Math.intCeildivpow2 p1 cb)
  let e ← shlI c cb
  let w ← i32 (e - s)
  let n ← shrU w cb
  return (s, n)

/-- One axis of code block number `i` along it, `tcd.rs:1306-1346`. -/
def cblkAxis (s : Int) (i cb : Nat) (p0 p1 : Int) : Except Err (Int × Int) := do
  let one ← shlI 1 cb
  let m ← i32 (asI32 i * one)
  let a ← i32 (s + m)
  let e ← i32 (a + one)
  return (Math.intMax a p0, Math.intMin e p1)

/-- A code block, `tcd.rs:1305-1350`. -/
def mkCblk (sx sy : Int) (cw cbw cbh : Nat) (p : Rect) (k : Nat) : Except Err Rect := do
  let (x0, x1) ← cblkAxis sx (k % cw) cbw p.x0 p.x1
  let (y0, y1) ← cblkAxis sy (k / cw) cbh p.y0 p.y1
  return ⟨x0, y0, x1, y1⟩

/-- A precinct of a band, `tcd.rs:1164-1354`. -/
def mkPrec (szBlk : Nat) (gx gy : Int) (pw cbgw cbgh cbw cbh : Nat) (b : Rect) (k : Nat) :
    Except Err Prec := do
  let (x0, x1) ← precAxis gx (k % pw) cbgw b.x0 b.x1
  let (y0, y1) ← precAxis gy (k / pw) cbgh b.y0 b.y1
  let (sx, cw) ← cblkGrid x0 x1 cbw
  let (sy, ch) ← cblkGrid y0 y1 cbh
  let n := cw * ch % 2 ^ 32
  if (2 ^ 32 - 1) / szBlk < n then throw .refused
  let cs ← (List.range n).mapM (mkCblk sx sy cw cbw cbh ⟨x0, y0, x1, y1⟩)
  return ⟨⟨x0, y0, x1, y1⟩, cw, ch, cs⟩

/-- `opj_tcd_is_band_empty`, `tcd.rs:2921-2923`. -/
def bandEmpty (r : Rect) : Bool := r.x1 - r.x0 = 0 || r.y1 - r.y0 = 0

/-- A band, `tcd.rs:1036-1361`. `i` is the loop variable, which is also `bandno` at the lowest
resolution; at the others `bandno` is one more. -/
def mkBand (enc : Bool) (szBlk : Nat) (tc : Rect) (resno lev pw n : Nat) (gx gy : Int)
    (cbgw cbgh cbw cbh i : Nat) : Except Err Band := do
  let bandno := if resno = 0 then 0 else i + 1
  let (x0, x1) ← bandAxis tc.x0 tc.x1 resno lev (bandno % 2)
  let (y0, y1) ← bandAxis tc.y0 tc.y1 resno lev (bandno / 2)
  let r : Rect := ⟨x0, y0, x1, y1⟩
  if enc && bandEmpty r then return ⟨bandno, r, []⟩
  let ps ← (List.range n).mapM (mkPrec szBlk gx gy pw cbgw cbgh cbw cbh r)
  return ⟨bandno, r, ps⟩

/-- `opj_int_ceildivpow2(start, 1)` for the start of a grid, `tcd.rs:1023-1024`. -/
def half (a : Int) : Except Err Int := ofOpt (Math.intCeildivpow2 a 1)

/-- The rest of a resolution once its bounds and its precinct grid are known, `tcd.rs:1000-1363`;
`x.wrapping_sub(1)` of an exponent is written out. -/
def mkBands (enc : Bool) (p : Params) (c : CompP) (tc : Rect) (resno lev : Nat) (pd : Nat × Nat)
    (r : Rect) (sx sy : Int) (pw ph : Nat) : Except Err Res := do
  if pw ≠ 0 ∧ (2 ^ 32 - 1) / pw < ph then throw .refused
  let n := pw * ph % 2 ^ 32
  if (2 ^ 32 - 1) / p.szPrec < n then throw .refused
  let gx ← if resno = 0 then pure sx else half sx
  let gy ← if resno = 0 then pure sy else half sy
  let cbgw := if resno = 0 then pd.1 else (pd.1 + (2 ^ 32 - 1)) % 2 ^ 32
  let cbgh := if resno = 0 then pd.2 else (pd.2 + (2 ^ 32 - 1)) % 2 ^ 32
  let numbands := if resno = 0 then 1 else 3
  let cbw := Math.uintMin c.cblkw cbgw
  let cbh := Math.uintMin c.cblkh cbgh
  let bs ← (List.range numbands).mapM (mkBand enc p.szBlk tc resno lev pw n gx gy cbgw cbgh cbw cbh)
  return ⟨r, pw, ph, bs⟩

/-- A resolution, `tcd.rs:953-1363`. Here `lev` is `level_no` after it is decremented. -/
def mkRes (enc : Bool) (p : Params) (c : CompP) (tc : Rect) (resno lev : Nat) (pd : Nat × Nat) :
    Except Err Res := do
  let (x0, x1) ← resAxis tc.x0 tc.x1 lev
  let (y0, y1) ← resAxis tc.y0 tc.y1 lev
  let (sx, pw) ← prcAxis x0 x1 pd.1
  let (sy, ph) ← prcAxis y0 y1 pd.2
  mkBands enc p c tc resno lev pd ⟨x0, y0, x1, y1⟩ sx sy pw ph

/-- The resolutions of a tile-component from number `resno` on, `tcd.rs:943-1365`. -/
def mkRess (enc : Bool) (p : Params) (c : CompP) (tc : Rect) : Nat → List (Nat × Nat) → Except Err (List Res)
  | _, [] => .ok []
  | resno, pd :: rest => do
    let r ← mkRes enc p c tc resno rest.length pd
    let rs ← mkRess enc p c tc (resno + 1) rest
    return r :: rs

/-- A tile-component, `tcd.rs:866-1369`. The checks on the size of the encoder's sample buffer
(`tcd.rs:888-905`) compare with `usize::MAX` and cannot fail for 32-bit extents on a 64-bit target. -/
def mkComp (enc : Bool) (p : Params) (t : Rect) (c : CompP) : Except Err TileC := do
  let (x0, x1) ← compAxis t.x0 t.x1 c.dx
  let (y0, y1) ← compAxis t.y0 t.y1 c.dy
  let rs ← mkRess enc p c ⟨x0, y0, x1, y1⟩ 0 c.prc
  return ⟨⟨x0, y0, x1, y1⟩, rs⟩

/-- `opj_tcd_init_tile`, `tcd.rs:789-1373`. -/
def initTile (enc : Bool) (p : Params) (tileno : Nat) : Except Err TileS := do
  if p.tw = 0 then throw .panic
  let (x0, x1) ← tileAxis p.cpTx0 (tileno % p.tw) p.tdx p.x0 p.x1
  let (y0, y1) ← tileAxis p.cpTy0 (tileno / p.tw) p.tdy p.y0 p.y1
  match p.comps with
  | [] => throw .panic
  | c :: _ => if c.prc = [] then throw .refused
  let cs ← p.comps.mapM (mkComp enc p ⟨x0, y0, x1, y1⟩)
  return ⟨⟨x0, y0, x1, y1⟩, cs⟩

end Jp2.Tcd

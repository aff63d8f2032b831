import Verif.Jp2.T1Luts
import Verif.Jp2.Mqc
/-!
# The code-block coder: `openjp2-rs/src/t1.rs`

A flag word is a `u32`, here `BitVec 32`. The flag array, the sample arrays and the coder's buffer are lists; `none` is an access
outside an array or a failed assertion. The encoder never reads anything back from the arithmetic coder, so each of its passes
is modelled as a function from the flags to the list of calls it makes, in order, of `opj_mqc_encode_macro` or
`opj_mqc_bypass_enc_macro`, each call being the current context and the bit; `encPass` then makes these calls. The decoder reads
adaptively, so its passes are parameterised by a coder. The pointers `f`/`flagsp` and `datap`/`data` are indices. The distortion
estimate `nmsedec` and its tables are left out: it does not influence what is written.
-/
namespace Jp2.T1
open Jp2.Mqc (Mqc startCtxs)

abbrev Word := BitVec 32
/-- One call of the arithmetic coder: context and bit. -/
abbrev Sym := Nat × Nat

/-! ## Flags, `consts.rs:550-607` -/

/-- `T1_SIGMA_THIS | T1_PI_THIS`, bits 4 and 21. -/
abbrev SIGMA_PI : Word := 0x200010#32
/-- `T1_SIGMA_THIS`. -/
abbrev SIGMA_THIS : Word := 0x10#32
/-- `T1_PI_THIS`, that is `T1_PI_0`. -/
abbrev PI_THIS : Word := 0x200000#32
/-- `T1_MU_THIS`, that is `T1_MU_0`. -/
abbrev MU_THIS : Word := 0x100000#32
/-- `T1_SIGMA_NEIGHBOURS`: bits 0 to 8 without 4. -/
abbrev NEIGHBOURS : Word := 0x1EF#32
/-- `T1_PI_0 | T1_PI_1 | T1_PI_2 | T1_PI_3`. -/
abbrev PI_ALL : Word := 0x49200000#32
/-- `T1_SIGMA_4 | T1_SIGMA_7 | T1_SIGMA_10 | T1_SIGMA_13`. -/
abbrev SIGMA_ALL : Word := 0x2490#32

/-- `flagsp[i] |= v`. -/
def orAt (F : List Word) (i : Nat) (v : Word) : Option (List Word) := (F[i]?).map fun x => F.set i (x ||| v)
/-- `flagsp[i] &= !v`. -/
def clrAt (F : List Word) (i : Nat) (v : Word) : Option (List Word) := (F[i]?).map fun x => F.set i (x &&& ~~~v)

/-- `opj_t1_update_flags_macro`, `t1.rs:389-420`: `f` is the cell, `s` the sign, `stride` the width of a row of cells. -/
def updateFlags (stride f ci s : Nat) (vsc : Bool) (F : List Word) : Option (List Word) :=
  if f = 0 then none else
  (orAt F (f - 1) (0x20#32 <<< (3 * ci))).bind fun F =>
  (orAt F f (((BitVec.ofNat 32 s <<< 19) ||| 0x10#32) <<< (3 * ci))).bind fun F =>
  (orAt F (f + 1) (0x8#32 <<< (3 * ci))).bind fun F =>
  (if ci = 0 ∧ vsc = false then
    if f < stride + 1 then none else
    (orAt F (f - stride) ((BitVec.ofNat 32 s <<< 31) ||| 0x10000#32)).bind fun F =>
    (orAt F (f - stride - 1) 0x20000#32).bind fun F => orAt F (f - stride + 1) 0x8000#32
  else some F).bind fun F =>
  if ci = 3 then
    (orAt F (f + stride) ((BitVec.ofNat 32 s <<< 18) ||| 0x2#32)).bind fun F =>
    (orAt F (f + stride - 1) 0x4#32).bind fun F => orAt F (f + stride + 1) 0x1#32
  else some F

/-! ## Contexts -/

/-- `opj_t1_getctxno_zc`, `t1.rs:315-318`. -/
def ctxZc (o : Nat) (f : Word) : Option Nat := (lutZc[o]?).bind fun l => l[(f &&& NEIGHBOURS).toNat]?

/-- `opj_t1_getctxtno_sc_or_spb_index`, `t1.rs:320-348`. -/
def sgnIndex (x p n : Word) (ci : Nat) : Nat :=
  (((x >>> (3 * ci)) &&& 0xAA#32) ||| ((p >>> (19 + 3 * ci)) &&& 0x1#32) ||| ((n >>> (17 + 3 * ci)) &&& 0x4#32)
    ||| (if ci = 0 then (x >>> 14) &&& 0x10#32 else (x >>> (15 + 3 * (ci - 1))) &&& 0x10#32)
    ||| ((x >>> (16 + 3 * ci)) &&& 0x40#32)).toNat

/-- `opj_t1_getctxno_mag`, `t1.rs:355-367`. -/
def ctxMag (f : Word) : Nat :=
  if f &&& MU_THIS ≠ 0 then 16 else if f &&& NEIGHBOURS ≠ 0 then 15 else 14

/-! ## Encoder passes -/

/-- Part of a pass of the encoder: the calls of the coder and the new flags. -/
abbrev Enc := List Word → Option (List Sym × List Word)
def Enc.skip : Enc := fun F => some ([], F)
def Enc.seq (a b : Enc) : Enc := fun F => (a F).bind fun (t1, F) => (b F).map fun (t2, F) => (t1 ++ t2, F)
def Enc.emit (l : List Sym) (a : Enc) : Enc := fun F => (a F).map fun (t, F) => (l ++ t, F)
def Enc.get (f : Nat) (k : Word → Enc) : Enc := fun F => (F[f]?).bind fun x => k x F
def Enc.upd (u : List Word → Option (List Word)) : Enc := fun F => (u F).map fun F => ([], F)

/-- `opj_smr_abs(x) & one != 0`, `t1.rs:289-291, 454`: `x` is the sign-and-magnitude word. -/
def bitOf (one x : Nat) : Nat := if (x &&& 0x7FFFFFFF) &&& one ≠ 0 then 1 else 0
/-- `opj_smr_sign`, `t1.rs:294-297`. -/
def signOf (x : Nat) : Nat := x >>> 31

/-- Coding the sign of a coefficient that becomes significant, `t1.rs:469-488` and `1301-1321`; `x` is the flag word read
before. -/
def encSign (w : Nat) (raw : Bool) (v f ci : Nat) (vsc : Bool) (x : Word) : Enc := fun F =>
  if f = 0 then none else
  (F[f - 1]?).bind fun p => (F[f + 1]?).bind fun n =>
  (lutSc[sgnIndex x p n ci]?).bind fun c2 => (lutSpb[sgnIndex x p n ci]?).bind fun spb =>
  (updateFlags (w + 2) f ci (signOf v) vsc F).map fun F => ([(c2, if raw then signOf v else signOf v ^^^ spb)], F)

/-- `opj_t1_enc_sigpass_step_macro`, `t1.rs:439-492`. -/
def encSigStep (o w : Nat) (raw : Bool) (one : Nat) (data : List Nat) (f dp ci : Nat) (vsc : Bool) : Enc := Enc.get f fun x F =>
  if x &&& (SIGMA_PI <<< (3 * ci)) = 0 ∧ x &&& (NEIGHBOURS <<< (3 * ci)) ≠ 0 then
    (ctxZc o (x >>> (3 * ci))).bind fun c1 => (data[dp]?).bind fun v =>
    Enc.emit [(c1, bitOf one v)]
      (Enc.seq (if bitOf one v ≠ 0 then encSign w raw v f ci vsc x else Enc.skip) (Enc.upd fun F => orAt F f (PI_THIS <<< (3 * ci)))) F
  else some ([], F)

/-- Steps for the rows `ci, ci + 1, …` of a column, the data pointer advancing by one. -/
def rowsE (step : Nat → Nat → Enc) : Nat → Nat → Nat → Enc
  | 0, _, _ => Enc.skip
  | n + 1, ci, dp => Enc.seq (step dp ci) (rowsE step n (ci + 1) (dp + 1))

/-- A loop over `n` columns, `f` advancing by one and the data pointer by `d`. -/
def colsE (col : Nat → Nat → Enc) (d : Nat) : Nat → Nat → Nat → Enc
  | 0, _, _ => Enc.skip
  | n + 1, f, dp => Enc.seq (col f dp) (colsE col d n (f + 1) (dp + d))

/-- A loop over `n` full stripes of `w` columns. -/
def stripesE (col : Nat → Nat → Enc) (w : Nat) : Nat → Nat → Nat → Enc
  | 0, _, _ => Enc.skip
  | n + 1, f, dp => Enc.seq (colsE col 4 w f dp) (stripesE col w n (f + w + 2) (dp + 4 * w))

/-- The loops of a pass: full stripes, then the rows left over. The cell of the first column is `t1_flags(0, 0)`,
`t1.rs:567-571`. -/
def passE (w h : Nat) (full part : Nat → Nat → Enc) : Enc :=
  Enc.seq (stripesE full w (h / 4) (w + 3) 0)
    (if h % 4 = 0 then Enc.skip else colsE part (h % 4) w (w + 3 + h / 4 * (w + 2)) (h / 4 * (4 * w)))

/-- `opj_t1_enc_sigpass`, `t1.rs:575-692`. -/
def encSigPass (o w h : Nat) (raw : Bool) (one : Nat) (vsc : Bool) (data : List Nat) : Enc :=
  passE w h
    (fun f dp => Enc.get f fun x => if x = 0 then Enc.skip else
      rowsE (fun dp ci => encSigStep o w raw one data f dp ci (vsc && ci == 0)) 4 0 dp)
    (fun f dp => Enc.get f fun x => if x = 0 then Enc.skip else
      rowsE (fun dp ci => encSigStep o w raw one data f dp ci (vsc && ci == 0)) (h % 4) 0 dp)

/-- `opj_t1_enc_refpass_step_macro`, `t1.rs:919-952`. -/
def encRefStep (one : Nat) (data : List Nat) (f dp ci : Nat) : Enc := Enc.get f fun x F =>
  if x &&& (SIGMA_PI <<< (3 * ci)) = SIGMA_THIS <<< (3 * ci) then
    (data[dp]?).bind fun v =>
    (orAt F f (MU_THIS <<< (3 * ci))).map fun F => ([(ctxMag (x >>> (3 * ci)), bitOf one v)], F)
  else some ([], F)

/-- `opj_t1_enc_refpass`, `t1.rs:1021-1115`. -/
def encRefPass (w h : Nat) (one : Nat) (data : List Nat) : Enc :=
  passE w h
    (fun f dp => Enc.get f fun x =>
      if x &&& SIGMA_ALL = 0 then Enc.skip
      else if x &&& PI_ALL = PI_ALL then Enc.skip
      else rowsE (fun dp ci => encRefStep one data f dp ci) 4 0 dp)
    (fun f dp => Enc.get f fun x =>
      if x &&& SIGMA_ALL = 0 then Enc.skip
      else rowsE (fun dp ci => encRefStep one data f dp ci) (h % 4) 0 dp)

/-- One round of the loop of `opj_t1_enc_clnpass_step_macro`, `t1.rs:1288-1324`; `part` is `agg != 0 && ci == runlen`. -/
def encClnStep (o w : Nat) (one : Nat) (data : List Nat) (f : Nat) (vsc part : Bool) (dp ci : Nat) : Enc :=
  Enc.seq
    (Enc.get f fun x F =>
      if part then (data[dp]?).bind fun v => encSign w false v f ci (vsc && ci == 0) x F
      else if x &&& (SIGMA_PI <<< (3 * ci)) = 0 then
        (ctxZc o (x >>> (3 * ci))).bind fun c1 => (data[dp]?).bind fun v =>
        Enc.emit [(c1, bitOf one v)] (if bitOf one v ≠ 0 then encSign w false v f ci (vsc && ci == 0) x else Enc.skip) F
      else some ([], F))
    (Enc.upd fun F => clrAt F f (PI_THIS <<< (3 * ci)))

/-- The loop `for ci in runlen..lim`, `t1.rs:1288-1324`: `n` rounds from row `ci`. -/
def encClnRows (o w : Nat) (one : Nat) (data : List Nat) (f : Nat) (vsc : Bool) : Nat → Bool → Nat → Nat → Enc
  | 0, _, _, _ => Enc.skip
  | n + 1, part, ci, dp =>
    Enc.seq (encClnStep o w one data f vsc part dp ci) (encClnRows o w one data f vsc n false (ci + 1) (dp + 1))

/-- The flags the shortcut clears, `t1.rs:1278-1286`. -/
def clnMask (runlen : Nat) : Word :=
  if runlen = 0 then PI_ALL else if runlen = 1 then 0x49000000#32 else if runlen = 2 then 0x48000000#32
  else if runlen = 3 then 0x40000000#32 else 0

/-- `opj_t1_enc_clnpass_step_macro`, `t1.rs:1259-1328`. -/
def encClnMacro (o w : Nat) (one : Nat) (data : List Nat) (f : Nat) (vsc agg : Bool) (runlen lim dp : Nat) : Enc :=
  Enc.get f fun x =>
    if x &&& (SIGMA_ALL ||| PI_ALL) = SIGMA_ALL ||| PI_ALL then Enc.upd fun F => clrAt F f (clnMask runlen)
    else encClnRows o w one data f vsc (lim - runlen) agg runlen dp

/-- The run-length loop, `t1.rs:1423-1431`. -/
def runLen (one : Nat) (data : List Nat) : Nat → Nat → Option Nat
  | 0, _ => some 0
  | n + 1, dp => (data[dp]?).bind fun v => if bitOf one v ≠ 0 then some 0 else (runLen one data n (dp + 1)).map (· + 1)

/-- A full column of `opj_t1_enc_clnpass`, `t1.rs:1413-1448`. -/
def encClnCol (o w : Nat) (one : Nat) (data : List Nat) (vsc : Bool) (f dp : Nat) : Enc := Enc.get f fun x F =>
  if x = 0 then
    (runLen one data 4 dp).bind fun r =>
    Enc.emit ((17, if r ≠ 4 then 1 else 0) :: if r ≠ 4 then [(18, r >>> 1), (18, r &&& 1)] else [])
      (encClnMacro o w one data f vsc true r 4 (dp + r)) F
  else encClnMacro o w one data f vsc false 0 4 dp F

/-- `opj_t1_enc_clnpass`, `t1.rs:1392-1475`. -/
def encClnPass (o w h : Nat) (one : Nat) (vsc : Bool) (data : List Nat) : Enc :=
  passE w h (encClnCol o w one data vsc) (fun f dp => encClnMacro o w one data f vsc false 0 (h % 4) dp)

/-! ## Decoder passes -/

/-- A source of decisions: arithmetic decoding in a context, or raw bits. -/
structure Coder (σ : Type) where
  mq : σ → Nat → Option (Nat × σ)
  raw : σ → Option (Nat × σ)

/-- State of a decoder pass: coder, flags, coefficients. -/
structure DS (σ : Type) where
  c : σ
  g : List Word
  d : List Int

variable {σ : Type}

abbrev Dec (σ : Type) := DS σ → Option (DS σ)
def Dec.seq (a b : Dec σ) : Dec σ := fun s => (a s).bind b
def Dec.skip : Dec σ := fun s => some s
def Dec.get (f : Nat) (k : Word → Dec σ) : Dec σ := fun s => (s.g[f]?).bind fun x => k x s
def Dec.upd (u : List Word → Option (List Word)) : Dec σ := fun s => (u s.g).map fun g => { s with g := g }
/-- Read one bit, raw or in a context, and go on with it. -/
def Dec.bit (C : Coder σ) (raw : Bool) (cx : Option Nat) (k : Nat → Dec σ) : Dec σ := fun s =>
  (if raw then C.raw s.c else cx.bind (C.mq s.c)).bind fun (v, c) => k v { s with c := c }
/-- `*datap = v`. -/
def Dec.put (i : Nat) (v : Int) : Dec σ := fun s => if i < s.d.length then some { s with d := s.d.set i v } else none

/-- The sign of a newly significant coefficient: `t1.rs:509-511` raw, `:534-546` and `:1350-1359` arithmetic. `x` is the flag
word read before. -/
def decSign (C : Coder σ) (w : Nat) (raw : Bool) (oph : Int) (f dp ci : Nat) (vsc : Bool) (x : Word) : Dec σ := fun s =>
  if raw then
    Dec.bit C true none (fun v => Dec.seq (Dec.put dp (if v ≠ 0 then -oph else oph)) (Dec.upd (updateFlags (w + 2) f ci v vsc))) s
  else if f = 0 then none else
    (s.g[f - 1]?).bind fun p => (s.g[f + 1]?).bind fun n =>
    (lutSpb[sgnIndex x p n ci]?).bind fun spb =>
    Dec.bit C false (lutSc[sgnIndex x p n ci]?) (fun v =>
      Dec.seq (Dec.put dp (if v ^^^ spb ≠ 0 then -oph else oph)) (Dec.upd (updateFlags (w + 2) f ci (v ^^^ spb) vsc))) s

/-- `opj_t1_dec_sigpass_step_raw`, `t1.rs:495-516`, and `opj_t1_dec_sigpass_step_mqc_macro`, `:519-550`. -/
def decSigStep (C : Coder σ) (o w : Nat) (raw : Bool) (oph : Int) (f dp ci : Nat) (vsc : Bool) : Dec σ := Dec.get f fun x =>
  if x &&& (SIGMA_PI <<< (3 * ci)) = 0 ∧ x &&& (NEIGHBOURS <<< (3 * ci)) ≠ 0 then
    Dec.bit C raw (ctxZc o (x >>> (3 * ci))) fun v =>
      Dec.seq (if v ≠ 0 then decSign C w raw oph f dp ci vsc x else Dec.skip) (Dec.upd fun F => orAt F f (PI_THIS <<< (3 * ci)))
  else Dec.skip

/-- Steps for `n` rows from row `ci`; the coefficient of row `ci` is at `dp`, the next one `w` further. -/
def rowsD (w : Nat) (step : Nat → Nat → Dec σ) : Nat → Nat → Nat → Dec σ
  | 0, _, _ => Dec.skip
  | n + 1, ci, dp => Dec.seq (step dp ci) (rowsD w step n (ci + 1) (dp + w))

/-- A loop over `n` columns. -/
def colsD (col : Nat → Nat → Dec σ) : Nat → Nat → Nat → Dec σ
  | 0, _, _ => Dec.skip
  | n + 1, f, dp => Dec.seq (col f dp) (colsD col n (f + 1) (dp + 1))

/-- A loop over `n` full stripes. -/
def stripesD (col : Nat → Nat → Dec σ) (w : Nat) : Nat → Nat → Nat → Dec σ
  | 0, _, _ => Dec.skip
  | n + 1, f, dp => Dec.seq (colsD col w f dp) (stripesD col w n (f + w + 2) (dp + w + 3 * w))

/-- The loops of a decoder pass. The variants for 64 by 64 blocks are the same loops with constants. -/
def passD (w h : Nat) (full part : Nat → Nat → Dec σ) : Dec σ :=
  Dec.seq (stripesD full w (h / 4) (w + 3) 0)
    (if h % 4 = 0 then Dec.skip else colsD part w (w + 3 + h / 4 * (w + 2)) (h / 4 * (w + 3 * w)))

/-- `opj_t1_dec_sigpass_raw`, `t1.rs:697-778`, and `opj_t1_dec_sigpass_mqc`, `:780-914`. -/
def decSigPass (C : Coder σ) (o w h : Nat) (raw : Bool) (oph : Int) (vsc : Bool) : Dec σ :=
  passD w h
    (fun f dp => Dec.get f fun x => if x ≠ 0 then
      rowsD w (fun dp ci => decSigStep C o w raw oph f dp ci (vsc && ci == 0)) 4 0 dp else Dec.skip)
    (fun f dp => rowsD w (fun dp ci => decSigStep C o w raw oph f dp ci vsc) (h % 4) 0 dp)

/-- `*datap += t` on `i32`; overflow is `none`. -/
def Dec.add (i : Nat) (t : Int → Int) : Dec σ := fun s =>
  (s.d[i]?).bind fun v =>
  if -2 ^ 31 ≤ v + t v ∧ v + t v < 2 ^ 31 then some { s with d := s.d.set i (v + t v) } else none

/-- `opj_t1_dec_refpass_step_raw`, `t1.rs:955-976`, and `opj_t1_dec_refpass_step_mqc_macro`, `:979-1003`. -/
def decRefStep (C : Coder σ) (raw : Bool) (poshalf : Int) (f dp ci : Nat) : Dec σ := Dec.get f fun x =>
  if x &&& (SIGMA_PI <<< (3 * ci)) = SIGMA_THIS <<< (3 * ci) then
    Dec.bit C raw (some (ctxMag (x >>> (3 * ci)))) fun v =>
      Dec.seq (Dec.add dp fun y => if v ^^^ (if y < 0 then 1 else 0) ≠ 0 then poshalf else -poshalf)
        (Dec.upd fun F => orAt F f (MU_THIS <<< (3 * ci)))
  else Dec.skip

/-- `opj_t1_dec_refpass_raw`, `t1.rs:1119-1178`, and `opj_t1_dec_refpass_mqc`, `:1180-1256`. -/
def decRefPass (C : Coder σ) (w h : Nat) (raw : Bool) (poshalf : Int) : Dec σ :=
  passD w h
    (fun f dp => Dec.get f fun x => if x ≠ 0 then
      rowsD w (fun dp ci => decRefStep C raw poshalf f dp ci) 4 0 dp else Dec.skip)
    (fun f dp => rowsD w (fun dp ci => decRefStep C raw poshalf f dp ci) (h % 4) 0 dp)

/-- `opj_t1_dec_clnpass_step_macro`, `t1.rs:1331-1361`. -/
def decClnStep (C : Coder σ) (o w : Nat) (check part : Bool) (oph : Int) (f dp ci : Nat) (vsc : Bool) : Dec σ := Dec.get f fun x =>
  if check = false ∨ x &&& (SIGMA_PI <<< (3 * ci)) = 0 then
    if part then decSign C w false oph f dp ci vsc x
    else Dec.bit C false (ctxZc o (x >>> (3 * ci))) fun v =>
      if v = 0 then Dec.skip else decSign C w false oph f dp ci vsc x
  else Dec.skip

/-- A full column of `opj_t1_dec_clnpass_internal`, `t1.rs:1508-1640`. -/
def decClnCol (C : Coder σ) (o w : Nat) (oph : Int) (vsc : Bool) (f dp : Nat) : Dec σ := Dec.get f fun x =>
  if x = 0 then
    Dec.bit C false (some 17) fun v =>
    if v = 0 then Dec.skip
    else Dec.bit C false (some 18) fun a => Dec.bit C false (some 18) fun b =>
      let r := a <<< 1 ||| b
      Dec.seq (if r = 0 then decClnStep C o w false true oph f dp 0 vsc else Dec.skip) <|
      Dec.seq (if r ≤ 1 then decClnStep C o w false (r != 0) oph f (dp + w) 1 false else Dec.skip) <|
      Dec.seq (if r ≤ 2 then decClnStep C o w false (decide (1 < r)) oph f (dp + 2 * w) 2 false else Dec.skip) <|
      Dec.seq (if r ≤ 3 then decClnStep C o w false (decide (2 < r)) oph f (dp + 3 * w) 3 false else Dec.skip) <|
      Dec.upd fun F => clrAt F f PI_ALL
  else
    Dec.seq (decClnStep C o w true false oph f dp 0 vsc) <|
    Dec.seq (decClnStep C o w true false oph f (dp + w) 1 false) <|
    Dec.seq (decClnStep C o w true false oph f (dp + 2 * w) 2 false) <|
    Dec.seq (decClnStep C o w true false oph f (dp + 3 * w) 3 false) <|
    Dec.upd fun F => clrAt F f PI_ALL

/-- `opj_t1_dec_clnpass_internal`, `t1.rs:1478-1669`. -/
def decClnPass (C : Coder σ) (o w h : Nat) (oph : Int) (vsc : Bool) : Dec σ :=
  passD w h (decClnCol C o w oph vsc)
    (fun f dp => Dec.seq (rowsD w (fun dp ci => decClnStep C o w true false oph f dp ci vsc) (h % 4) 0 dp)
      (Dec.upd fun F => clrAt F f PI_ALL))

/-- `opj_t1_dec_clnpass_check_segsym`, `t1.rs:1671-1688`: four bits, whatever they are. -/
def decSegsym (C : Coder σ) (s : DS σ) : Option (DS σ) :=
  Dec.bit C false (some 18) (fun _ => Dec.bit C false (some 18) fun _ => Dec.bit C false (some 18) fun _ =>
    Dec.bit C false (some 18) fun _ => Dec.skip) s

/-! ## Blocks -/

/-- The code-block style bits, `consts.rs:123-133`. -/
structure Style where
  bypass : Bool := false
  reset : Bool := false
  termall : Bool := false
  vsc : Bool := false
  pterm : Bool := false
  segsym : Bool := false
deriving DecidableEq, Repr

/-- The flags of `opj_t1_allocate_buffers`, `t1.rs:1761-1820`: border rows of cells above and below with all `PI` bits; in a
stripe that is not full the `PI` bits of the missing rows. -/
def initFlags (w h : Nat) : List Word :=
  List.replicate (w + 2) PI_ALL ++ List.replicate (h / 4 * (w + 2)) 0#32 ++
  (if h % 4 = 0 then [] else List.replicate (w + 2)
    (if h % 4 = 1 then 0x49000000#32 else if h % 4 = 2 then 0x48000000#32 else 0x40000000#32)) ++
  List.replicate (w + 2) PI_ALL

/-- The assertions of `opj_t1_allocate_buffers`, `t1.rs:1771-1773`. -/
def sizesOk (w h : Nat) : Bool := w ≤ 1024 && h ≤ 1024 && w * h ≤ 4096

/-- The conversion to sign and magnitude, `t1.rs:2753-2778`. -/
def toSmr (x : Int) : Nat := if 0 ≤ x then x.toNat else if x = -2 ^ 31 then 2 ^ 32 - 1 else 2 ^ 31 + (-x).toNat
/-- Its magnitude, of which the maximum is taken, `t1.rs:2759-2763, 2776`. -/
def magOf (x : Int) : Nat := if x = -2 ^ 31 then 2 ^ 31 - 1 else x.natAbs

/-- `cblk.numbps`, `t1.rs:2783-2787`, as the `u32` it is stored as. -/
def numbpsOf (mx : Nat) : Nat := if mx = 0 then 0 else (2 ^ 32 + Nat.log2 mx + 1 - 6) % 2 ^ 32

/-- A coding pass, `opj_tcd_pass_t`. -/
structure Pass where
  term : Bool
  rate : Nat
  len : Nat := 0
deriving DecidableEq, Repr

/-- State of the loop over passes. -/
structure ES where
  s : Mqc
  F : List Word
  passes : List Pass

/-- Is the pass raw? `t1.rs:2803-2810`. -/
def rawE (st : Style) (n b t : Nat) : Bool := decide ((b : Int) < (n : Int) - 4) && decide (t < 2) && st.bypass

/-- `opj_t1_enc_is_term_pass`, `t1.rs:2691-2718`. -/
def isTerm (st : Style) (n b t : Nat) : Bool :=
  (t == 2 && b == 0) || st.termall ||
  (st.bypass && ((decide ((b : Int) = (n : Int) - 4) && t == 2) || (decide ((b : Int) < (n : Int) - 4) && decide (0 < t))))

/-- The calls a pass makes, `t1.rs:2820-2833`, with the segmentation symbol `opj_mqc_segmark_enc`. -/
def passTrace (o w h n : Nat) (st : Style) (data : List Nat) (b t : Nat) : Enc :=
  if t = 0 then encSigPass o w h (rawE st n b t) (2 ^ (b + 6)) st.vsc data
  else if t = 1 then encRefPass w h (2 ^ (b + 6)) data
  else Enc.seq (encClnPass o w h (2 ^ (b + 6)) st.vsc data)
    (if st.segsym then Enc.emit [(18, 1), (18, 0), (18, 1), (18, 0)] Enc.skip else Enc.skip)

/-- `opj_mqc_numbytes`, `mqc.rs:482-485`, as `u32`: one less than zero while nothing has been written. -/
def numbytes32 (s : Mqc) : Nat := (2 ^ 32 + s.bp - s.start) % 2 ^ 32

/-- `opj_mqc_bypass_get_extra_bytes`, `mqc.rs:547-556`. -/
def bypassExtra (s : Mqc) (er : Bool) : Option Nat :=
  if s.bp = 0 then none else
  (s.mem[s.bp - 1]?).map fun p => if s.ct < 7 ∨ (s.ct = 7 ∧ (er = true ∨ p ≠ 0xFF)) then 1 else 0

/-- One round of the loop over passes, `t1.rs:2799-2888`: restart the coder after a terminated pass, code, terminate or estimate
the rate, reset the contexts. -/
def encPass (o w h n : Nat) (st : Style) (data : List Nat) (b t : Nat) (e : ES) : Option ES :=
  let raw := rawE st n b t
  (if (e.passes.getLast?.map Pass.term) = some true then
    if raw then Mqc.bypassInitEnc e.s else Mqc.restartInitEnc e.s
  else some e.s).bind fun s =>
  (passTrace o w h n st data b t e.F).bind fun (tr, F) =>
  (if raw then Mqc.bypassEncAll s (tr.map Prod.snd) else Mqc.encodeAll s tr).bind fun s =>
  (if isTerm st n b t then
    (if raw then Mqc.bypassFlushEnc s st.pterm else if st.pterm then Mqc.ertermEnc s else Mqc.flush s).map fun s =>
      (s, { term := true, rate := numbytes32 s : Pass })
  else
    (if raw then bypassExtra s st.pterm else some 3).map fun x =>
      (s, { term := false, rate := (numbytes32 s + x) % 2 ^ 32 : Pass })).map fun (s, p) =>
  { s := if st.reset then { s with ctxs := startCtxs } else s, F := F, passes := e.passes ++ [p] }

/-- The loop `while bpno >= 0`, `t1.rs:2799-2889`; the second argument is `bpno + 1`. -/
def encLoop (o w h n : Nat) (st : Style) (data : List Nat) : Nat → Nat → Nat → ES → Option ES
  | _, 0, _, e => some e
  | 0, _ + 1, _, _ => none
  | fuel + 1, b + 1, t, e =>
    (encPass o w h n st data b t e).bind fun e =>
    if t + 1 = 3 then encLoop o w h n st data fuel b 0 e else encLoop o w h n st data fuel (b + 1) (t + 1) e

/-- Making the rates increase, from the last pass to the first, `t1.rs:2892-2905`. -/
def clampRates (last : Nat) : List Pass → List Pass × Nat
  | [] => ([], last)
  | p :: l =>
    let r := clampRates last l
    if p.rate > r.2 then ({ p with rate := r.2 } :: r.1, r.2) else (p :: r.1, p.rate)

/-- Not ending a pass in `FF`, and the lengths, `t1.rs:2907-2925`. -/
def finishRates (mem : List UInt8) (start : Nat) : Nat → List Pass → Option (List Pass)
  | _, [] => some []
  | prev, p :: l =>
    if p.rate = 0 then none else
    (mem[start + (p.rate - 1)]?).bind fun b =>
    let r := if b = 0xFF then p.rate - 1 else p.rate
    (finishRates mem start r l).map fun l => { p with rate := r, len := (2 ^ 32 + r - prev) % 2 ^ 32 } :: l

/-- What the encoder leaves in `opj_tcd_cblk_enc_t`. -/
structure Coded where
  numbps : Nat
  passes : List Pass
  mem : List UInt8

/-- `opj_t1_encode_cblk`, `t1.rs:2722-2923`, after `opj_t1_allocate_buffers`: `data` are the samples in the encoder's order,
`mem` the buffer of the code block, used from `start` on. -/
def encodeCblk (o w h : Nat) (st : Style) (data : List Int) (mem : List UInt8) (start : Nat) : Option Coded :=
  if sizesOk w h = false ∨ data.length ≠ w * h then none else
  let n := numbpsOf ((data.map magOf).foldl max 0)
  if n = 0 then some ⟨0, [], mem⟩ else
  if 2 ^ 31 ≤ n - 1 then some ⟨n, [], mem⟩ else
  (Mqc.initEnc mem start startCtxs).bind fun s =>
  (encLoop o w h n st (data.map toSmr) (3 * n) n 2 ⟨s, initFlags w h, []⟩).bind fun e =>
  (finishRates e.s.mem start 0 (clampRates (numbytes32 e.s) e.passes).1).map fun ps => ⟨n, ps, e.s.mem⟩

/-- The order in which the samples of a block are handed to the encoder, `opj_t1_cblk_encode_processor`, `t1.rs:2486-2531`:
stripes of four rows, column by column. `px y x` is the sample. -/
def stripeOrder (w h : Nat) (px : Nat → Nat → Int) : List Int :=
  ((List.range (h / 4)).flatMap fun k => (List.range w).flatMap fun x => (List.range 4).map fun j => px (4 * k + j) x) ++
  ((List.range w).flatMap fun x => (List.range (h % 4)).map fun j => px (h / 4 * 4 + j) x)

/-- `x << 6` on the bits of an `i32`, `t1.rs:2498`. -/
def shl6 (x : Int) : Int := (x * 64 + 2 ^ 31) % 2 ^ 32 - 2 ^ 31

/-- The coder of the real decoder. -/
def mqcCoder : Coder Mqc := ⟨fun s cx => Mqc.decode s cx, Mqc.rawDecode⟩

/-- Is the segment raw? `t1.rs:2332-2339`; `bp1` is `bpno_plus_one`. -/
def rawD (st : Style) (n bp1 t : Nat) : Bool := decide ((bp1 : Int) ≤ (n : Int) - 4) && decide (t < 2) && st.bypass

/-- One pass of the decoder, `t1.rs:2357-2384`. -/
def decPass (C : Coder σ) (o w h : Nat) (st : Style) (raw : Bool) (bp1 t : Nat) : Dec σ :=
  let one := 2 ^ bp1
  let half := one >>> 1
  if t = 0 then decSigPass C o w h raw ((one ||| half : Nat) : Int) st.vsc
  else if t = 1 then decRefPass C w h raw (half : Int)
  else Dec.seq (decClnPass C o w h ((one ||| half : Nat) : Int) st.vsc) (if st.segsym then decSegsym C else Dec.skip)

/-- The loop over the passes of a segment, `t1.rs:2356-2397`: `k` passes left; the result carries the pass type and
`bpno_plus_one` reached. -/
def decPasses (o w h : Nat) (st : Style) (raw : Bool) : Nat → Nat → Nat → DS Mqc → Option (Nat × Nat × DS Mqc)
  | 0, bp1, t, d => some (bp1, t, d)
  | _ + 1, 0, t, d => some (0, t, d)
  | k + 1, b + 1, t, d =>
    (decPass mqcCoder o w h st raw (b + 1) t d).bind fun d =>
    let d := if st.reset ∧ raw = false then { d with c := { d.c with ctxs := startCtxs } } else d
    if t + 1 = 3 then decPasses o w h st raw k b 0 d else decPasses o w h st raw k (b + 1) (t + 1) d

/-- State between segments. -/
structure SegSt where
  buf : List UInt8
  ctxs : List Nat
  g : List Word
  d : List Int
  bp1 : Nat
  t : Nat
  /-- `cblkdataindex` -/
  pos : Nat

/-- One segment, `t1.rs:2329-2399`: `(len, passes)`. -/
def decSegment (o w h n : Nat) (st : Style) (q : SegSt) (seg : Nat × Nat) : Option SegSt :=
  let raw := rawD st n q.bp1 q.t
  (q.buf[q.pos + seg.1]?).bind fun b0 => (q.buf[q.pos + seg.1 + 1]?).bind fun b1 =>
  (if raw then Mqc.rawInitDec q.buf q.pos seg.1 q.ctxs else Mqc.initDec q.buf q.pos seg.1 q.ctxs).bind fun c =>
  (decPasses o w h st raw seg.2 q.bp1 q.t ⟨c, q.g, q.d⟩).bind fun (bp1, t, d) =>
  (Mqc.finishDec d.c seg.1 b0 b1).map fun c => ⟨c.mem, c.ctxs, d.g, d.d, bp1, t, q.pos + seg.1⟩

/-- All segments. -/
def decSegments (o w h n : Nat) (st : Style) : SegSt → List (Nat × Nat) → Option SegSt
  | q, [] => some q
  | q, sg :: l => (decSegment o w h n st q sg).bind fun q => decSegments o w h n st q l

/-- `opj_t1_decode_cblk`, `t1.rs:2232-2427`: the number of bit planes, the chunks of data and the segments, each with its length
and number of passes. The chunks are concatenated and followed by `OPJ_COMMON_CBLK_DATA_EXTRA` = 2 bytes `x0`, `x1`, whatever
they are: with a single chunk the code works in place, where two such bytes follow as well. `some none` is failure. Not
modelled: the PTERM check, which only warns, and decoding into `decoded_data`. -/
def decodeCblk (o w h : Nat) (roishift numbps : Nat) (st : Style) (chunks : List (List UInt8)) (x0 x1 : UInt8) (segs : List (Nat × Nat)) :
    Option (Option (List Int)) :=
  if sizesOk w h = false then none else
  let bp1 := (roishift + numbps) % 2 ^ 32
  if 31 ≤ bp1 ∧ bp1 < 2 ^ 31 then some none else
  if chunks = [] then some (some (List.replicate (w * h) 0)) else
  (decSegments o w h numbps st
    ⟨chunks.flatten ++ [x0, x1], startCtxs, initFlags w h, List.replicate (w * h) 0, if bp1 < 2 ^ 31 then bp1 else 0, 2, 0⟩ segs).map
    fun q => some q.d

end Jp2.T1

import Verif.Jp2.Bio
/-!
# The MQ arithmetic coder and raw (bypass) coding: `openjp2-rs/src/mqc.rs`

`mem` is the allocation holding the code-block bytes; `start` and `bp` are offsets into it, so the byte before `start`
(the allocation has one, `opj_tcd_code_block_enc_allocate_data`) is at `start - 1`. `u32` fields are naturals below 2^32.
A load or store outside `mem`, a failed `assert!` or an endless loop is `none`. A context is a position in `states`.
The counter of artificial bytes (`end_of_byte_stream_counter`) only feeds a warning and is left out.
-/
namespace Jp2.Mqc
open Jp2.Bio (store)

/-- `opj_mqc_state`, `mqc.rs:5-11`. -/
structure State where
  qe : Nat
  mps : Nat
  nmps : Nat
  nlps : Nat
deriving DecidableEq, Repr

/-- `mqc_states`, `mqc.rs:324-419`. -/
def states : List State := [
  ⟨0x5601, 0, 2, 3⟩, ⟨0x5601, 1, 3, 2⟩,
  ⟨0x3401, 0, 4, 12⟩, ⟨0x3401, 1, 5, 13⟩,
  ⟨0x1801, 0, 6, 18⟩, ⟨0x1801, 1, 7, 19⟩,
  ⟨0x0AC1, 0, 8, 24⟩, ⟨0x0AC1, 1, 9, 25⟩,
  ⟨0x0521, 0, 10, 58⟩, ⟨0x0521, 1, 11, 59⟩,
  ⟨0x0221, 0, 76, 66⟩, ⟨0x0221, 1, 77, 67⟩,
  ⟨0x5601, 0, 14, 13⟩, ⟨0x5601, 1, 15, 12⟩,
  ⟨0x5401, 0, 16, 28⟩, ⟨0x5401, 1, 17, 29⟩,
  ⟨0x4801, 0, 18, 28⟩, ⟨0x4801, 1, 19, 29⟩,
  ⟨0x3801, 0, 20, 28⟩, ⟨0x3801, 1, 21, 29⟩,
  ⟨0x3001, 0, 22, 34⟩, ⟨0x3001, 1, 23, 35⟩,
  ⟨0x2401, 0, 24, 36⟩, ⟨0x2401, 1, 25, 37⟩,
  ⟨0x1C01, 0, 26, 40⟩, ⟨0x1C01, 1, 27, 41⟩,
  ⟨0x1601, 0, 58, 42⟩, ⟨0x1601, 1, 59, 43⟩,
  ⟨0x5601, 0, 30, 29⟩, ⟨0x5601, 1, 31, 28⟩,
  ⟨0x5401, 0, 32, 28⟩, ⟨0x5401, 1, 33, 29⟩,
  ⟨0x5101, 0, 34, 30⟩, ⟨0x5101, 1, 35, 31⟩,
  ⟨0x4801, 0, 36, 32⟩, ⟨0x4801, 1, 37, 33⟩,
  ⟨0x3801, 0, 38, 34⟩, ⟨0x3801, 1, 39, 35⟩,
  ⟨0x3401, 0, 40, 36⟩, ⟨0x3401, 1, 41, 37⟩,
  ⟨0x3001, 0, 42, 38⟩, ⟨0x3001, 1, 43, 39⟩,
  ⟨0x2801, 0, 44, 38⟩, ⟨0x2801, 1, 45, 39⟩,
  ⟨0x2401, 0, 46, 40⟩, ⟨0x2401, 1, 47, 41⟩,
  ⟨0x2201, 0, 48, 42⟩, ⟨0x2201, 1, 49, 43⟩,
  ⟨0x1C01, 0, 50, 44⟩, ⟨0x1C01, 1, 51, 45⟩,
  ⟨0x1801, 0, 52, 46⟩, ⟨0x1801, 1, 53, 47⟩,
  ⟨0x1601, 0, 54, 48⟩, ⟨0x1601, 1, 55, 49⟩,
  ⟨0x1401, 0, 56, 50⟩, ⟨0x1401, 1, 57, 51⟩,
  ⟨0x1201, 0, 58, 52⟩, ⟨0x1201, 1, 59, 53⟩,
  ⟨0x1101, 0, 60, 54⟩, ⟨0x1101, 1, 61, 55⟩,
  ⟨0x0AC1, 0, 62, 56⟩, ⟨0x0AC1, 1, 63, 57⟩,
  ⟨0x09C1, 0, 64, 58⟩, ⟨0x09C1, 1, 65, 59⟩,
  ⟨0x08A1, 0, 66, 60⟩, ⟨0x08A1, 1, 67, 61⟩,
  ⟨0x0521, 0, 68, 62⟩, ⟨0x0521, 1, 69, 63⟩,
  ⟨0x0441, 0, 70, 64⟩, ⟨0x0441, 1, 71, 65⟩,
  ⟨0x02A1, 0, 72, 66⟩, ⟨0x02A1, 1, 73, 67⟩,
  ⟨0x0221, 0, 74, 68⟩, ⟨0x0221, 1, 75, 69⟩,
  ⟨0x0141, 0, 76, 70⟩, ⟨0x0141, 1, 77, 71⟩,
  ⟨0x0111, 0, 78, 72⟩, ⟨0x0111, 1, 79, 73⟩,
  ⟨0x0085, 0, 80, 74⟩, ⟨0x0085, 1, 81, 75⟩,
  ⟨0x0049, 0, 82, 76⟩, ⟨0x0049, 1, 83, 77⟩,
  ⟨0x0025, 0, 84, 78⟩, ⟨0x0025, 1, 85, 79⟩,
  ⟨0x0015, 0, 86, 80⟩, ⟨0x0015, 1, 87, 81⟩,
  ⟨0x0009, 0, 88, 82⟩, ⟨0x0009, 1, 89, 83⟩,
  ⟨0x0005, 0, 90, 84⟩, ⟨0x0005, 1, 91, 85⟩,
  ⟨0x0001, 0, 90, 86⟩, ⟨0x0001, 1, 91, 87⟩,
  ⟨0x5601, 0, 92, 92⟩, ⟨0x5601, 1, 93, 93⟩]

/-- `opj_mqc`, `mqc.rs:14-26`. -/
structure Mqc where
  mem : List UInt8
  start : Nat
  bp : Nat
  c : Nat
  a : Nat
  ct : Nat
  ctxs : List Nat
deriving DecidableEq, Repr

/-- `u32::wrapping_sub`. -/
def wsub (x y : Nat) : Nat := (x + (2 ^ 32 - y)) % 2 ^ 32
/-- `u32::wrapping_add`. -/
def wadd (x y : Nat) : Nat := (x + y) % 2 ^ 32
/-- `u32 << n`. -/
def shl (x n : Nat) : Nat := x <<< n % 2 ^ 32

/-- `curctx`, `mqc.rs:64-66`, for context number `cx`. -/
def ctxState (s : Mqc) (cx : Nat) : Option State := (s.ctxs[cx]?).bind fun i => states[i]?

/-- `set_curctx_nlps` and `set_curctx_nmps`, `mqc.rs:54-62`. -/
def setCtx (s : Mqc) (cx i : Nat) : Mqc := { s with ctxs := s.ctxs.set cx i }

/-! ## Encoder -/

/-- The tail of each branch of `opj_mqc_byteout`: `inc_bp`, write `c >> sh`, `c &= 2^sh - 1`, `ct = n`. -/
def put (s : Mqc) (sh n : Nat) : Option Mqc :=
  (store s.mem (s.bp + 1) (UInt8.ofNat (s.c >>> sh))).map fun mem =>
    { s with mem := mem, bp := s.bp + 1, c := s.c &&& (2 ^ sh - 1), ct := n }

/-- `opj_mqc_byteout`, `mqc.rs:740-770`. -/
def byteout (s : Mqc) : Option Mqc :=
  if s.bp + 1 < s.start then none
  else
    (s.mem[s.bp]?).bind fun b =>
    if b = 0xFF then put s 20 7
    else if s.c &&& 0x8000000 = 0 then put s 19 8
    else
      (store s.mem s.bp (b + 1)).bind fun mem =>
      if b + 1 = 0xFF then put { s with mem := mem, c := s.c &&& 0x7FFFFFF } 20 7
      else put { s with mem := mem } 19 8

/-- `opj_mqc_renorme_macro`, `mqc.rs:249-261`. -/
def renorme : Nat → Mqc → Option Mqc
  | 0, _ => none
  | fuel + 1, s =>
    let s := { s with a := shl s.a 1, c := shl s.c 1, ct := wsub s.ct 1 }
    (if s.ct = 0 then byteout s else some s).bind fun s =>
    if s.a &&& 0x8000 ≠ 0 then some s else renorme fuel s

/-- `opj_mqc_codemps_macro`, `mqc.rs:264-278`. -/
def codemps (s : Mqc) (cx : Nat) : Option Mqc :=
  (ctxState s cx).bind fun st =>
  let s := { s with a := wsub s.a st.qe }
  if s.a &&& 0x8000 = 0 then
    let s := if s.a < st.qe then { s with a := st.qe } else { s with c := wadd s.c st.qe }
    renorme 32 (setCtx s cx st.nmps)
  else some { s with c := wadd s.c st.qe }

/-- `opj_mqc_codelps_macro`, `mqc.rs:280-290`. -/
def codelps (s : Mqc) (cx : Nat) : Option Mqc :=
  (ctxState s cx).bind fun st =>
  let s := { s with a := wsub s.a st.qe }
  let s := if s.a < st.qe then { s with c := wadd s.c st.qe } else { s with a := st.qe }
  renorme 32 (setCtx s cx st.nlps)

/-- `opj_mqc_encode`, `mqc.rs:292-299`, in context `cx`. -/
def encode (s : Mqc) (cx d : Nat) : Option Mqc :=
  (ctxState s cx).bind fun st => if st.mps = d then codemps s cx else codelps s cx

/-- `opj_mqc_setbits`, `mqc.rs:470-476`. -/
def setbits (s : Mqc) : Mqc :=
  let tempc := wadd s.c s.a
  let c := s.c ||| 0xFFFF
  { s with c := if c ≥ tempc then wsub c 0x8000 else c }

/-- `opj_mqc_numbytes`, `mqc.rs:482-485`. -/
def numbytes (s : Mqc) : Nat := s.bp - s.start

/-- `opj_mqc_init_enc`, `mqc.rs:487-508`, on the buffer at offset `start`. -/
def initEnc (mem : List UInt8) (start : Nat) (ctxs : List Nat) : Option Mqc :=
  if start = 0 then none
  else (mem[start - 1]?).bind fun b =>
    if b = 0xFF then none else some ⟨mem, start, start - 1, 0, 0x8000, 12, ctxs⟩

/-- `opj_mqc_restart_init_enc`, `mqc.rs:605-622`. -/
def restartInitEnc (s : Mqc) : Option Mqc :=
  if s.bp = 0 ∨ s.bp < s.start then none
  else (s.mem[s.bp - 1]?).bind fun b =>
    if b = 0xFF then none else some { s with a := 0x8000, c := 0, ct := 12, bp := s.bp - 1 }

/-- `opj_mqc_flush`, `mqc.rs:510-524`. -/
def flush (s : Mqc) : Option Mqc :=
  let s := setbits s
  (byteout { s with c := shl s.c s.ct }).bind fun s =>
  (byteout { s with c := shl s.c s.ct }).bind fun s =>
  (s.mem[s.bp]?).map fun b => if b ≠ 0xFF then { s with bp := s.bp + 1 } else s

/-- The loop of `opj_mqc_erterm_enc`, `mqc.rs:626-631`. -/
def ertermLoop : Nat → Int → Mqc → Option Mqc
  | 0, _, _ => none
  | fuel + 1, k, s =>
    if k > 0 then
      (byteout { s with c := shl s.c s.ct, ct := 0 }).bind fun s => ertermLoop fuel (k - s.ct) s
    else some s

/-- `opj_mqc_erterm_enc`, `mqc.rs:624-635`. -/
def ertermEnc (s : Mqc) : Option Mqc :=
  (ertermLoop 16 (11 - (s.ct : Int) + 1) s).bind fun s =>
  (s.mem[s.bp]?).bind fun b => if b ≠ 0xFF then byteout s else some s

/-- `opj_mqc_segmark_enc`, `mqc.rs:662-668`: the four decisions 1, 0, 1, 0 in context 18. -/
def segmarkEnc (s : Mqc) : Option Mqc :=
  (encode s 18 1).bind fun s => (encode s 18 0).bind fun s => (encode s 18 1).bind fun s => encode s 18 0

/-- Encoding a list of (context, decision) pairs, as the passes of `t1.rs` do. -/
def encodeAll : Mqc → List (Nat × Nat) → Option Mqc
  | s, [] => some s
  | s, (cx, d) :: l => (encode s cx d).bind fun s => encodeAll s l

/-! ## Decoder -/

/-- `opj_mqc_bytein_macro`, `mqc.rs:179-200`. -/
def bytein (s : Mqc) : Option Mqc :=
  (s.mem[s.bp + 1]?).bind fun l => (s.mem[s.bp]?).map fun b =>
  if b = 0xFF then
    if l.toNat > 0x8F then { s with c := wadd s.c 0xFF00, ct := 8 }
    else { s with bp := s.bp + 1, c := wadd s.c (l.toNat <<< 9), ct := 7 }
  else { s with bp := s.bp + 1, c := wadd s.c (l.toNat <<< 8), ct := 8 }

/-- `opj_mqc_renormd_macro`, `mqc.rs:208-220`. -/
def renormd : Nat → Mqc → Option Mqc
  | 0, _ => none
  | fuel + 1, s =>
    (if s.ct = 0 then bytein s else some s).bind fun s =>
    let s := { s with a := shl s.a 1, c := shl s.c 1, ct := wsub s.ct 1 }
    if s.a ≥ 0x8000 then some s else renormd fuel s

/-- `opj_mqc_decode_macro` with its two exchange helpers, `mqc.rs:125-148` and `223-241`, in context `cx`: the decoded bit. -/
def decode (s : Mqc) (cx : Nat) : Option (Nat × Mqc) :=
  (ctxState s cx).bind fun st =>
  let s := { s with a := wsub s.a st.qe }
  if s.c >>> 16 < st.qe then
    if s.a < st.qe then
      (renormd 32 (setCtx { s with a := st.qe } cx st.nmps)).map fun s => (st.mps, s)
    else
      (renormd 32 (setCtx { s with a := st.qe } cx st.nlps)).map fun s => (if st.mps = 0 then 1 else 0, s)
  else
    let s := { s with c := wsub s.c (shl st.qe 16) }
    if s.a &&& 0x8000 = 0 then
      if s.a < st.qe then
        (renormd 32 (setCtx s cx st.nlps)).map fun s => (if st.mps = 0 then 1 else 0, s)
      else
        (renormd 32 (setCtx s cx st.nmps)).map fun s => (st.mps, s)
    else some (st.mps, s)

/-- The artificial marker written by `opj_mqc_init_dec_common`, `mqc.rs:670-687`, after the `len` bytes at `start`; the two
overwritten bytes must exist. -/
def guard (mem : List UInt8) (start len : Nat) : Option (List UInt8) :=
  (store mem (start + len) 0xFF).bind fun mem => store mem (start + len + 1) 0xFF

/-- `opj_mqc_init_dec`, `mqc.rs:689-712`. -/
def initDec (mem : List UInt8) (start len : Nat) (ctxs : List Nat) : Option Mqc :=
  (guard mem start len).bind fun mem =>
  (if len = 0 then some (0xFF <<< 16) else (mem[start]?).map fun b => b.toNat <<< 16).bind fun c =>
  (bytein ⟨mem, start, start, c, 0, 0, ctxs⟩).map fun s =>
    { s with c := shl s.c 7, ct := wsub s.ct 7, a := 0x8000 }

/-- Decoding one decision in each context of a list. -/
def decodeAll : Mqc → List Nat → Option (List Nat × Mqc)
  | s, [] => some ([], s)
  | s, cx :: l => (decode s cx).bind fun (d, s) => (decodeAll s l).map fun (ds, s) => (d :: ds, s)

/-- `opq_mqc_finish_dec` with `restore_extra`, `mqc.rs:112-116` and `725-728`: puts back the two bytes `b0`, `b1` saved by
`opj_mqc_init_dec_common`. -/
def finishDec (s : Mqc) (len : Nat) (b0 b1 : UInt8) : Option Mqc :=
  (store s.mem (s.start + len) b0).bind fun mem => (store mem (s.start + len + 1) b1).map fun mem => { s with mem := mem }

/-! ## Raw (bypass) coding -/

/-- `BYPASS_CT_INIT`, `consts.rs:340`. -/
def bypassCtInit : Nat := 0xDEADBEEF

/-- `opj_mqc_bypass_init_enc`, `mqc.rs:526-541`. -/
def bypassInitEnc (s : Mqc) : Option Mqc :=
  if s.bp < s.start ∨ s.bp = 0 then none
  else (s.mem[s.bp - 1]?).bind fun b => if b = 0xFF then none else some { s with c := 0, ct := bypassCtInit }

/-- `opj_mqc_bypass_enc_macro`, `mqc.rs:301-318`. -/
def bypassEnc (s : Mqc) (d : Nat) : Option Mqc :=
  let s := if s.ct = bypassCtInit then { s with ct := 8 } else s
  let s := { s with ct := wsub s.ct 1 }
  let s := { s with c := wadd s.c (shl d s.ct) }
  if s.ct = 0 then
    (store s.mem s.bp (UInt8.ofNat s.c)).map fun mem =>
      { s with mem := mem, ct := if UInt8.ofNat s.c = 0xFF then 7 else 8, bp := s.bp + 1, c := 0 }
  else some s

/-- The filling loop of `opj_mqc_bypass_flush_enc`, `mqc.rs:571-575`; the first argument is `ct`. -/
def bypassFill : Nat → Nat → Nat → Nat
  | 0, c, _ => c
  | ct + 1, c, bit => bypassFill ct (wadd c (bit <<< ct)) (1 - bit)

/-- `opj_mqc_bypass_flush_enc`, `mqc.rs:558-596`; the byte before `bp` is read first, which the code does in all but the first case. -/
def bypassFlushEnc (s : Mqc) (erterm : Bool) : Option Mqc :=
  if s.bp = 0 then none else
  (s.mem[s.bp - 1]?).bind fun p =>
  (if s.ct < 7 ∨ (s.ct = 7 ∧ (erterm = true ∨ p ≠ 0xFF)) then
    (store s.mem s.bp (UInt8.ofNat (bypassFill s.ct s.c 0))).map fun mem =>
      { s with mem := mem, c := bypassFill s.ct s.c 0, ct := 0, bp := s.bp + 1 }
  else if s.ct = 7 ∧ p = 0xFF then
    if erterm = true then none else some { s with bp := s.bp - 1 }
  else if s.ct = 8 ∧ erterm = false ∧ p = 0x7F then
    if s.bp < 2 then none
    else (s.mem[s.bp - 2]?).map fun p2 => if p2 = 0xFF then { s with bp := s.bp - 2 } else s
  else some s).bind fun s =>
  if s.bp = 0 then none
  else (s.mem[s.bp - 1]?).bind fun b => if b = 0xFF then none else some s

/-- `opj_mqc_raw_init_dec`, `mqc.rs:714-723`. -/
def rawInitDec (mem : List UInt8) (start len : Nat) (ctxs : List Nat) : Option Mqc :=
  (guard mem start len).map fun mem => ⟨mem, start, start, 0, 0, 0, ctxs⟩

/-- `opj_mqc_raw_decode`, `mqc.rs:154-176`. -/
def rawDecode (s : Mqc) : Option (Nat × Mqc) :=
  (if s.ct = 0 then
    (s.mem[s.bp]?).map fun b =>
    if s.c = 0xFF then
      if b.toNat > 0x8F then { s with c := 0xFF, ct := 8 }
      else { s with c := b.toNat, bp := s.bp + 1, ct := 7 }
    else { s with c := b.toNat, bp := s.bp + 1, ct := 8 }
  else some s).bind fun s =>
  let s := { s with ct := wsub s.ct 1 }
  if s.ct < 32 then some (s.c >>> s.ct &&& 1, s) else none

/-- Writing a list of raw bits. -/
def bypassEncAll : Mqc → List Nat → Option Mqc
  | s, [] => some s
  | s, d :: l => (bypassEnc s d).bind fun s => bypassEncAll s l

/-- Reading `n` raw bits. -/
def rawDecodeAll : Nat → Mqc → Option (List Nat × Mqc)
  | 0, s => some ([], s)
  | n + 1, s => (rawDecode s).bind fun (d, s) => (rawDecodeAll n s).map fun (ds, s) => (d :: ds, s)

/-- The contexts a code block starts with, `opj_mqc_resetstates` and three `opj_mqc_setstate`, `mqc.rs:730-738`,
`t1.rs:2795-2798`: 18 is the uniform context (state 46), 17 run length (state 3), 0 the first zero-coding context (state 4). -/
def startCtxs : List Nat := (((List.replicate 19 0).set 18 92).set 17 6).set 0 8

end Jp2.Mqc

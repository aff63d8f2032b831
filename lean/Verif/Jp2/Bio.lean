/-!
# Packet-header bit I/O: `openjp2-rs/src/bio.rs`

`mem` is the caller's buffer, so that `start` is index 0 and `end` is `mem.length`; `bp` is the offset
of the current byte. `buf` and `ct` are the `u32` fields. Every load and store of the buffer is
explicit and yields `none` when it falls outside `[start, end)`; `none` also stands for a failed
`assert!` or an arithmetic panic.
-/
namespace Jp2.Bio

/-- `opj_bio`, `bio.rs:6-12`. -/
structure Bio where
  mem : List UInt8
  bp : Nat
  buf : Nat
  ct : Nat
deriving DecidableEq, Repr

/-- A one-byte store through `bp`; `none` when outside the buffer. -/
def store (mem : List UInt8) (i : Nat) (v : UInt8) : Option (List UInt8) :=
  if i < mem.length then some (mem.set i v) else none

/-- `opj_bio_init_enc`, `bio.rs:118-128`. -/
def initEnc (mem : List UInt8) : Bio := ⟨mem, 0, 0, 8⟩

/-- `opj_bio_init_dec`, `bio.rs:130-140`. -/
def initDec (mem : List UInt8) : Bio := ⟨mem, 0, 0, 0⟩

/-- `opj_bio_numbytes`, `bio.rs:114-116`. -/
def numbytes (s : Bio) : Nat := s.bp

/-- `opj_bio_byteout`, `bio.rs:23-33`. The Boolean is the C result. -/
def byteout (s : Bio) : Option (Bio × Bool) :=
  let buf := (s.buf <<< 8 % 2 ^ 32) &&& 0xFFFF
  let ct := if buf = 0xFF00 then 7 else 8
  if s.mem.length ≤ s.bp then some ({ s with buf := buf, ct := ct }, false)
  else match store s.mem s.bp (UInt8.ofNat (buf >>> 8)) with
    | none => none
    | some mem => some (⟨mem, s.bp + 1, buf, ct⟩, true)

/-- `opj_bio_bytein`, `bio.rs:38-48`. -/
def bytein (s : Bio) : Option (Bio × Bool) :=
  let buf := (s.buf <<< 8 % 2 ^ 32) &&& 0xFFFF
  let ct := if buf = 0xFF00 then 7 else 8
  if s.mem.length ≤ s.bp then some ({ s with buf := buf, ct := ct }, false)
  else match s.mem[s.bp]? with
    | none => none
    | some b => some (⟨s.mem, s.bp + 1, buf ||| b.toNat, ct⟩, true)

/-- `opj_bio_getbit`, `bio.rs:91-98`. `wrapping_sub(1)` on `ct`; a shift by 32 or more would panic. -/
def getbit (s : Bio) : Option (Nat × Bio) :=
  let go (s : Bio) : Option (Nat × Bio) :=
    let ct := (s.ct + (2 ^ 32 - 1)) % 2 ^ 32
    if ct < 32 then some (s.buf >>> ct &&& 1, { s with ct := ct }) else none
  if s.ct = 0 then
    match bytein s with
    | none => none
    | some (s', _) => go s'
  else go s

/-- `opj_bio_putbit`, `bio.rs:146-153`; `b` is 0 or 1 in every call. `ct -= 1` panics on 0. -/
def putbit (s : Bio) (b : Nat) : Option Bio :=
  let go (s : Bio) : Option Bio :=
    if s.ct = 0 then none
    else some { s with ct := s.ct - 1, buf := s.buf ||| (b <<< (s.ct - 1) % 2 ^ 32) }
  if s.ct = 0 then
    match byteout s with
    | none => none
    | some (s', _) => go s'
  else go s

/-- The loop of `opj_bio_write`, `bio.rs:158-162`: bits `n-1` down to 0 of `v`. -/
def writeLoop (s : Bio) (v : Nat) : Nat → Option Bio
  | 0 => some s
  | i + 1 =>
    match putbit s (v >>> i &&& 1) with
    | none => none
    | some s' => writeLoop s' v i

/-- `opj_bio_write`, `bio.rs:155-163`, with its `assert!`. -/
def write (s : Bio) (v n : Nat) : Option Bio :=
  if 0 < n ∧ n ≤ 32 then writeLoop s v n else none

/-- The loop of `opj_bio_read`, `bio.rs:170-175`. -/
def readLoop (s : Bio) (v : Nat) : Nat → Option (Nat × Bio)
  | 0 => some (v, s)
  | i + 1 =>
    match getbit s with
    | none => none
    | some (b, s') => readLoop s' (v ||| (b <<< i % 2 ^ 32)) i

/-- `opj_bio_read`, `bio.rs:165-177`, with its `assert!`; `n > 32` would overflow the shift. -/
def read (s : Bio) (n : Nat) : Option (Nat × Bio) :=
  if 0 < n ∧ n ≤ 32 then readLoop s 0 n else none

/-- `opj_bio_flush`, `bio.rs:179-187`. -/
def flush (s : Bio) : Option (Bio × Bool) :=
  match byteout s with
  | none => none
  | some (s', false) => some (s', false)
  | some (s', true) =>
    if s'.ct = 7 then byteout s' else some (s', true)

/-- `opj_bio_inalign`, `bio.rs:189-195`. -/
def inalign (s : Bio) : Option (Bio × Bool) :=
  if s.buf &&& 0xFF = 0xFF then
    match bytein s with
    | none => none
    | some (s', false) => some (s', false)
    | some (s', true) => some ({ s' with ct := 0 }, true)
  else some ({ s with ct := 0 }, true)

end Jp2.Bio

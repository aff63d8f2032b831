/-!
# Byte streams, `openjp2-rs/src/stream.rs`

File-backed streams. `BufReader`/`BufWriter` over a file are modelled by what their documentation promises: a logical position in
the bytes of the file, reads that may be short, and failures; where the buffer boundaries fall is part of the schedule of short reads. Offsets
are unbounded integers (a file of 2^63 bytes is out of reach). Custom streams (callbacks) are not modelled.
-/
namespace Jp2.Stream

/-- What one call of the inner `read` does: give at most so many bytes (but at least one when there is one), be interrupted, or fail. -/
inductive Ev
  | upTo (k : Nat)
  | intr
  | fail
  deriving DecidableEq

/-- `StreamInner::Reader`, `stream.rs:187-192`: the file, the position of the next byte, and the coming events. -/
structure Inner where
  data : List UInt8
  pos : Nat
  sched : List Ev
  deriving DecidableEq

inductive Err
  | eof
  | interrupted
  | io
  | past
  | neg
  deriving DecidableEq

/-- `<StreamInner as Read>::read`, `stream.rs:236-244`, on a buffer of `n` bytes. -/
def Inner.read (s : Inner) (n : Nat) : Except Err (List UInt8) × Inner :=
  let give (k : Nat) (sched : List Ev) : Except Err (List UInt8) × Inner :=
    let m := min (min n (s.data.length - s.pos)) (max 1 k)
    (.ok ((s.data.drop s.pos).take m), { s with pos := s.pos + m, sched := sched })
  match s.sched with
  | [] => give n []
  | .upTo k :: t => give k t
  | .intr :: t => (.error .interrupted, { s with sched := t })
  | .fail :: t => (.error .io, { s with sched := t })

/-- The default `Read::read_exact`, which `StreamInner` inherits (`stream.rs:346`): the bytes placed at the front of the buffer, whether it was
filled, and the stream after. `fuel` bounds the calls. -/
def Inner.readExact : Nat → Inner → Nat → List UInt8 → Except Err Unit × List UInt8 × Inner
  | 0, s, _, acc => (.error .io, acc, s)
  | fuel + 1, s, n, acc =>
    if n = 0 then (.ok (), acc, s)
    else match s.read n with
      | (.ok bs, s) => if bs.isEmpty then (.error .eof, acc, s) else readExact fuel s (n - bs.length) (acc ++ bs)
      | (.error .interrupted, s) => readExact fuel s n acc
      | (.error e, s) => (.error e, acc, s)

/-- `seek_relative` on a reader, `stream.rs:211-224`: refused before the start of the file, allowed past its end. -/
def Inner.seekRelative (s : Inner) (d : Int) : Except Err Unit × Inner :=
  if (s.pos : Int) + d < 0 then (.error .io, s) else (.ok (), { s with pos := ((s.pos : Int) + d).toNat })

/-- `Stream` (`opj_stream_private_t`), with `m_stream_length` and `m_byte_offset`. -/
structure Stream where
  inner : Inner
  len : Nat
  off : Int
  deriving DecidableEq

/-- `Stream::new_file` for input, `stream.rs:277-291`. -/
def newFile (data : List UInt8) (sched : List Ev) : Stream := ⟨⟨data, 0, sched⟩, data.length, 0⟩

/-- Bytes written at the front of a buffer. -/
def over (buf bs : List UInt8) : List UInt8 := bs ++ buf.drop bs.length

/-- `Stream::read`, `stream.rs:344-365`: the answer, the buffer and the stream after. -/
def Stream.read (s : Stream) (buf : List UInt8) : Except Err Nat × List UInt8 × Stream :=
  match s.inner.readExact (buf.length + s.inner.sched.length + 1) buf.length [] with
  | (.ok (), bs, i) => (.ok buf.length, over buf bs, { s with inner := i, off := s.off + buf.length })
  | (.error _, bs, i) =>
    match i.read buf.length with
    | (.ok bs', i) => (.ok bs'.length, over (over buf bs) bs', { s with inner := i, off := s.off + bs'.length })
    | (.error e, i) => (.error e, over buf bs, { s with inner := i })

/-- `Stream::tell`, `stream.rs:387-390`. -/
def Stream.tell (s : Stream) : Int := s.off

/-- `Stream::get_bytes_left`, `stream.rs:392-403`; `none` is the panic of an `assert!`. -/
def Stream.bytesLeft (s : Stream) : Option Int :=
  if s.off < 0 then none
  else if (s.len : Int) < s.off then none
  else some (if s.len ≠ 0 then s.len - s.off else 0)

/-- `Stream::skip`, `stream.rs:405-433`. -/
def Stream.skip (s : Stream) (count : Int) : Except Err Int × Stream :=
  if count < 0 then (.error .neg, s)
  else if s.len > 0 ∧ (s.off + count) % 2 ^ 64 > s.len then (.error .past, s)
  else match s.inner.seekRelative count with
    | (.ok (), i) => (.ok count, { s with inner := i, off := s.off + count })
    | (.error e, i) => (.error e, { s with inner := i })

/-- `Stream::seek`, `stream.rs:435-448`. -/
def Stream.seek (s : Stream) (offset : Int) : Except Err Unit × Stream :=
  match s.inner.seekRelative (offset - s.off) with
  | (.ok (), i) => (.ok (), { s with inner := i, off := offset })
  | (.error e, i) => (.error e, { s with inner := i })

/-! ## Writers -/

/-- An output stream, `StreamInner::Writer`: the bytes of the file once flushed, the position, and `m_byte_offset`. Writes are taken to succeed. -/
structure Out where
  data : List UInt8
  pos : Nat
  off : Int
  deriving DecidableEq

/-- Writing at a position, filling a gap with zeros as a file does. -/
def put (data : List UInt8) (pos : Nat) (bs : List UInt8) : List UInt8 :=
  if bs = [] then data
  else (data ++ List.replicate (pos - data.length) 0).take pos ++ bs ++ data.drop (pos + bs.length)

/-- `Stream::write`, `stream.rs:367-380`. -/
def Out.write (s : Out) (bs : List UInt8) : Nat × Out := (bs.length, ⟨put s.data s.pos bs, s.pos + bs.length, s.off + bs.length⟩)

/-- `Stream::seek` on an output stream, `stream.rs:435-448` and `214-217`. -/
def Out.seek (s : Out) (offset : Int) : Except Err Unit × Out :=
  if (s.pos : Int) + (offset - s.off) < 0 then (.error .io, s)
  else (.ok (), { s with pos := ((s.pos : Int) + (offset - s.off)).toNat, off := offset })

/-- `Stream::skip` on an output stream (its length is 0), `stream.rs:405-433`. -/
def Out.skip (s : Out) (count : Int) : Except Err Int × Out :=
  if count < 0 then (.error .neg, s)
  else if (s.pos : Int) + count < 0 then (.error .io, s)
  else (.ok count, { s with pos := ((s.pos : Int) + count).toNat, off := s.off + count })

/-- `Stream::tell`, `stream.rs:387-390`. -/
def Out.tell (s : Out) : Int := s.off

end Jp2.Stream

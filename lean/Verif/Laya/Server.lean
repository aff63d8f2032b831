/-!
# The server glue: `src/lib.rs` (`hyper_compat`)
-/
namespace Laya.Server

abbrev Bytes := List UInt8

/-! ## `ResponseBody` -/

/-- `ResponseBody`, `src/lib.rs:83-87`. -/
structure ResponseBody where
  data : Option Bytes

/-- `ResponseBody::new`, `src/lib.rs:90-92`. -/
def ResponseBody.new (body : Bytes) : ResponseBody := ⟨some body⟩

/-- `poll_frame`, `src/lib.rs:98-103`: `data.take()`; always ready, never an error. The first component
is the frame (`none`: end of body). -/
def ResponseBody.pollFrame (b : ResponseBody) : Option Bytes × ResponseBody :=
  (b.data, ⟨none⟩)

/-- The results of `n` successive polls. -/
def ResponseBody.polls (b : ResponseBody) : Nat → List (Option Bytes)
  | 0 => []
  | n + 1 => let (f, b') := b.pollFrame; f :: b'.polls n

/-! ## `HyperStream::poll_read` -/

/-- What the socket's own `poll_read` does with the slice it is given. -/
inductive SocketRead where
  | pending
  /-- `Ok(n)`, having stored these `n` bytes. -/
  | ok (bytes : Bytes)
  | err

/-- What hyper sees. -/
inductive ReadResult where
  | pending
  | ok
  | err
deriving DecidableEq, Repr

/-- `HyperStream::poll_read`, `src/lib.rs:61-81`. `filled` is the filled part of hyper's buffer. The
zeroing of the unfilled part (line 70) is not observable and not modelled. -/
def pollRead (filled : Bytes) : SocketRead → ReadResult × Bytes
  | .pending => (.pending, filled)
  | .ok bytes => (.ok, filled ++ bytes)
  | .err => (.ok, filled)

/-! ## `serve_http2` -/

/-- One shard. A connection is a number, in order of acceptance. -/
structure Shard where
  /-- connections accepted so far -/
  accepted : Nat
  /-- spawned, awaiting a permit -/
  waiting : List Nat
  /-- holding a permit, being served -/
  serving : List Nat
  /-- finished -/
  closed : List Nat
  /-- permits left in `conn_control` -/
  permits : Nat
  /-- `serve_http2` is still in its loop -/
  up : Bool
deriving DecidableEq, Repr

/-- `src/lib.rs:118-119`. -/
def Shard.init (max : Nat) : Shard := ⟨0, [], [], [], max, true⟩

inductive Event where
  /-- `accept()` and `local_addr()` succeed; the task is spawned (lines 125-134) -/
  | accept
  /-- `accept()` fails (lines 122-124) -/
  | acceptErr
  /-- `local_addr()` fails on an accepted stream (line 126) -/
  | localAddrErr
  /-- the task of connection `i` obtains its permit (line 130) -/
  | admit (i : Nat)
  /-- `serve_connection` of `i` returns and its permit is dropped (lines 131-134) -/
  | finish (i : Nat)
deriving DecidableEq, Repr

/-- One step of one shard, `src/lib.rs:120-137`; `none` if the event cannot happen now. The order in
which the semaphore wakes waiters is left open (any waiter may be next). `.unwrap()` at line 173 turns
an error returned from the loop into a panic of the shard: `up` goes to `false`. Connections already
spawned are kept: whether they survive the panic is up to the executor and is not claimed. -/
def Shard.step (s : Shard) : Event → Option Shard
  | .accept => if s.up then
      some { s with accepted := s.accepted + 1, waiting := s.waiting ++ [s.accepted] } else none
  | .acceptErr => if s.up then some { s with up := false } else none
  | .localAddrErr => if s.up then some { s with up := false } else none
  | .admit i => if i ∈ s.waiting ∧ 1 ≤ s.permits then
      some { s with waiting := s.waiting.erase i, serving := s.serving ++ [i], permits := s.permits - 1 }
      else none
  | .finish i => if i ∈ s.serving then
      some { s with serving := s.serving.erase i, closed := s.closed ++ [i], permits := s.permits + 1 }
      else none

/-- A history: the events happen one after another. -/
def Shard.run (s : Shard) : List Event → Option Shard
  | [] => some s
  | e :: es => (s.step e).bind fun s' => s'.run es

end Laya.Server

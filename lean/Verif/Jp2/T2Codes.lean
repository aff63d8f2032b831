import Verif.Jp2.Bio
/-!
# Packet-header codes: `openjp2-rs/src/t2.rs` 72-119

`none` is a panic of the underlying bit coder, of the overflow check on `n += 1`, or a loop that has
not ended.
-/
namespace Jp2.Bio

/-- The loop of `opj_t2_putcommacode`, `t2.rs:73-75`: `n` one-bits. -/
def putOnes (s : Bio) : Nat → Option Bio
  | 0 => some s
  | n + 1 => (putbit s 1).bind fun s' => putOnes s' n

/-- `opj_t2_putcommacode`, `t2.rs:72-77` (`n ≥ 0` in every call). -/
def putcommacode (s : Bio) (n : Nat) : Option Bio :=
  (putOnes s n).bind fun s' => putbit s' 0

/-- The loop of `opj_t2_getcommacode`, `t2.rs:80-82`, for at most `fuel` iterations. -/
def getcommaLoop : Nat → Bio → Nat → Option (Nat × Bio)
  | 0, _, _ => none
  | fuel + 1, s, n =>
    match read s 1 with
    | none => none
    | some (b, s') =>
      if b ≠ 0 then
        if n + 1 < 2 ^ 32 then getcommaLoop fuel s' (n + 1) else none
      else some (n, s')

/-- `opj_t2_getcommacode`, `t2.rs:78-84`. The `while` loop has no bound in the code; here it is cut off
(`none`) after one iteration more than there are bits left, and `C40` shows that it always ends by
then. -/
def getcommacode (s : Bio) : Option (Nat × Bio) :=
  getcommaLoop (s.ct + 8 * (s.mem.length - s.bp) + 1) s 0

/-- `opj_t2_putnumpasses`, `t2.rs:89-101`; nothing is written for `n > 164`. -/
def putnumpasses (s : Bio) (n : Nat) : Option Bio :=
  if n = 1 then putbit s 0
  else if n = 2 then write s 2 2
  else if n ≤ 5 then write s (0xC ||| (n + 2 ^ 32 - 3) % 2 ^ 32) 4
  else if n ≤ 36 then write s (0x1E0 ||| (n + 2 ^ 32 - 6) % 2 ^ 32) 9
  else if n ≤ 164 then write s (0xFF80 ||| (n + 2 ^ 32 - 37) % 2 ^ 32) 16
  else some s

/-- `opj_t2_getnumpasses`, `t2.rs:102-119`. -/
def getnumpasses (s : Bio) : Option (Nat × Bio) :=
  (read s 1).bind fun (b, s) =>
  if b = 0 then some (1, s) else
  (read s 1).bind fun (b, s) =>
  if b = 0 then some (2, s) else
  (read s 2).bind fun (n, s) =>
  if n ≠ 3 then some ((3 + n) % 2 ^ 32, s) else
  (read s 5).bind fun (n, s) =>
  if n ≠ 31 then some ((6 + n) % 2 ^ 32, s) else
  (read s 7).bind fun (n, s) => some ((37 + n) % 2 ^ 32, s)

end Jp2.Bio

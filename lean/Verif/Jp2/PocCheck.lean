import Verif.Jp2.Setup
/-!
# The check of progression order changes, `opj_j2k_check_poc_val`, `openjp2-rs/src/j2k.rs:743-827`

`opj_j2k_setup_encoder` runs it for every tile that has changes (`j2k.rs:7386-7394`). The result is only reported: the message "Missing packets possible
loss of data". Allocation succeeds. Indices are `u32` and wrap; the size of the array is computed in 64 bits.
-/
namespace Jp2.Setup
open Jp2.Hdr (R Fail)

/-- `*packet_array.offset(i) = 1`, `j2k.rs:789`. -/
def mark (i : Nat) (a : List Nat) : R (List Nat) := if i < a.length then .ok (a.set i 1) else .error .oob

/-- A loop that moves an index on by `step`: over layers, `j2k.rs:788-793`; over components, `j2k.rs:782-797`; over resolutions, `j2k.rs:777-800`. -/
def walk (body : Nat → List Nat → R (List Nat)) (step : Nat) : Nat → Nat → List Nat → R (List Nat)
  | 0, _, a => .ok a
  | k + 1, i, a => do
    let a ← body i a
    walk body step k ((i + step) % 2 ^ 32) a

/-- One change, `j2k.rs:774-801`, for `nr` resolutions, `nc` components and `nl` layers. -/
def markChange (nr nc nl : Nat) (c : Change) (a : List Nat) : R (List Nat) :=
  walk (fun ri => walk (walk mark (nr * nc % 2 ^ 32) (min c.layno1 nl)) 1 (min c.compno1 nc - c.compno0) ((ri + c.compno0) % 2 ^ 32))
    nc (min c.resno1 nr - c.resno0) (nc * c.resno0 % 2 ^ 32) a

/-- The loop over the changes, `j2k.rs:771-803`. -/
def markAll (tile nr nc nl : Nat) : List Change → List Nat → R (List Nat)
  | [], a => .ok a
  | c :: l, a => do
    let a ← if (tile + 1) % 2 ^ 32 = c.tile then markChange nr nc nl c a else .ok a
    markAll tile nr nc nl l a

/-- The array is read from `i` on, `k` words, `j2k.rs:804-818`: whether all are marked. -/
def allMarked (a : List Nat) : Nat → Nat → R Bool
  | 0, _ => .ok true
  | k + 1, i =>
    match a[i]? with
    | none => .error .oob
    | some v => do
      let r ← allMarked a k ((i + 1) % 2 ^ 32)
      return v == 1 && r

/-- `opj_j2k_check_poc_val`, `j2k.rs:743-827`: false if the message is given. -/
def checkPocs (tile nr nc nl : Nat) (l : List Change) : R Bool := do
  if l = [] then throw .panic
  let a ← markAll tile nr nc nl l (List.replicate (nr * nc % 2 ^ 32 * nl) 0)
  allMarked a (nl * nr * nc) 0

end Jp2.Setup

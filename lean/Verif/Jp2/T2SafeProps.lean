import Verif.Jp2.T2SafeLoop
import Verif.Jp2.T2Props
/-!
# C47: packets read from any bytes
-/
namespace Jp2.T2
open Jp2.Bio Jp2.Tgt

/-- Whatever the bytes, in the codestream and in packed packet headers, reading the packets of a new tile — any packets, each once — does
not panic or leave an allocation. If it succeeds it has read no more than there is, and the segments of every block exist. -/
theorem C47_any_bytes_no_panic (m : Mode) (csty : Nat) (sty : Nat → Nat) (strict : Bool) (want : Want) (ps : List Pi.Pkt) (hn : ps.Nodup)
    (hl : ∀ p ∈ ps, p.layno < 65536) (t : Tile) (ht : ∀ c r k, ∀ b ∈ t c r k, NewBand m b)
    (packed : Option (List UInt8)) (src : List UInt8) (hs : src.length < 2 ^ 28) (hp : ∀ a, packed = some a → a.length < 2 ^ 28) :
    decodePackets csty sty strict want ps packed t src ≠ .error .panic ∧
    ∀ n pk t', decodePackets csty sty strict want ps packed t src = .ok (n, pk, t') →
      n ≤ src.length ∧ ∀ c r k, (t' c r k).length = (t c r k).length ∧
        ∀ b ∈ t' c r k, b.empty = false → ∀ d ∈ b.prec.cblks, d.realNumSegs ≤ d.segs.length := by
  have h := decodePackets_safe (m := m) (csty := csty) (sty := sty) (strict := strict) (want := want) ps (fun _ _ => 0) (fun _ _ _ => Nat.le_refl _)
    (fun _ _ _ => ⟨by omega, fun h => by omega⟩) (fun _ => True) (fun _ _ _ => trivial) (fun _ _ _ _ => by omega) trivial (fun _ => 0)
    (fun q => by have := count_le hn hl q; omega) packed t src (by omega) (fun a ha => by have := hp a ha; omega)
    (fun c r k b hb => newBand_ready (ht c r k b hb))
  cases hd : decodePackets csty sty strict want ps packed t src with
  | error e =>
    rw [hd] at h
    refine ⟨fun he => ?_, fun _ _ _ h => by cases h⟩
    cases he
    exact h
  | ok r =>
    rw [hd] at h
    refine ⟨fun he => by (cases he), fun n pk t' e => ?_⟩
    simp only [Except.ok.injEq] at e
    subst e
    obtain ⟨h1, h2, h3, h4⟩ := h
    exact ⟨h1, fun c r k => ⟨h3 c r k, fun b hb he d hd => ((h4 c r k b hb he).2.choose_spec.choose_spec.2.2 d hd).view⟩⟩

/-- In strict mode, if the packets of each precinct come in the order of the layers, every block can be handed to the block decoder: its
segments claim no more bytes than were received, and hold the passes its style allows. -/
theorem C47_strict_blocks_decodable (m : Mode) (csty : Nat) (sty : Nat → Nat) (want : Want) (ps : List Pi.Pkt) (hn : ps.Nodup)
    (hl : ∀ p ∈ ps, p.layno < 65536)
    (ho : ps.Pairwise fun p q => p.compno = q.compno ∧ p.resno = q.resno ∧ p.precno = q.precno → p.layno ≤ q.layno)
    (t : Tile) (ht : ∀ c r k, ∀ b ∈ t c r k, NewBand m b)
    (packed : Option (List UInt8)) (src : List UInt8) (hs : src.length < 2 ^ 28) (hp : ∀ a, packed = some a → a.length < 2 ^ 28)
    (n : Nat) (pk : Option (List UInt8)) (t' : Tile) (h : decodePackets csty sty true want ps packed t src = .ok (n, pk, t')) :
    ∀ c r k, ∀ b ∈ t' c r k, b.empty = false → ∀ d ∈ b.prec.cblks, Decodable (sty c) d := by
  have hS := decodePackets_safe (m := m) (csty := csty) (sty := sty) (strict := true) (want := want) ps (level true want) (level_le true want)
    (fun p ps hsk => by
      have : level true want (p :: ps) (key p) = 2 := by
        unfold level
        rw [if_neg (by decide), if_pos ⟨p, by simp, rfl, hsk⟩]
      exact ⟨by omega, fun _ => rfl⟩)
    (fun ps => ps.Pairwise fun (p q : Pi.Pkt) => p.compno = q.compno ∧ p.resno = q.resno ∧ p.precno = q.precno → p.layno ≤ q.layno)
    (fun p ps h => (List.pairwise_cons.mp h).2)
    (fun p ps h hsk => by
      unfold level
      rw [if_neg (by decide), if_neg]
      rintro ⟨q, hq, hk, hns⟩
      simp only [key, Prod.mk.injEq] at hk
      have := (List.pairwise_cons.mp h).1 q hq ⟨hk.1.symm, hk.2.1.symm, hk.2.2.symm⟩
      unfold Want.skips at hsk hns
      simp only [hk.1, hk.2.1, hk.2.2, Bool.or_eq_false_iff, decide_eq_false_iff_not] at hns
      simp only [hns.2, Bool.or_false, decide_eq_true_eq] at hsk
      omega) ho (fun _ => 0)
    (fun q => by have := count_le hn hl q; omega) packed t src (by omega) (fun a ha => by have := hp a ha; omega)
    (fun c r k b hb => newBand_ready (ht c r k b hb))
  rw [h] at hS
  obtain ⟨h1, h2, h3, h4⟩ := hS
  intro c r k b hb he d hd
  refine ((h4 c r k b hb he).2.choose_spec.choose_spec.2.2 d hd).decodable ?_
  unfold level
  rw [if_neg (by decide)]
  split <;> omega

/-! ## A tile with one precinct -/

theorem ex_create : create .checked 2 1 = some (some (3, exTree)) := by
  obtain ⟨L, t, h1, h2, _⟩ := C31_shape .checked 2 1 (by decide) (by decide) (by decide)
  have h3 : (create .checked 2 1).map (fun r => r.map Prod.fst) = some (some 3) := by decide +kernel
  unfold exTree
  rw [h2] at h3 ⊢
  rw [Option.map_some, Option.map_some, Option.some.injEq, Option.some.injEq] at h3
  have h3' : below 2 1 L = 3 := h3
  rw [h3']
  rfl

def exTile : Tile := fun c r k => if c = 0 ∧ r = 0 ∧ k = 0 then [exDecEmpty, exDec] else []

def exWant : Want := ⟨3, fun _ _ _ => true⟩

theorem ex_new : ∀ c r k, ∀ b ∈ exTile c r k, NewBand .checked b := by
  intro c r k b hb he
  unfold exTile at hb
  split at hb
  · rcases List.mem_cons.mp hb with rfl | hb
    · cases he
    · rw [List.mem_singleton] at hb
      subst hb
      refine ⟨by show (0:Int) ≤ 7 ∧ (7:Int) < 2 ^ 31 - 1; decide, 2, 1, by decide, rfl, fun h => by omega, fun _ => ⟨ex_create, rfl⟩, fun x hx => ?_⟩
      have hx' : x ∈ [({} : DecCblk), {}] := hx
      simp at hx'
      subst hx'
      exact ⟨rfl, rfl, rfl⟩
  · simp at hb

/-- The blocks of the tile's precinct: segments, bytes. -/
def Tile.blocks (t : Tile) : List (List (Nat × Nat) × List (List UInt8)) := (t 0 0 0).flatMap fun b => b.prec.cblks.map fun d => (d.view, d.chunks)

def exPkts : List Pi.Pkt := [⟨0, 0, 0, 0⟩, ⟨1, 0, 0, 0⟩, ⟨2, 0, 0, 0⟩]

-- the hypotheses of both theorems
example : exPkts.Nodup ∧ (∀ p ∈ exPkts, p.layno < 65536) ∧
    exPkts.Pairwise (fun p q => p.compno = q.compno ∧ p.resno = q.resno ∧ p.precno = q.precno → p.layno ≤ q.layno) := by
  refine ⟨by decide, by decide, by simp [exPkts]⟩
-- three packets, read
example : (decodePackets 0 (fun _ => 0) true exWant exPkts none exTile [236, 32, 171, 196, 205, 239, 192, 9, 9]).toOption.map (fun r => (r.1, r.2.2.blocks)) =
    some (7, [([(3, 3)], [[171], [205, 239], []]), ([], [])]) := by decide +kernel
-- only two layers wanted: the third packet is skipped
example : (decodePackets 0 (fun _ => 0) true ⟨2, fun _ _ _ => true⟩ exPkts none exTile [236, 32, 171, 196, 205, 239, 192, 9, 9]).toOption.map
    (fun r => (r.1, r.2.2.blocks)) = some (7, [([(3, 2)], [[171], [205, 239]]), ([], [])]) := by decide +kernel
-- cut short: refused in strict mode
example : (decodePackets 0 (fun _ => 0) true exWant exPkts none exTile [236, 32, 171, 196, 205]).toOption.isNone = true := by decide +kernel

/-- FALSE in general: a band with a negative number of bit planes (`expn + numgbits - 1` is -1 when a quantization marker says no guard
bits and exponent 0, `tcd.rs:1113`) panics in a build with overflow checks, on the first packet with a block in it. -/
theorem C47_no_guard_bits_panics : ∃ src : List UInt8, src.length = 1 ∧
    decodePackets 0 (fun _ => 0) true exWant [⟨0, 0, 0, 0⟩] none (fun _ _ _ => [{ exDec with numbps := -1 }]) src = .error .panic := by
  refine ⟨[236], rfl, ?_⟩
  have : (match decodePackets 0 (fun _ => 0) true exWant [⟨0, 0, 0, 0⟩] none (fun _ _ _ => [{ exDec with numbps := -1 }]) [236] with
    | .error .panic => true | _ => false) = true := by decide +kernel
  split at this
  · assumption
  · cases this

/-- FALSE outside strict mode: with packed packet headers, a packet cut short drops the bytes of a block but not the lengths of its
segments, and an empty contribution in a later packet revives the block: its segments claim a byte and nothing is there. -/
theorem C47_not_strict_claims_too_much : ∃ (packed src : List UInt8) (n : Nat) (pk : Option (List UInt8)) (t : Tile),
    decodePackets 0 (fun _ => 0) false exWant exPkts (some packed) exTile src = .ok (n, pk, t) ∧
    t.blocks = [([(1, 3)], [[]]), ([], [])] := by
  have h : (decodePackets 0 (fun _ => 0) false exWant exPkts (some [236, 32, 196, 192]) exTile [171]).toOption.map (fun r => r.2.2.blocks) =
      some [([(1, 3)], [[]]), ([], [])] := by decide +kernel
  cases hd : decodePackets 0 (fun _ => 0) false exWant exPkts (some [236, 32, 196, 192]) exTile [171] with
  | error e => rw [hd] at h; cases h
  | ok r =>
    rw [hd] at h
    simp only [Except.toOption, Option.map_some, Option.some.injEq] at h
    exact ⟨_, _, _, _, _, hd, h⟩

end Jp2.T2

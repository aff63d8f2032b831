import Verif.Jp2.T2SkipLoop
import Verif.Jp2.T2SafeProps
/-!
# C49: skipping packets is decoding them and forgetting the result
-/
namespace Jp2.T2
open Jp2.Bio Jp2.Tgt

/-- In strict mode, decoding the packets of a tile with some layers and precincts left out gives what decoding every packet, and keeping
the results of those wanted, gives: it fails when that fails, in the same way, and otherwise takes the same bytes and leaves every block
with the segments and bytes of the packets wanted, and the number of bit planes all the packets say. -/
theorem C49_skip_is_decode_and_forget (m : Mode) (csty : Nat) (sty : Nat → Nat) (want : Want) (ps : List Pi.Pkt) (hn : ps.Nodup)
    (hl : ∀ p ∈ ps, p.layno < 65536)
    (ho : ps.Pairwise fun p q => p.compno = q.compno ∧ p.resno = q.resno ∧ p.precno = q.precno → p.layno ≤ q.layno)
    (t : Tile) (ht : ∀ c r k, ∀ b ∈ t c r k, NewBand m b)
    (hu : ∀ c r k, ∀ b ∈ t c r k, ∀ d ∈ b.prec.cblks, ∀ sg ∈ d.segs, sg.newlen < 2 ^ 32)
    (packed : Option (List UInt8)) (src : List UInt8) (hs : src.length < 2 ^ 28) (hp : ∀ a, packed = some a → a.length < 2 ^ 28) :
    match decodePackets csty sty true want ps packed t src, keepWanted csty sty want ps packed t t src with
    | .ok (n, pk, got), .ok (n', pk', full, out) => n = n' ∧ pk = pk' ∧ ∀ c r k,
      (got c r k).map DecBand.shown = (out c r k).map DecBand.shown ∧ (got c r k).map DecBand.planes = (full c r k).map DecBand.planes
    | .error e, .error f => e = f
    | _, _ => False := by
  have h := decodePackets_keep (m := m) (csty := csty) (sty := sty) (want := want) ps hn ho (fun _ => 0)
    (fun q => by have := count_le hn hl q; omega) packed t t t src (by omega) (fun a ha => by have := hp a ha; omega)
    { alike := fun c r k => forall2_refl BandEq.refl _
      shown := fun _ _ _ => rfl
      same := fun _ _ _ _ => ⟨rfl, rfl⟩
      bare := fun p _ _ b hb he d hd => by
        obtain ⟨_, _, _, _, _, _, _, h6⟩ := ht _ _ _ b hb he
        exact (h6 d hd).2.1
      short := fun c r k b hb _ d hd sg hsg => hu c r k b hb d hd sg hsg
      ready := fun c r k b hb => newBand_ready (ht c r k b hb) }
  revert h
  generalize decodePackets csty sty true want ps packed t src = X
  generalize keepWanted csty sty want ps packed t t src = Y
  intro h
  rcases X with e | ⟨n, pk, got⟩ <;> rcases Y with f | ⟨n', pk', full, out⟩
  · exact h
  · exact h.elim
  · exact h.elim
  · exact ⟨h.1, h.2.1, fun c r k => ⟨(h.2.2 c r k).2, (planes_eq (h.2.2 c r k).1).symm⟩⟩

/-! ### What `keepWanted` keeps -/

theorem keepWanted_all {csty : Nat} {sty : Nat → Nat} {want all : Want} (ps : List Pi.Pkt) (ha : ∀ p ∈ ps, all.skips p = false)
    (packed : Option (List UInt8)) (t out : Tile) (src : List UInt8) :
    Alike (fun (x : Nat × Option (List UInt8) × Tile) (y : Nat × Option (List UInt8) × Tile × Tile) => x = (y.1, y.2.1, y.2.2.1) ∧
      (∀ c r k, (∀ p ∈ ps, (p.compno, p.resno, p.precno) = (c, r, k) → want.skips p = false) → t c r k = out c r k → y.2.2.1 c r k = y.2.2.2 c r k) ∧
      (∀ c r k, (∀ p ∈ ps, (p.compno, p.resno, p.precno) = (c, r, k) → want.skips p = true) → y.2.2.2 c r k = out c r k))
      (decodePackets csty sty true all ps packed t src) (keepWanted csty sty want ps packed t out src) := by
  induction ps generalizing packed t out src with
  | nil => exact ⟨rfl, fun _ _ _ _ h => h, fun _ _ _ _ => rfl⟩
  | cons p ps ih =>
    unfold decodePackets keepWanted onePacket
    rw [if_neg (by rw [ha p (by simp)]; decide)]
    refine Alike.bind (R := fun a b => a = b) (Alike.refl _) ?_
    rintro ⟨n, pk, bs⟩ _ rfl
    refine Alike.bind (ih (fun q hq => ha q (by simp [hq])) pk _ _ _) ?_
    rintro _ ⟨k', pk', t', o'⟩ ⟨rfl, h2, h3⟩
    refine ⟨rfl, fun c r k hw he => ?_, fun c r k hw => ?_⟩
    · refine h2 c r k (fun q hq => hw q (by simp [hq])) ?_
      by_cases hk : key p = (c, r, k)
      · rw [hw p (by simp) hk, if_neg (by decide), tile_set_of hk, tile_set_of hk]
      · rw [tile_set_ne hk, he]
        split
        · rfl
        · rw [tile_set_ne hk]
    · refine (h3 c r k (fun q hq => hw q (by simp [hq]))).trans ?_
      by_cases hk : key p = (c, r, k)
      · rw [hw p (by simp) hk, if_pos rfl]
      · split
        · rfl
        · rw [tile_set_ne hk]

/-- Decoding part of a tile agrees with decoding all of it: when all of it can be decoded so can the part, from the same bytes; precincts
of which every packet is wanted come out the same, and those of which none is wanted stay empty. -/
theorem C49_part_agrees_with_whole (m : Mode) (csty : Nat) (sty : Nat → Nat) (all want : Want) (ps : List Pi.Pkt) (hn : ps.Nodup)
    (hl : ∀ p ∈ ps, p.layno < 65536)
    (ho : ps.Pairwise fun p q => p.compno = q.compno ∧ p.resno = q.resno ∧ p.precno = q.precno → p.layno ≤ q.layno)
    (ha : ∀ p ∈ ps, p.layno < all.layers ∧ all.prec p.compno p.resno p.precno = true)
    (t : Tile) (ht : ∀ c r k, ∀ b ∈ t c r k, NewBand m b)
    (hu : ∀ c r k, ∀ b ∈ t c r k, ∀ d ∈ b.prec.cblks, ∀ sg ∈ d.segs, sg.newlen < 2 ^ 32)
    (packed : Option (List UInt8)) (src : List UInt8) (hs : src.length < 2 ^ 28) (hp : ∀ a, packed = some a → a.length < 2 ^ 28)
    (n : Nat) (pk : Option (List UInt8)) (full : Tile) (h : decodePackets csty sty true all ps packed t src = .ok (n, pk, full)) :
    ∃ got, decodePackets csty sty true want ps packed t src = .ok (n, pk, got) ∧ ∀ c r k,
      ((∀ p ∈ ps, p.compno = c ∧ p.resno = r ∧ p.precno = k → p.layno < want.layers ∧ want.prec c r k = true) →
        (got c r k).map DecBand.shown = (full c r k).map DecBand.shown) ∧
      ((∀ p ∈ ps, p.compno = c ∧ p.resno = r ∧ p.precno = k → want.layers ≤ p.layno ∨ want.prec c r k = false) →
        ∀ x ∈ (got c r k).map DecBand.shown, ∀ y ∈ x, y = ([], [])) ∧
      (got c r k).map DecBand.planes = (full c r k).map DecBand.planes := by
  have h1 := C49_skip_is_decode_and_forget m csty sty want ps hn hl ho t ht hu packed src hs hp
  have h2 := keepWanted_all (csty := csty) (sty := sty) (want := want) (all := all) ps
    (fun p hp => by unfold Want.skips; simp [(ha p hp).2]; exact (ha p hp).1) packed t t src
  rw [h] at h2
  revert h1 h2
  generalize decodePackets csty sty true want ps packed t src = X
  generalize keepWanted csty sty want ps packed t t src = Y
  intro h1 h2
  rcases Y with f | ⟨n', pk', full', out⟩
  · exact h2.elim
  rcases X with e | ⟨n1, pk1, got⟩
  · exact h1.elim
  obtain ⟨e1, k2, k3⟩ := h2
  simp only [Prod.mk.injEq] at e1
  obtain ⟨rfl, rfl, rfl⟩ := e1
  obtain ⟨rfl, rfl, k1⟩ := h1
  refine ⟨got, rfl, fun c r k => ⟨fun hw => ?_, fun hw => ?_, (k1 c r k).2⟩⟩
  · refine (k1 c r k).1.trans (congrArg _ (k2 c r k (fun p hp hk => ?_) rfl).symm)
    simp only [Prod.mk.injEq] at hk
    have := hw p hp hk
    unfold Want.skips
    rw [hk.1, hk.2.1, hk.2.2, this.2]
    simpa using this.1
  · rw [(k1 c r k).1]
    have e : out c r k = t c r k := k3 c r k fun p hp hk => by
      simp only [Prod.mk.injEq] at hk
      have := hw p hp hk
      unfold Want.skips
      rw [hk.1, hk.2.1, hk.2.2]
      rcases this with h | h
      · simp [h]
      · simp [h]
    rw [e]
    intro x hx y hy
    obtain ⟨b, hb, rfl⟩ := List.mem_map.mp hx
    unfold DecBand.shown at hy
    split at hy
    · simp at hy
    · rename_i he
      obtain ⟨d, hd, rfl⟩ := List.mem_map.mp hy
      obtain ⟨_, _, _, _, _, _, _, h6⟩ := ht c r k b hb (by simpa using he)
      obtain ⟨_, r0, c0⟩ := h6 d hd
      unfold DecCblk.view
      rw [r0, c0]
      rfl

/-! ### A case: three layers in the tile of C47, two of them wanted -/

-- the hypotheses not shown at C47
example : (∀ c r k, ∀ b ∈ exTile c r k, ∀ d ∈ b.prec.cblks, ∀ sg ∈ d.segs, sg.newlen < 2 ^ 32) ∧
    (∀ p ∈ exPkts, p.layno < exWant.layers ∧ exWant.prec p.compno p.resno p.precno = true) := by
  refine ⟨fun c r k b hb d hd sg hsg => ?_, by decide⟩
  unfold exTile at hb
  split at hb
  · rcases List.mem_cons.mp hb with rfl | hb
    · have hd' : d ∈ ([] : List DecCblk) := hd
      simp at hd'
    · rw [List.mem_singleton] at hb
      subst hb
      have hd' : d ∈ [({} : DecCblk), {}] := hd
      simp at hd'
      subst hd'
      have hsg' : sg ∈ ([] : List Seg) := hsg
      simp at hsg'
  · simp at hb
example : (keepWanted 0 (fun _ => 0) ⟨2, fun _ _ _ => true⟩ exPkts none exTile exTile [236, 32, 171, 196, 205, 239, 192, 9, 9]).toOption.map
    (fun r => (r.1, r.2.2.1.blocks)) = some (7, [([(3, 3)], [[171], [205, 239], []]), ([], [])]) := by decide +kernel
example : (keepWanted 0 (fun _ => 0) ⟨2, fun _ _ _ => true⟩ exPkts none exTile exTile [236, 32, 171, 196, 205, 239, 192, 9, 9]).toOption.map
    (fun r => (r.1, r.2.2.2.blocks)) = some (7, [([(3, 2)], [[171], [205, 239]]), ([], [])]) := by decide +kernel

/-- FALSE outside strict mode: when a packet is cut short, decoding takes what is left but skipping leaves it, to be read as the header of
the next packet (`t2.rs:1547-1550`, `t2.rs:1605-1625`). Here the second block gets no bit planes in one case, 2^32 - 992 in the other. -/
theorem C49_not_strict_differs : ∃ (src : List UInt8) (n n' : Nat) (pk pk' : Option (List UInt8)) (full got : Tile),
    decodePackets 0 (fun _ => 0) false exWant exPkts none exTile src = .ok (n, pk, full) ∧
    decodePackets 0 (fun _ => 0) false ⟨1, fun _ _ _ => true⟩ exPkts none exTile src = .ok (n', pk', got) ∧
    (full 0 0 0).map DecBand.planes = [[], [6, 0]] ∧ (got 0 0 0).map DecBand.planes = [[], [6, 4294966304]] := by
  have h1 : (decodePackets 0 (fun _ => 0) false exWant exPkts none exTile [236, 32, 171, 196, 205]).toOption.map (fun r => (r.2.2 0 0 0).map DecBand.planes) =
      some [[], [6, 0]] := by decide +kernel
  have h2 : (decodePackets 0 (fun _ => 0) false ⟨1, fun _ _ _ => true⟩ exPkts none exTile [236, 32, 171, 196, 205]).toOption.map
      (fun r => (r.2.2 0 0 0).map DecBand.planes) = some [[], [6, 4294966304]] := by decide +kernel
  cases e1 : decodePackets 0 (fun _ => 0) false exWant exPkts none exTile [236, 32, 171, 196, 205] with
  | error e => rw [e1] at h1; cases h1
  | ok r1 =>
    cases e2 : decodePackets 0 (fun _ => 0) false ⟨1, fun _ _ _ => true⟩ exPkts none exTile [236, 32, 171, 196, 205] with
    | error e => rw [e2] at h2; cases h2
    | ok r2 =>
      rw [e1] at h1
      rw [e2] at h2
      simp only [Except.toOption, Option.map_some, Option.some.injEq] at h1 h2
      exact ⟨_, _, _, _, _, _, _, e1, e2, h1, h2⟩

end Jp2.T2

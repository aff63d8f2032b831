import Verif.Jp2.T2EncLoop
import Mathlib.Tactic.Common
/-!
# Packet numbers
-/
namespace Jp2.T2
open Pi (Pkt)

theorem sop_number (n : Nat) : ∃ hi lo : UInt8, sop n = [0xFF, 0x91, 0, 4, hi, lo] ∧ hi.toNat * 256 + lo.toNat = n % 65536 := by
  refine ⟨_, _, rfl, ?_⟩
  have h1 : n >>> 8 &&& 0xFF = n / 256 % 256 := by
    rw [show (0xFF : Nat) = 2 ^ 8 - 1 from rfl, Nat.and_two_pow_sub_one_eq_mod, Nat.shiftRight_eq_div_pow]
  have h2 : n &&& 0xFF = n % 256 := by
    rw [show (0xFF : Nat) = 2 ^ 8 - 1 from rfl, Nat.and_two_pow_sub_one_eq_mod]
  rw [h1, h2]
  simp only [UInt8.toNat_ofNat']
  omega

/-- A packet of number `n` begins with an SOP marker segment that says so. -/
def Numbered (n : Nat) (bytes : List UInt8) : Prop :=
  ∃ hi lo body, bytes = 0xFF :: 0x91 :: 0 :: 4 :: hi :: lo :: body ∧ hi.toNat * 256 + lo.toNat = n % 65536

theorem encodePacket_sop {csty packno layno : Nat} {bands bs : List EncBand} {dest out : List UInt8} (hs : csty &&& 2 ≠ 0)
    (h : encodePacket csty packno layno bands dest = .ok (out, bs)) : Numbered packno out := by
  obtain ⟨hi, lo, e, hn⟩ := sop_number packno
  have hc : (if csty &&& 2 ≠ 0 then sop packno else []) = sop packno := if_pos hs
  unfold encodePacket at h
  dsimp only at h
  rw [hc] at h
  have bo : ∀ {α β : Type} {x : Except Err α} {f : α → Except Err β} {r : β}, (x >>= f) = .ok r → ∃ a, x = .ok a ∧ f a = .ok r := by
    intro α β x f r h
    cases x with
    | error e => cases h
    | ok a => exact ⟨a, rfl, h⟩
  by_cases h0 : csty &&& 2 ≠ 0 ∧ dest.length < 6
  · rw [if_pos h0] at h
    obtain ⟨_, h', _⟩ := bo h; cases h'
  rw [if_neg h0] at h
  obtain ⟨_, _, h⟩ := bo h
  obtain ⟨_, _, h⟩ := bo h
  obtain ⟨⟨s, b⟩, _, h⟩ := bo h
  obtain ⟨⟨s, ok⟩, _, h⟩ := bo h
  dsimp only at h
  have fin : ∀ (o2 : List UInt8) (x : Except Err (List UInt8 × Nat × List EncBand)),
      (do let (o3, _, bands) ← x; return (sop packno ++ s.mem.take (Bio.numbytes s) ++ o2 ++ o3, bands)) = Except.ok (out, bs) → Numbered packno out := by
    intro o2 x hx
    obtain ⟨⟨o3, r, b3⟩, _, hx⟩ := bo hx
    cases hx
    exact ⟨hi, lo, _, by rw [e]; rfl, hn⟩
  by_cases h1 : ok = false
  · rw [if_pos h1] at h
    obtain ⟨_, h', _⟩ := bo h; cases h'
  rw [if_neg h1] at h
  by_cases h2 : csty &&& 4 ≠ 0 ∧ dest.length - (sop packno).length - Bio.numbytes s < 2
  · rw [if_pos h2] at h
    obtain ⟨_, h', _⟩ := bo h; cases h'
  rw [if_neg h2] at h
  exact fin _ _ h

theorem packets_numbered {csty ml : Nat} (hs : csty &&& 2 ≠ 0) : ∀ (ps : List Pkt) (pk : Nat) (t : EncTile) (dest out : List UInt8)
    (sizes : List Nat) (pk' : Nat) (t' : EncTile), encodePackets csty ml ps pk t dest = .ok (out, sizes, pk', t') → ∀ n, pk = n % 2 ^ 32 →
    ∃ pkts : List (List UInt8), out = pkts.flatten ∧ sizes = pkts.map List.length ∧ pk' = (n + pkts.length) % 2 ^ 32 ∧
      pkts.length = (ps.filter fun p => decide (p.layno < ml)).length ∧ ∀ i (h : i < pkts.length), Numbered (n + i) pkts[i]
  | [], pk, t, dest, out, sizes, pk', t', h, n, hn => by
    unfold encodePackets at h
    cases h
    exact ⟨[], rfl, rfl, by simpa using hn, rfl, fun i h => by simp at h⟩
  | p :: ps, pk, t, dest, out, sizes, pk', t', h, n, hn => by
    unfold encodePackets at h
    split_ifs at h with hl
    · cases h1 : encodePacket csty pk p.layno (t p.compno p.resno p.precno) dest with
      | error e => rw [h1] at h; cases h
      | ok r =>
        obtain ⟨o1, bs⟩ := r
        rw [h1] at h
        simp only [bind, Except.bind, pure, Except.pure] at h
        cases h2 : encodePackets csty ml ps ((pk + 1) % 2 ^ 32) (t.set p bs) (dest.drop o1.length) with
        | error e => rw [h2] at h; cases h
        | ok r =>
          obtain ⟨o2, s2, pk2, t2⟩ := r
          rw [h2] at h
          cases h
          obtain ⟨pkts, a1, a2, a3, a4, a5⟩ := packets_numbered hs ps _ _ _ _ _ _ _ h2 (n + 1) (by rw [hn, Nat.mod_add_mod])
          refine ⟨o1 :: pkts, by rw [a1]; rfl, by rw [a2]; rfl, by show pk2 = _; rw [a3, List.length_cons, Nat.add_comm pkts.length, ← Nat.add_assoc], by simp [hl, a4], ?_⟩
          intro i hi
          match i with
          | 0 =>
            obtain ⟨hi, lo, b, e, hv⟩ := encodePacket_sop hs h1
            refine ⟨hi, lo, b, e, ?_⟩
            rw [hv, hn]
            exact Nat.mod_mod_of_dvd n (by decide)
          | i + 1 =>
            have := a5 i (by simpa using hi)
            rw [show n + (i + 1) = n + 1 + i by omega]
            exact this
    · obtain ⟨pkts, a1, a2, a3, a4, a5⟩ := packets_numbered hs ps _ _ _ _ _ _ _ h n hn
      exact ⟨pkts, a1, a2, a3, by simp [hl, a4], a5⟩

theorem parts_numbered {csty ml : Nat} (hs : csty &&& 2 ≠ 0) : ∀ (parts : List (List Pkt × List UInt8)) (pk : Nat) (t : EncTile)
    (outs : List (List UInt8 × List Nat)) (pk' : Nat) (t' : EncTile), encodeTileParts csty ml parts pk t = .ok (outs, pk', t') → ∀ n, pk = n % 2 ^ 32 →
    ∃ pkts : List (List UInt8), (outs.map Prod.fst).flatten = pkts.flatten ∧ (outs.map Prod.snd).flatten = pkts.map List.length ∧
      pk' = (n + pkts.length) % 2 ^ 32 ∧
      pkts.length = ((parts.map Prod.fst).flatten.filter fun p => decide (p.layno < ml)).length ∧ ∀ i (h : i < pkts.length), Numbered (n + i) pkts[i]
  | [], pk, t, outs, pk', t', h, n, hn => by
    unfold encodeTileParts at h
    cases h
    exact ⟨[], rfl, rfl, by simpa using hn, rfl, fun i h => by simp at h⟩
  | (ps, dest) :: parts, pk, t, outs, pk', t', h, n, hn => by
    unfold encodeTileParts at h
    cases h1 : encodePackets csty ml ps pk t dest with
    | error e => rw [h1] at h; cases h
    | ok r =>
      obtain ⟨o1, s1, pk1, t1⟩ := r
      rw [h1] at h
      simp only [bind, Except.bind, pure, Except.pure] at h
      cases h2 : encodeTileParts csty ml parts pk1 t1 with
      | error e => rw [h2] at h; cases h
      | ok r =>
        obtain ⟨o2, pk2, t2⟩ := r
        rw [h2] at h
        cases h
        obtain ⟨p1, a1, a2, a3, a4, a5⟩ := packets_numbered hs ps _ _ _ _ _ _ _ h1 n hn
        obtain ⟨p2, b1, b2, b3, b4, b5⟩ := parts_numbered hs parts _ _ _ _ _ h2 (n + p1.length) a3
        refine ⟨p1 ++ p2, ?_, ?_, ?_, ?_, ?_⟩
        · simp only [List.map_cons, List.flatten_cons, List.flatten_append, b1, a1]
        · simp only [List.map_cons, List.flatten_cons, List.map_append, b2, a2]
        · show pk2 = _; rw [b3, List.length_append, Nat.add_assoc]
        · simp [a4, b4]
        · intro i hi
          by_cases h : i < p1.length
          · rw [List.getElem_append_left h]; exact a5 i h
          · rw [List.getElem_append_right (by omega)]
            have := b5 (i - p1.length) (by rw [List.length_append] at hi; omega)
            rw [show n + p1.length + (i - p1.length) = n + i by omega] at this
            exact this
end Jp2.T2

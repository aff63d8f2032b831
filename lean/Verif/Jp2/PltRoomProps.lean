import Verif.Jp2.PltRoom
import Verif.Jp2.PiRoom
import Verif.Jp2.PiEncProps
import Verif.Jp2.TpWriteProps
/-!
# C77: packet lengths find room

`encodeParts m fuel t flag n` is the list of tile-parts the encoder writes for tile `n`, each the list of its packets
(see C51). `note size layers ps []` goes through packets with their lengths and notes the lengths in an array of `size` entries.
-/
namespace Jp2.PltRoom
open Jp2.Hdr (R Fail)
open Jp2.Pi (TileParams Pkt Letter tileInfo encodeParts exSmall encIt)
open Jp2.Tp (writePlt)

theorem note_ok (size layers : Nat) : ∀ ps l, l.length + ps.length ≤ size →
    note size layers ps l = .ok (l ++ (ps.filter (·.1.layno < layers)).map (·.2)) := by
  intro ps
  induction ps with
  | nil => intro l _; simp [note]
  | cons x ps ih =>
    intro l h
    obtain ⟨p, b⟩ := x
    simp only [List.length_cons] at h
    rw [note]
    by_cases hp : p.layno < layers
    · rw [if_pos hp, if_neg (by omega), ih _ (by simp; omega)]
      simp [hp]
    · rw [if_neg hp, ih _ (by omega)]
      simp [hp]

/-- The count is the number of entries of `include`. -/
theorem count_size (t : TileParams) (i : Pi.TileInfo) :
    t.numlayers * i.mp % 2 ^ 32 * i.cs.length % 2 ^ 32 * i.mr % 2 ^ 32 = (encIt t i false {}).incSize := by
  show _ = t.numlayers * (i.mr * (i.cs.length * i.mp % 2 ^ 32) % 2 ^ 32) % 2 ^ 32
  simp only [Nat.mul_mod_mod, Nat.mod_mul_mod]
  congr 1
  rw [Nat.mul_assoc t.numlayers, Nat.mul_assoc t.numlayers]
  congr 1
  rw [Nat.mul_comm i.mp, Nat.mul_comm i.mr]

theorem parts_length {m : Mode} {fuel : Nat} {t : TileParams} {flag : Option Letter} {n : Nat} {parts : List (List Pkt)}
    (h : encodeParts m fuel t flag n = some (some parts)) :
    ∃ c, packetCount m t n = some c ∧ 0 < c ∧ c < 2 ^ 32 ∧ ∀ part ∈ parts, part.length ≤ c := by
  unfold encodeParts at h
  simp only [Option.bind_eq_bind, Option.bind_eq_some_iff] at h
  obtain ⟨i, hi, h⟩ := h
  split_ifs at h with h0
  · simp [pure] at h
  · simp only [Option.bind_eq_some_iff, pure, Option.some.injEq] at h
    obtain ⟨r, hr, rfl⟩ := h
    refine ⟨(encIt t i false {}).incSize, ?_, by omega, Nat.mod_lt _ (by decide), Pi.Room.encProgs_length _ _ _ hr⟩
    unfold packetCount
    rw [hi, ← count_size]
    rfl

/-- **C77.** The array for packet lengths is large enough, whatever the parameters of the tile (its size, layers,
precincts, progression order, progression order changes and tile-parts, and even if the counts overflow 32 bits): for every
tile-part the encoder writes, there is an entry for each packet, and the array ends up with the lengths of the packets
written, in their order. -/
theorem C77_every_length_noted (m : Mode) (fuel : Nat) (t : TileParams) (flag : Option Letter) (n : Nat)
    (parts : List (List Pkt)) (h : encodeParts m fuel t flag n = some (some parts)) :
    ∃ c, packetCount m t n = some c ∧ 0 < c ∧ ∀ part ∈ parts, ∀ (ps : List (Pkt × Nat)), ps.map (·.1) = part → ∀ layers,
      note c layers ps [] = .ok ((ps.filter (·.1.layno < layers)).map (·.2)) := by
  obtain ⟨c, h1, h2, _, h3⟩ := parts_length h
  refine ⟨c, h1, h2, ?_⟩
  intro part hp ps he layers
  have := h3 part hp
  rw [← he, List.length_map] at this
  rw [note_ok _ _ _ _ (by simpa using this)]
  simp

/-- Two layers, two resolutions: four packets in one tile-part; the array has four entries. -/
example : ∃ parts, encodeParts .checked 300 (exSmall 0 2 []) none 0 = some (some parts) ∧ parts.map (·.length) = [4] ∧
    packetCount .checked (exSmall 0 2 []) 0 = some 4 :=
  ⟨[[⟨0, 0, 0, 0⟩, ⟨0, 1, 0, 0⟩, ⟨1, 0, 0, 0⟩, ⟨1, 1, 0, 0⟩]], by decide +kernel⟩

theorem sublist_sum {a b : List Nat} (h : a.Sublist b) : a.sum ≤ b.sum := by
  induction h with
  | slnil => simp
  | cons _ _ ih => simp only [List.sum_cons]; omega
  | cons_cons _ _ ih => simp only [List.sum_cons]; omega

theorem maxCount_ge {m : Mode} : ∀ ts acc k, maxCount m ts acc = some k →
    acc ≤ k ∧ ∀ t ∈ ts, ∀ c, packetCount m t.1 t.2 = some c → c ≤ k := by
  intro ts
  induction ts with
  | nil => intro acc k h; simp only [maxCount, Option.some.injEq] at h; subst h; simp
  | cons t ts ih =>
    intro acc k h
    simp only [maxCount, Option.bind_eq_bind, Option.bind_eq_some_iff] at h
    obtain ⟨n, h1, h2⟩ := h
    obtain ⟨a, b⟩ := ih _ _ h2
    have hm : acc ≤ Math.uintMax acc n ∧ n ≤ Math.uintMax acc n := by
      unfold Math.uintMax
      split_ifs <;> omega
    refine ⟨by omega, ?_⟩
    intro t' ht c hc
    rw [List.mem_cons] at ht
    rcases ht with rfl | ht
    · rw [h1] at hc
      simp only [Option.some.injEq] at hc
      omega
    · exact b t' ht c hc

theorem reserved_eq {other n r : Nat} (h : reserved other n = some r)
    (hr : other + 6 * ((n + 16381) / 16382) + 5 * n + 1 < 2 ^ 32) : r = other + 6 * ((n + 16381) / 16382) + 5 * n + 1 := by
  unfold reserved at h
  have e : Math.uintCeildiv n 16382 = some ((n + 16381) / 16382) := by
    unfold Math.uintCeildiv
    rw [if_pos (by decide)]
    have a1 : (n + 16382) % 2 ^ 64 = n + 16382 := Nat.mod_eq_of_lt (by omega)
    have a2 : (n + 16382 + (2 ^ 64 - 1)) % 2 ^ 64 = n + 16381 := by omega
    rw [a1, a2, Nat.mod_eq_of_lt (by omega)]
  rw [e] at h
  simp only [Option.map_some, Option.some.injEq] at h
  omega

/-- **C77.** The room set aside for packet lengths is large enough for every tile-part of every tile: if it does not
overflow 32 bits, the segments with the lengths of the packets of a tile-part (of fewer than 2^32 bytes in all) fit into it,
unless they are more than can be numbered, which is refused. -/
theorem C77_lengths_fit (m : Mode) (ts : List (TileParams × Nat)) (k other r : Nat) (hk : maxCount m ts 0 = some k)
    (hr : reserved other k = some r) (hw : other + 6 * ((k + 16381) / 16382) + 5 * k + 1 < 2 ^ 32)
    (t : TileParams) (n : Nat) (ht : (t, n) ∈ ts) (fuel : Nat) (flag : Option Letter) (parts : List (List Pkt))
    (h : encodeParts m fuel t flag n = some (some parts)) (part : List Pkt) (hp : part ∈ parts) (ps : List (Pkt × Nat))
    (he : ps.map (·.1) = part) (hs : (ps.map (·.2)).sum < 2 ^ 32) (layers : Nat) :
    ∃ c l, packetCount m t n = some c ∧ note c layers ps [] = .ok l ∧
      (writePlt l = .error .refused ∨ ∃ b, writePlt l = .ok b ∧ b.length ≤ r) := by
  obtain ⟨c, h1, h2, _, h3⟩ := parts_length h
  have hl := h3 part hp
  rw [← he, List.length_map] at hl
  have hc := (maxCount_ge _ _ _ hk).2 _ ht c h1
  obtain ⟨l, hlq⟩ : ∃ l, l = (ps.filter (·.1.layno < layers)).map (·.2) := ⟨_, rfl⟩
  have hf : ((ps.filter (·.1.layno < layers)).map (·.2)).Sublist (ps.map (·.2)) :=
    List.Sublist.map _ List.filter_sublist
  refine ⟨c, (ps.filter (·.1.layno < layers)).map (·.2), h1, by rw [note_ok _ _ _ _ (by simpa using hl)]; simp, ?_⟩
  have hlen := hf.length_le
  rw [List.length_map (as := ps)] at hlen
  have hsum : ((ps.filter (·.1.layno < layers)).map (·.2)).sum ≤ (ps.map (·.2)).sum :=
    sublist_sum hf
  rw [← hlq] at hlen hsum ⊢
  rcases Tp.C67_packet_lengths_room k (by omega) l (by omega) (by omega) with h4 | ⟨b, h4, h5⟩
  · exact Or.inl h4
  · refine Or.inr ⟨b, h4, ?_⟩
    rw [reserved_eq hr hw]
    unfold Hdr.cdiv at h5
    omega

/-- Two layers, two resolutions; 500 bytes for other segments. -/
example : maxCount .checked [(exSmall 0 2 [], 0)] 0 = some 4 ∧ reserved 500 4 = some 527 ∧
    500 + 6 * ((4 + 16381) / 16382) + 5 * 4 + 1 < 2 ^ 32 ∧
    writePlt [300, 1, 1, 5] = .ok [0xFF, 0x58, 0, 8, 0, 0x82, 0x2C, 1, 1, 5] := by decide +kernel

end Jp2.PltRoom

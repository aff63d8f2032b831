import Verif.Jp2.T1SafeBlock
import Verif.Jp2.T2SafeProps
/-!
# C48: block decoding on any bytes
-/
namespace Jp2.T1
open Jp2.Mqc (startCtxs)
open Jp2.T2 (Aligned DecCblk Tile Want NewBand decodePackets decodeBlock C47_strict_blocks_decodable)

/-- Whatever the bytes, the number of bit planes and the passes claimed, the block decoder does not read or write outside its arrays: it
refuses the block if 31 or more bit planes are claimed, and otherwise produces `w · h` coefficients, all in the range of an `i32`. The
segments must lie within the data and, with selective bypass, hold the passes the style prescribes. -/
theorem C48_block_any_bytes (o w h roishift numbps : Nat) (ho : o < 4) (hs : sizesOk w h = true) (st : Style) (sty : Nat)
    (hb : decide (sty &&& 1 ≠ 0) = st.bypass) (ht : decide (sty &&& 4 ≠ 0) = st.termall)
    (chunks : List (List UInt8)) (x0 x1 : UInt8) (segs : List (Nat × Nat)) (hlen : (segs.map Prod.fst).sum ≤ chunks.flatten.length)
    (hal : st.bypass = true → Aligned sty (segs.map Prod.snd)) :
    (31 ≤ (roishift + numbps) % 2 ^ 32 ∧ (roishift + numbps) % 2 ^ 32 < 2 ^ 31 ∧
      decodeCblk o w h roishift numbps st chunks x0 x1 segs = some none) ∨
    ∃ D : List Int, decodeCblk o w h roishift numbps st chunks x0 x1 segs = some (some D) ∧ D.length = w * h ∧
      ∀ v ∈ D, -2 ^ 31 < v ∧ v < 2 ^ 31 := by
  unfold decodeCblk
  rw [if_neg (by rw [hs]; decide)]
  simp only
  generalize (roishift + numbps) % 2 ^ 32 = bp1
  by_cases h31 : 31 ≤ bp1 ∧ bp1 < 2 ^ 31
  · rw [if_pos h31]
    exact Or.inl ⟨h31.1, h31.2, rfl⟩
  rw [if_neg h31]
  right
  by_cases hc : chunks = []
  · rw [if_pos hc]
    refine ⟨_, rfl, List.length_replicate .., fun v hv => ?_⟩
    rw [(List.mem_replicate.mp hv).2]
    omega
  rw [if_neg hc]
  obtain ⟨b, hbe⟩ : ∃ b, b = if bp1 < 2 ^ 31 then bp1 else 0 := ⟨_, rfl⟩
  have hb30 : b ≤ 30 := by rw [hbe]; split <;> omega
  rw [← hbe]
  have hre : 0 ≤ reach b 2 := by
    unfold reach
    have : 2 ^ (b - 1) ≤ 2 ^ 29 := Nat.pow_le_pow_right (by omega) (by omega)
    rw [if_pos rfl]
    omega
  obtain ⟨q, k1, k2⟩ := decSegments_safe (n := numbps) (D := chunks.flatten.length) (sty := sty) (w := w) (h := h) ho st
    (fun h => by rw [h] at hb; exact of_decide_eq_true hb) ht.symm segs 0
    ⟨chunks.flatten ++ [x0, x1], startCtxs, initFlags w h, List.replicate (w * h) 0, b, 2, 0⟩
    ⟨by simp, start_ok.1, start_ok.2, initFlags_len w h, hb30, Nat.le_refl _, fun h => absurd rfl h, List.length_replicate .., fun i v hv => by
      have := List.mem_of_getElem? hv
      rw [(List.mem_replicate.mp this).2]
      show -reach b 2 ≤ 0 ∧ 0 ≤ reach b 2
      omega⟩ (by show 0 + _ ≤ _; omega)
    (fun h j p hp => by rw [Nat.zero_add]; have := hal h j p hp; rw [List.length_map] at this; exact this)
    (fun _ _ _ => Or.inr rfl)
  rw [k1, Option.map_some]
  refine ⟨q.d, rfl, k2.d.len, fun v hv => ?_⟩
  obtain ⟨i, hi⟩ := List.mem_iff_getElem?.mp hv
  have h1 := k2.d.all i v hi
  have h2 : reach q.bp1 q.t < 2 ^ 31 := by
    unfold reach
    have : 0 < 2 ^ (if q.t = 2 then q.bp1 - 1 else q.bp1) := Nat.pow_pos (by omega)
    omega
  omega

/-- From bytes to coefficients: in strict mode, whatever the bytes of the tile, every block of every precinct can be decoded, at any size
a code block can have and with any contents of the two bytes after its data. The packets of each precinct come in the order of the layers;
the style is not high throughput. -/
theorem C48_tile_any_bytes (m : Mode) (csty : Nat) (sty : Nat → Nat) (want : Want) (ps : List Pi.Pkt) (hn : ps.Nodup)
    (hl : ∀ p ∈ ps, p.layno < 65536)
    (ho : ps.Pairwise fun p q => p.compno = q.compno ∧ p.resno = q.resno ∧ p.precno = q.precno → p.layno ≤ q.layno)
    (t : Tile) (ht : ∀ c r k, ∀ b ∈ t c r k, NewBand m b)
    (packed : Option (List UInt8)) (src : List UInt8) (hs : src.length < 2 ^ 28) (hp : ∀ a, packed = some a → a.length < 2 ^ 28)
    (n : Nat) (pk : Option (List UInt8)) (t' : Tile) (hok : decodePackets csty sty true want ps packed t src = .ok (n, pk, t'))
    (c r k : Nat) (b : T2.DecBand) (hb : b ∈ t' c r k) (he : b.empty = false) (d : DecCblk) (hd : d ∈ b.prec.cblks)
    (hht : sty c &&& 0x40 = 0) (o w h : Nat) (ho4 : o < 4) (hwh : sizesOk w h = true) (st : Style)
    (hb1 : decide (sty c &&& 1 ≠ 0) = st.bypass) (ht1 : decide (sty c &&& 4 ≠ 0) = st.termall) (x0 x1 : UInt8) :
    ∃ r, decodeBlock o w h st d x0 x1 = some r ∧ ∀ D, r = some D → D.length = w * h ∧ ∀ v ∈ D, -2 ^ 31 < v ∧ v < 2 ^ 31 := by
  obtain ⟨_, e2, e3⟩ := C47_strict_blocks_decodable m csty sty want ps hn hl ho t ht packed src hs hp n pk t' hok c r k b hb he d hd
  rcases C48_block_any_bytes o w h 0 d.numbps ho4 hwh st (sty c) hb1 ht1 d.chunks x0 x1 d.view e2 (fun _ => e3 hht) with ⟨_, _, h1⟩ | ⟨D, h1, h2, h3⟩
  · exact ⟨none, h1, fun D h => by cases h⟩
  · exact ⟨some D, h1, fun D' h => by cases h; exact ⟨h2, h3⟩⟩

-- a bypass block of two segments meets the hypotheses, and is decoded
example : sizesOk 3 5 = true ∧ (([(3, 10), (1, 2)] : List (Nat × Nat)).map Prod.fst).sum ≤ ([[1, 255], [7, 200]] : List (List UInt8)).flatten.length ∧
    Aligned 1 ([(3, 10), (1, 2)].map Prod.snd) := by
  refine ⟨by decide, by decide, fun i p h => ?_⟩
  match i, h with
  | 0, h => simp at h; subst h; decide
  | 1, h => simp at h; subst h; decide
example : (decodeCblk 0 3 5 0 7 { bypass := true } [[1, 255], [7, 200]] 0 0 [(3, 10), (1, 2)]).map (fun r => r.map List.length) = some (some 15) := by decide +kernel
-- and one with too many bit planes is refused
example : decodeCblk 0 3 5 0 31 { bypass := true } [[1, 255], [7, 200]] 0 0 [(3, 10), (1, 2)] = some none := by decide +kernel

/-- The blocks of a tile, decoded as 4 × 4 blocks of the first band kind. -/
def _root_.Jp2.T2.Tile.decoded (t : Tile) : List (Option (Option Nat)) :=
  (t 0 0 0).flatMap fun b => b.prec.cblks.map fun d => (decodeBlock 0 4 4 {} d 0 0).map fun r => r.map List.length

-- the three packets of C47, read and decoded
example : (decodePackets 0 (fun _ => 0) true T2.exWant T2.exPkts none T2.exTile [236, 32, 171, 196, 205, 239, 192, 9, 9]).toOption.map (fun r => r.2.2.decoded) =
    some [some (some 16), some (some 16)] := by decide +kernel

/-- FALSE outside strict mode: the block of `C47_not_strict_claims_too_much` makes the block decoder leave its data. (The chunk is used in
place, `t1.rs:2321`: the decoder reads and overwrites the third byte after the end of the tile's data, of which only two are allocated.) -/
theorem C48_not_strict_out_of_bounds : ∃ (packed src : List UInt8) (n : Nat) (pk : Option (List UInt8)) (t : Tile),
    decodePackets 0 (fun _ => 0) false T2.exWant T2.exPkts (some packed) T2.exTile src = .ok (n, pk, t) ∧
    t.decoded = [none, some (some 16)] := by
  have h : (decodePackets 0 (fun _ => 0) false T2.exWant T2.exPkts (some [236, 32, 196, 192]) T2.exTile [171]).toOption.map (fun r => r.2.2.decoded) =
      some [none, some (some 16)] := by decide +kernel
  cases hd : decodePackets 0 (fun _ => 0) false T2.exWant T2.exPkts (some [236, 32, 196, 192]) T2.exTile [171] with
  | error e => rw [hd] at h; cases h
  | ok r =>
    rw [hd] at h
    simp only [Except.toOption, Option.map_some, Option.some.injEq] at h
    exact ⟨_, _, _, _, _, hd, h⟩

end Jp2.T1

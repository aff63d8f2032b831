import Verif.Jp2.TileOutSpec
import Verif.Jp2.CutProps
/-!
# C75: the bytes of a decoded tile
-/
namespace Jp2.TileOut
open Jp2.Hdr (R Fail refuseIf)
open Jp2.Setup (u32)
open Jp2.Tcd (Rect initTile)
open Jp2.Area (opt i32 sub ok_bind)
open Jp2.Cut (bytes store rows rows_ok CompI Keeps copyTile count oneComp)

theorem bytes_eq {p : Nat} (h1 : 1 ≤ p) (h : p ≤ 32) : bytes p = sampleBytes p := by
  unfold sampleBytes
  rcases Cut.bytes_le h1 h with ⟨e, h⟩ | ⟨e, h, _⟩ | ⟨e, h⟩
  · rw [if_pos h, e]
  · rw [if_neg (by omega), if_pos (by omega), e]
  · rw [if_neg (by omega), if_neg (by omega), e]

theorem u32_nonneg {x : Int} (h : 0 ≤ x) (h' : x < 2 ^ 31) : u32 x = x.toNat := by
  unfold u32
  rw [Int.emod_eq_of_lt h (by omega)]

theorem i32_ok {x : Int} (h : 0 ≤ x) (h' : x < 2 ^ 31) : i32 x = .ok x := if_pos ⟨by omega, h'⟩

theorem number_append (a b : List UInt8) : number (a ++ b) = number a + 256 ^ a.length * number b := by
  induction a with
  | nil => simp [number]
  | cons x a ih => simp only [List.cons_append, number, ih, List.length_cons, pow_succ]; ring

theorem number_reverse : ∀ l : List UInt8, number l.reverse = Cio.fromBe l
  | [] => rfl
  | x :: l => by
    rw [List.reverse_cons, number_append, number_reverse l, Cio.fromBe_cons, List.length_reverse]
    simp only [number]
    ring

theorem bytesOf_store {p : Nat} (h1 : 1 ≤ p) (h : p ≤ 32) (v : Int) : BytesOf p v (store (bytes p) v) := by
  rw [bytes_eq h1 h]
  refine ⟨Cut.store_length _ _, ?_⟩
  unfold store
  rw [number_reverse, Cio.fromBe_toBe]
  have h256 : (256 : Nat) ^ sampleBytes p = 2 ^ (8 * sampleBytes p) := by rw [pow_mul]; norm_num
  have hp : (0 : Int) < 2 ^ (8 * sampleBytes p) := by positivity
  have h0 := Int.emod_nonneg v (ne_of_gt hp)
  have h2 := Int.emod_lt_of_pos v hp
  rw [h256]
  push_cast
  rw [Int.toNat_of_nonneg h0, Int.emod_eq_of_lt h0 h2]

theorem sampleBytes_pos (p : Nat) : 0 < sampleBytes p := by
  unfold sampleBytes; split
  · omega
  · split <;> omega

/-! ## The size -/

theorem area_pos {p : Part} {top r : Rect} (h : Decoded p top r) : 0 < area top :=
  Nat.mul_pos (by have := h.wide; omega) (by have := h.high; omega)

theorem size_loop : ∀ (l : Tile) (n : Nat), l.Decoded → n ≤ tooBig → sizeLoop false (l.map (·.1)) n = .ok (min (n + l.size) tooBig)
  | [], n, _, hn => by
    show Except.ok n = _
    rw [show Tile.size [] = 0 from rfl, Nat.add_zero, Nat.min_eq_left hn]
  | x :: l, n, hl, hn => by
    have hx := hl x (by simp)
    have ih := fun m => size_loop l m fun y hy => hl y (by simp [hy])
    have ha := area_pos hx
    obtain ⟨w, hw⟩ := hx.best
    have hsz : Tile.size (x :: l) = sampleBytes x.1.prec * area x.2.1 + Tile.size l := rfl
    obtain ⟨W, hW⟩ : ∃ W, W = (x.2.1.x1 - x.2.1.x0).toNat := ⟨_, rfl⟩
    obtain ⟨H, hH⟩ : ∃ H, H = (x.2.1.y1 - x.2.1.y0).toNat := ⟨_, rfl⟩
    obtain ⟨s, hs⟩ : ∃ s, s = sampleBytes x.1.prec := ⟨_, rfl⟩
    have hs0 : 0 < s := hs ▸ sampleBytes_pos _
    have hA : area x.2.1 = W * H := by rw [hW, hH]; rfl
    have wide := hx.wide
    have high := hx.high
    have hW0 : 0 < W := by omega
    have hH0 : 0 < H := by omega
    have e1 : extent false (x.2.1, w) = .ok (W, H) := by
      unfold extent
      rw [if_neg (by decide)]
      show (do let w ← i32 (x.2.1.x1 - x.2.1.x0); let h ← i32 (x.2.1.y1 - x.2.1.y0); pure (u32 w, u32 h)) = _
      rw [i32_ok (by omega) wide.2.2, ok_bind, i32_ok (by omega) high.2.2, ok_bind, u32_nonneg (by omega) wide.2.2, u32_nonneg (by omega) high.2.2, hW, hH]
      rfl
    rw [hsz, hA, ← hs]
    rw [List.map_cons]
    unfold sizeLoop
    dsimp only
    have hmin := hx.minRes
    rw [if_neg (by omega), hw]
    dsimp only
    rw [e1, ok_bind]
    dsimp only
    rw [if_neg (by omega), bytes_eq hx.prec.1 hx.prec.2, ← hs]
    have big : ∀ k, tooBig < s * (W * H) + k + n → min (n + (s * (W * H) + k)) tooBig = tooBig := fun k hk => Nat.min_eq_right (by omega)
    have hle : W * H ≤ s * (W * H) := Nat.le_mul_of_pos_left _ hs0
    by_cases c1 : tooBig / W < H
    · rw [if_pos ⟨hH0, c1⟩, big _ (by have := (Nat.div_lt_iff_lt_mul hW0).1 c1; rw [Nat.mul_comm H W] at this; omega)]
      rfl
    · rw [if_neg fun h => c1 h.2]
      have c1' : W * H ≤ tooBig := by
        have := Nat.not_lt.1 fun h => c1 ((Nat.div_lt_iff_lt_mul hW0).2 h)
        rwa [Nat.mul_comm H W] at this
      have ht : W * H % 2 ^ 32 = W * H := Nat.mod_eq_of_lt (by unfold tooBig at c1'; omega)
      show (if s ≠ 0 ∧ tooBig / s < W * H % 2 ^ 32 then _ else _) = _
      rw [ht]
      by_cases c2 : tooBig / s < W * H
      · rw [if_pos ⟨by omega, c2⟩, big _ (by have := (Nat.div_lt_iff_lt_mul hs0).1 c2; rw [Nat.mul_comm (W * H) s] at this; omega)]
        rfl
      · rw [if_neg fun h => c2 h.2]
        have c2' : s * (W * H) ≤ tooBig := by
          have := Nat.not_lt.1 fun h => c2 ((Nat.div_lt_iff_lt_mul hs0).2 h)
          rwa [Nat.mul_comm (W * H) s] at this
        have ht2 : W * H * s % 2 ^ 32 = s * (W * H) := by
          rw [Nat.mul_comm (W * H) s]
          exact Nat.mod_eq_of_lt (by unfold tooBig at c2'; omega)
        show (if tooBig - n < W * H * s % 2 ^ 32 then _ else sizeLoop false (l.map (·.1)) ((n + W * H * s % 2 ^ 32) % 2 ^ 32)) = _
        rw [ht2]
        by_cases c3 : tooBig - n < s * (W * H)
        · rw [if_pos c3, big _ (by omega)]
          rfl
        · rw [if_neg c3, Nat.mod_eq_of_lt (by unfold tooBig at *; omega), ih _ (by omega), Nat.add_assoc]

/-- **C75.** The size of a decoded tile the user is told is the number of bytes of its samples, with one, two or four bytes to a sample; if it
does not fit into 32 bits, the tile is refused. -/
theorem C75_size_told (l : Tile) (hl : l.Decoded) : told (l.map (·.1)) = if l.size < 2 ^ 32 - 1 then .ok l.size else .error .refused := by
  unfold told size
  show (sizeLoop false (l.map (·.1)) 0 >>= _) = _
  rw [size_loop l 0 hl (Nat.zero_le _), ok_bind, Nat.zero_add]
  unfold refuseIf
  by_cases h : l.size < 2 ^ 32 - 1
  · rw [if_pos h, Nat.min_eq_left (by unfold tooBig; omega), if_neg (by unfold tooBig; omega)]; rfl
  · rw [if_neg h, Nat.min_eq_right (by unfold tooBig; omega), if_pos rfl]; rfl

/-! ## The samples -/

theorem take_range (d : List Int) (o w : Nat) (h : o + w ≤ d.length) : (d.drop o).take w = (List.range w).map fun i => d.getD (o + i) 0 := by
  refine List.ext_getElem (by simp; omega) fun i h1 h2 => ?_
  simp only [List.length_map, List.length_range] at h2
  rw [List.getElem_take, List.getElem_drop, List.getElem_map, List.getElem_range, List.getD_eq_getElem?_getD, List.getElem?_eq_getElem (by omega), Option.getD_some]

theorem fill_ok : ∀ (l : Tile) (dest : List UInt8), l.Decoded → l.size ≤ dest.length →
    ∃ out, l.Holds out ∧ out.length ≤ dest.length ∧ fill true (l.map (·.1)) dest = .ok (out ++ dest.drop out.length)
  | [], dest, _, _ => ⟨[], .nil, Nat.zero_le _, by simp [fill]⟩
  | x :: l, dest, hl, hd => by
    have hx := hl x (by simp)
    obtain ⟨tw, htw⟩ := hx.best
    obtain ⟨rw', hrw⟩ := hx.res
    have hsz : Tile.size (x :: l) = sampleBytes x.1.prec * area x.2.1 + Tile.size l := rfl
    obtain ⟨W, hW⟩ : ∃ W, W = (x.2.1.x1 - x.2.1.x0).toNat := ⟨_, rfl⟩
    obtain ⟨H, hH⟩ : ∃ H, H = (x.2.1.y1 - x.2.1.y0).toNat := ⟨_, rfl⟩
    obtain ⟨w, hw⟩ : ∃ w, w = (x.2.2.x1 - x.2.2.x0).toNat := ⟨_, rfl⟩
    obtain ⟨h, hh⟩ : ∃ h, h = (x.2.2.y1 - x.2.2.y0).toNat := ⟨_, rfl⟩
    obtain ⟨s, hs⟩ : ∃ s, s = sampleBytes x.1.prec := ⟨_, rfl⟩
    have wide := hx.wide
    have high := hx.high
    have hdata := hx.data
    rw [← hW, ← hH] at hdata
    have hA : area x.2.1 = W * H := by rw [hW, hH]; rfl
    have hwW : w ≤ W := by omega
    have hhH : h ≤ H := by omega
    have hlay : layout true x.1 = .ok (w, h, W - w) := by
      unfold layout
      have hmin := hx.minRes
      rw [hrw]
      dsimp only
      rw [if_pos rfl, if_neg (by omega), htw]
      dsimp only
      rw [i32_ok (by omega) (by omega), ok_bind, i32_ok (by omega) (by omega), ok_bind, i32_ok (by omega) wide.2.2, ok_bind, if_neg (by omega)]
      show Except.ok _ = _
      rw [← hw, ← hh, show (x.2.1.x1 - x.2.1.x0 - (x.2.2.x1 - x.2.2.x0)).toNat = W - w by omega]
    have hm : h * w ≤ W * H := by rw [Nat.mul_comm W H]; exact Nat.mul_le_mul hhH hwW
    have hms : h * w * s ≤ s * (W * H) := by rw [Nat.mul_comm]; exact Nat.mul_le_mul_left s hm
    rw [hsz, hA, ← hs] at hd
    obtain ⟨out, ho1, ho2, ho3⟩ := fill_ok l (dest.drop (h * w * s)) (fun y hy => hl y (by simp [hy])) (by rw [List.length_drop]; omega)
    have hrow : ∀ j, j < h → j * W + w ≤ x.1.data.length := fun j hj => by
      rw [hdata]
      have : (j + 1) * W ≤ H * W := Nat.mul_le_mul_right W (by omega)
      rw [Nat.succ_mul, Nat.mul_comm H W] at this
      omega
    have hr := rows_ok (data := x.1.data) (w := w) (step := W) h 0 fun j hj => by rw [Nat.zero_add]; exact hrow j hj
    have hsam : ((List.range h).flatMap fun j => (x.1.data.drop (0 + j * W)).take w) = samples x.1 x.2.1 x.2.2 := by
      unfold samples sampleAt
      rw [← hw, ← hh, ← hW]
      refine List.flatMap_congr fun j hj => ?_
      rw [Nat.zero_add]
      exact take_range _ _ _ (hrow j (List.mem_range.1 hj))
    have hslen : (samples x.1 x.2.1 x.2.2).length = h * w := by
      unfold samples
      rw [List.length_flatMap]
      simp [← hw, ← hh]
    have hflat := Cut.flat_length (s := s) (samples x.1 x.2.1 x.2.2)
    rw [hslen] at hflat
    refine ⟨(samples x.1 x.2.1 x.2.2).flatMap (store s) ++ out, ?_, ?_, ?_⟩
    · rw [List.flatMap_def]
      refine .cons (List.forall₂_map_right_iff.2 (List.forall₂_same.2 fun v _ => ?_)) ho1
      rw [hs, ← bytes_eq hx.prec.1 hx.prec.2]
      exact bytesOf_store hx.prec.1 hx.prec.2 v
    · rw [List.length_append, hflat]
      rw [List.length_drop] at ho2
      omega
    · rw [List.map_cons]
      unfold fill
      rw [hlay, ok_bind]
      dsimp only
      rw [bytes_eq hx.prec.1 hx.prec.2, ← hs]
      have h124 : s = 1 ∨ s = 2 ∨ s = 4 := by
        rw [hs]; unfold sampleBytes; split
        · omega
        · split <;> omega
      rw [if_pos h124, if_neg (by omega), if_neg (by omega), show w + (W - w) = W by omega, hr, hsam]
      show (fill true (l.map (·.1)) (dest.drop (h * w * s)) >>= _) = _
      rw [ho3]
      show Except.ok _ = _
      rw [List.length_append, hflat, List.append_assoc, List.drop_drop]

/-- **C75.** Decoding a tile into a buffer that is large enough puts the samples of the tile there, component by component and row by row, each in one,
two or four bytes, lowest first; the rest of the buffer stays as it was. -/
theorem C75_tile_bytes (l : Tile) (hl : l.Decoded) (dest : List UInt8) (hd : l.size ≤ dest.length) (hlen : dest.length < 2 ^ 32) (hmax : l.size < 2 ^ 32 - 1) :
    ∃ out, l.Holds out ∧ update true (l.map (·.1)) dest = .ok (out ++ dest.drop out.length) := by
  obtain ⟨out, h1, _, h2⟩ := fill_ok l dest hl hd
  refine ⟨out, h1, ?_⟩
  unfold update size
  show (sizeLoop false (l.map (·.1)) 0 >>= _) = _
  rw [size_loop l 0 hl (Nat.zero_le _), ok_bind, Nat.zero_add, Nat.min_eq_left (by unfold tooBig; omega), Nat.mod_eq_of_lt hlen]
  unfold refuseIf
  rw [if_neg (by unfold tooBig; omega), ok_bind, h2]

/-- **C75.** A buffer that is too small is refused. -/
theorem C75_small_buffer_refused (l : Tile) (hl : l.Decoded) (dest : List UInt8) (hd : dest.length < l.size) (hlen : dest.length < 2 ^ 32) :
    update true (l.map (·.1)) dest = .error .refused := by
  unfold update size
  show (sizeLoop false (l.map (·.1)) 0 >>= _) = _
  rw [size_loop l 0 hl (Nat.zero_le _), ok_bind, Nat.zero_add, Nat.mod_eq_of_lt hlen]
  unfold refuseIf
  rw [if_pos (by unfold tooBig at *; omega)]
  rfl

/-! ## There and back -/

/-- The components of a tile of full resolution, as `opj_write_tile` knows them. -/
def Tile.toWrite (l : Tile) : List (Rect × CompI) := l.map fun x => (x.2.1, ⟨x.1.prec, x.1.sgnd, 1, 1, x.1.data⟩)

theorem samples_all {p : Part} {r : Rect} (h : Decoded p r r) : samples p r r = p.data := by
  have hd := h.data
  obtain ⟨W, hW⟩ : ∃ W, W = (r.x1 - r.x0).toNat := ⟨_, rfl⟩
  obtain ⟨H, hH⟩ : ∃ H, H = (r.y1 - r.y0).toNat := ⟨_, rfl⟩
  unfold samples sampleAt
  rw [← hW, ← hH] at hd ⊢
  have key : ∀ (H : Nat) (d : List Int), d.length = W * H → ((List.range H).flatMap fun j => (List.range W).map fun i => d.getD (j * W + i) 0) = d := by
    intro H
    induction H with
    | zero => intro d hd; obtain rfl := List.eq_nil_of_length_eq_zero (l := d) (by simpa using hd); simp
    | succ H ih =>
      intro d hd
      rw [Nat.mul_succ] at hd
      rw [List.range_succ, List.flatMap_append, List.flatMap_singleton, ← take_range d (H * W) W (by rw [Nat.mul_comm]; omega)]
      have e := ih (d.take (H * W)) (by rw [List.length_take, Nat.mul_comm W H]; rw [Nat.mul_comm W H] at hd; omega)
      have e' : ((List.range H).flatMap fun j => (List.range W).map fun i => d.getD (j * W + i) 0) = d.take (H * W) := by
        refine Eq.trans (List.flatMap_congr fun j hj => List.map_congr_left fun i hi => ?_) e
        rw [List.mem_range] at hj hi
        have hlt : j * W + i < H * W := by
          have : (j + 1) * W ≤ H * W := Nat.mul_le_mul_right W hj
          rw [Nat.succ_mul] at this
          omega
        dsimp only
        rw [List.getD_eq_getElem?_getD, List.getD_eq_getElem?_getD, List.getElem?_take, if_pos hlt]
      rw [e']
      rw [List.take_of_length_le (l := d.drop (H * W)) (by rw [List.length_drop, Nat.mul_comm H W]; omega), List.take_append_drop]
  exact key H p.data hd

theorem store_of_bytes {p : Nat} {v : Int} {bs : List UInt8} (h1 : 1 ≤ p) (h : p ≤ 32) (hb : BytesOf p v bs) : bs = store (bytes p) v := by
  have key : ∀ (a b : List UInt8), a.length = b.length → number a = number b → a = b := by
    intro a
    induction a with
    | nil => intro b hl _; exact (List.eq_nil_of_length_eq_zero hl.symm).symm
    | cons x a ih =>
      intro b hl hn
      cases b with
      | nil => simp at hl
      | cons y b =>
        simp only [number] at hn
        have hx := x.toNat_lt
        have hy := y.toNat_lt
        have e1 : x.toNat = y.toNat := by omega
        rw [UInt8.toNat_inj.1 e1, ih b (by simpa using hl) (by omega)]
  obtain ⟨k1, k2⟩ := bytesOf_store h1 h v
  exact key _ _ (hb.1.trans k1.symm) (by have := hb.2.trans k2.symm; exact_mod_cast this)

theorem holds_unique : ∀ (l : Tile) (out : List UInt8), l.Decoded → (∀ x ∈ l, x.2.2 = x.2.1) → l.Holds out → out = Cut.tileBytes l.toWrite
  | [], out, _, _, h => by cases h; rfl
  | x :: l, out, hl, hf, h => by
    have hx := hl x (by simp)
    cases h with
    | cons h1 h2 =>
      rename_i bs rest
      rw [holds_unique l rest (fun y hy => hl y (by simp [hy])) (fun y hy => hf y (by simp [hy])) h2]
      have e : bs = (samples x.1 x.2.1 x.2.2).map (store (bytes x.1.prec)) := by
        clear h2
        generalize samples x.1 x.2.1 x.2.2 = xs at h1
        induction h1 with
        | nil => rfl
        | cons a _ ih => rw [List.map_cons, ← ih, store_of_bytes hx.prec.1 hx.prec.2 a]
      rw [hf x (by simp)] at hx
      rw [e, hf x (by simp), samples_all hx]
      show _ = List.flatMap _ _ ++ _
      rw [List.flatMap_def]
      rfl

/-- **C75.** The bytes of a tile decoded at full resolution can be handed to `opj_write_tile`: it takes exactly the samples that were decoded. This needs samples
without a sign, or of more than 16 bits. -/
theorem C75_written_back (l : Tile) (hl : l.Decoded) (hfull : ∀ x ∈ l, x.2.2 = x.2.1) (hk : ∀ x ∈ l.toWrite, Keeps x.2) (out : List UInt8) (h : l.Holds out) :
    copyTile l.toWrite out = .ok (l.map fun x => x.1.data) := by
  rw [holds_unique l out hl hfull h, Cut.C71_written_tile]
  · unfold Tile.toWrite
    rw [List.map_map]
    rfl
  · intro y hy
    refine ⟨?_, hk y hy⟩
    obtain ⟨x, hx, rfl⟩ := List.mem_map.1 hy
    exact (hl x hx).data

/-! ## The conditions are met -/

/-- Two components of 8 and of 12 bits with sign, the second at a lower resolution. -/
def exT : Tile :=
  [(⟨8, 0, 0, [(⟨0, 0, 3, 2⟩, ⟨0, 0, 0, 0⟩)], 1, [1, 2, 3, 4, 5, 255]⟩, ⟨0, 0, 3, 2⟩, ⟨0, 0, 3, 2⟩),
   (⟨12, 1, 0, [(⟨0, 0, 2, 1⟩, ⟨0, 0, 0, 0⟩), (⟨0, 0, 3, 2⟩, ⟨0, 0, 0, 0⟩)], 2, [-1, 2, 0, 0, 0, 0]⟩, ⟨0, 0, 3, 2⟩, ⟨0, 0, 2, 1⟩)]

theorem exT_decoded : exT.Decoded := by
  intro x hx
  simp only [exT, List.mem_cons, List.not_mem_nil, or_false] at hx
  rcases hx with rfl | rfl <;> exact ⟨by decide, by decide, ⟨_, rfl⟩, ⟨_, rfl⟩, by decide, by decide, by decide⟩

example := C75_tile_bytes exT exT_decoded (List.replicate 20 7) (by decide) (by decide) (by decide)
example : told (exT.map (·.1)) = .ok 18 := by rw [C75_size_told exT exT_decoded]; decide
example : update true (exT.map (·.1)) (List.replicate 20 7) = .ok ([1, 2, 3, 4, 5, 255] ++ [255, 255, 2, 0] ++ List.replicate 10 7) := by decide +kernel
example := C75_small_buffer_refused exT exT_decoded (List.replicate 17 7) (by decide) (by decide)
example : copyTile (Tile.toWrite (exT.take 1)) [1, 2, 3, 4, 5, 255] = .ok [[1, 2, 3, 4, 5, 255]] := by decide +kernel

/-! ## What is not so -/

/-- The components of a tile before it is decoded. -/
def partsOf (prec : Nat) (T : Tcd.TileS) : List Part := T.comps.map fun c => ⟨prec, 0, c.ress.length - 1, c.ress.map fun r => (r.rect, r.rect), c.ress.length, []⟩

/-- **C75** needs tiles with a sample of every component. An image of 2 × 1 points in tiles one point wide has a component with every second
point. The second tile is correct and has no sample of it. The user asks for the header of this tile and the program panics: it divides by the width. -/
theorem C75_empty_component_panics : ∃ T, initTile false (oneComp 0 2 1 2 1 2) 1 = .ok T ∧ told (partsOf 8 T) = .error .panic := by
  refine ⟨_, (by decide +kernel : initTile false (oneComp 0 2 1 2 1 2) 1 = .ok (Tcd.tileOf false (oneComp 0 2 1 2 1 2) 1)), ?_⟩
  decide +kernel

/-- **C75** needs the rows there as well: a component with neither rows nor columns has a size of no bytes, and copying it panics. -/
theorem C75_nothing_panics : told [⟨8, 0, 0, [(⟨1, 1, 1, 1⟩, ⟨1, 1, 1, 1⟩)], 1, []⟩] = .ok 0 ∧
    ∀ dest, dest.length < 2 ^ 32 → update true [⟨8, 0, 0, [(⟨1, 1, 1, 1⟩, ⟨1, 1, 1, 1⟩)], 1, []⟩] dest = .error .panic := by
  refine ⟨by decide +kernel, fun dest hd => ?_⟩
  have e : size true true [⟨8, 0, 0, [(⟨1, 1, 1, 1⟩, ⟨1, 1, 1, 1⟩)], 1, []⟩] = .ok 0 := by decide +kernel
  unfold update
  rw [e, ok_bind]
  unfold refuseIf
  rw [if_neg (by unfold tooBig; omega)]
  rfl

end Jp2.TileOut

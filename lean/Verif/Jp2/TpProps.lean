import Verif.Jp2.TpSafe
import Verif.Jp2.HdrStdProps
/-!
# C66, C67: tile-parts from any bytes, and what truncation does
-/
namespace Jp2.Tp
open Jp2.Hdr (R Fail User Post refuseIf be stream HeaderOk)

/-- A decoder fresh from the main header of `file`. -/
theorem fresh_good {u : User} {h : Hdr.Dec} {file rest : List UInt8} (hu : u.reduce < 64) (strict : Bool) (w : Option Window)
    (hr : Hdr.readHeader u file = .ok (h, rest)) :
    Hdr.Inv u h ∧ Hdr.CodDone u h.tcp ∧ 0 < file.length ∧
      Good u h file strict 0 (withWindow (start h strict) w) ⟨file, file.length - rest.length, file.length - rest.length⟩ := by
  have hp := Hdr.readHeader_strong hu file
  rw [hr] at hp
  obtain ⟨hb, hi, hc⟩ := hp
  have hn : 0 < h.tw * h.th := Nat.mul_pos hi.geom.count.1 hi.geom.count.2.1
  have hlen : 0 < file.length := by
    cases file with
    | nil => exact absurd hr (by intro h; cases h)
    | cons a l => simp
  have hok : Ok u h file.length strict (start h strict) := by
    refine ⟨rfl, hb, List.length_replicate, hn, ?_, rfl⟩
    intro t ht
    rw [(List.mem_replicate.mp ht).2]
    exact ⟨hi.tcp, hc, (fun x hx => nomatch hx), fun _ => Nat.zero_le _⟩
  have hheld : held (start h strict) = 0 := by
    have : ∀ n, ((List.replicate n ({ tcp := h.tcp } : Tile)).map dlen).sum = 0 := by
      intro n
      induction n with
      | zero => rfl
      | succ n ih => rw [List.replicate_succ, List.map_cons, List.sum_cons, ih]; rfl
    exact this _
  refine ⟨hi, hc, hlen, ?_, ⟨rfl, Nat.le_refl _, Nat.sub_le _ _⟩, ?_⟩
  · cases w with
    | none => exact hok
    | some w => exact hok.with rfl rfl rfl hok.cur
  · cases w with
    | none => show held (start h strict) + 0 ≤ _; rw [hheld]; exact Nat.zero_le _
    | some w =>
      show held (start h strict) + 0 ≤ _
      rw [hheld]; exact Nat.zero_le _

/-- **C66.** Whatever the bytes of the file, the area asked for and the mode, going through the tile-parts ends with
the tiles for decoding or with a refusal: it never panics, never touches memory outside its buffers and never runs
without end. -/
theorem C66_tiles_total (u : User) (hu : u.reduce < 64) (strict whole : Bool) (w : Option Window) (file : List UInt8) :
    (∃ js, decodeFile u strict whole w file = .ok js) ∨ decodeFile u strict whole w file = .error .refused := by
  unfold decodeFile
  rcases Hdr.C53_header_total u hu file with ⟨h, rest, hr⟩ | hr
  · rw [hr]
    obtain ⟨hi, _, hf, hg⟩ := fresh_good hu strict w hr
    have hp := decodeTiles_post hi hf whole hg
    show (∃ js, decodeTiles u whole _ _ = _) ∨ decodeTiles u whole _ _ = _
    cases hd : decodeTiles u whole (withWindow (start h strict) w) ⟨file, file.length - rest.length, file.length - rest.length⟩ with
    | ok js => exact Or.inl ⟨js, rfl⟩
    | error e =>
      rw [hd] at hp
      cases e with
      | refused => exact Or.inr rfl
      | oob => exact nomatch hp
      | panic => exact nomatch hp
  · rw [hr]
    exact Or.inr rfl

/-- **C66.** What is handed over for decoding is sound, whatever the bytes: a tile of the image, with parameters within
the limits of the standard, no more bytes in all tiles than the file has, and no more tiles than the image has. -/
theorem C66_tiles_sound (u : User) (hu : u.reduce < 64) (strict whole : Bool) (w : Option Window) (file : List UInt8)
    (js : List Job) (hjs : decodeFile u strict whole w file = .ok js) :
    ∃ h rest, Hdr.readHeader u file = .ok (h, rest) ∧
      (∀ j ∈ js, j.tile < h.tw * h.th ∧ HeaderOk u { h with tcp := j.tcp }) ∧
      (js.map fun j => j.data.length).sum ≤ file.length ∧ js.length ≤ h.tw * h.th := by
  unfold decodeFile at hjs
  obtain ⟨⟨h, rest⟩, hr, hd⟩ := Hdr.bind_ok hjs
  dsimp only at hd
  obtain ⟨hi, _, hf, hg⟩ := fresh_good hu strict w hr
  have hp := decodeTiles_post hi hf whole hg
  rw [hd] at hp
  obtain ⟨h1, h2, h3⟩ := hp
  refine ⟨h, rest, hr, fun j hj => ⟨(h1 j hj).tile, ?_⟩, h2, h3⟩
  have it := inv_tile (h := h) hi rfl (h1 j hj).tcp
  have hc := (h1 j hj).cod
  exact ⟨it.geom, hc.csty, hc.prg, ⟨hc.layers, it.tcp.layers⟩, hc.mct, it.tcp.len, hc.style,
    fun t ht => (it.tcp.tccps t ht).quant, fun t ht => (it.tcp.tccps t ht).roi, fun t ht => (it.tcp.tccps t ht).prcs_len,
    it.tcp.pocs_len, it.tcp.pocs, it.tcp.matrix⟩

/-- The states an application can bring the decoder to with `opj_read_header`, `opj_set_decode_area`,
`opj_read_tile_header`, `opj_decode_tile_data` (which keeps or drops the data of the tile) until a call fails or no
tile is left. -/
inductive Reach (u : User) (strict : Bool) (w : Option Window) (file : List UInt8) : Dec → Src → Prop
  | start {h rest} : Hdr.readHeader u file = .ok (h, rest) →
      Reach u strict w file (withWindow (start h strict) w) ⟨file, file.length - rest.length, file.length - rest.length⟩
  | header {d s d' s'} : Reach u strict w file d s → readTileHeader u d s = .ok (true, d', s') → Reach u strict w file d' s'
  | tile {d s i job d' s'} : Reach u strict w file d s → decodeTile d i s = .ok (job, d', s') → Reach u strict w file d' s'
  | drop {d s i d'} : Reach u strict w file d s → i < d.tiles.length → destroy d i = .ok d' → Reach u strict w file d' s

theorem destroy_less {u : User} {h0 : Hdr.Dec} {file : List UInt8} {b : Bool} {i : Nat} {d d' : Dec} {s : Src}
    (h : Good u h0 file b 0 d s) (hi : i < d.tiles.length) (hd : destroy d i = .ok d') : Good u h0 file b 0 d' s := by
  have ht : d.tiles[i]? = some d.tiles[i] := List.getElem?_eq_getElem hi
  unfold destroy at hd
  rw [tileAt_ok ht] at hd
  injection hd with hd
  subst hd
  have hok := h.ok.tiles _ (List.getElem_mem hi)
  have hs := sum_set dlen d.tiles i d.tiles[i] { d.tiles[i] with data := none } ht
  refine ⟨⟨h.ok.same, h.ok.buf, by show (d.tiles.set i _).length = _; rw [List.length_set]; exact h.ok.len, h.ok.cur, ?_,
    h.ok.strict⟩, h.src, ?_⟩
  · intro t hm
    rcases List.mem_or_eq_of_mem_set hm with hm | rfl
    · exact h.ok.tiles t hm
    · exact ⟨hok.tcp, hok.cod, (fun x hx => nomatch hx), hok.cap⟩
  · have hh := h.held
    have h0 : dlen { d.tiles[i] with data := none } = 0 := rfl
    rw [h0] at hs
    have hk : ((d.tiles.set i { d.tiles[i] with data := none }).map dlen).sum ≤ held d := by unfold held; omega
    exact Nat.le_trans hk hh

theorem reach_good {u : User} (hu : u.reduce < 64) {strict : Bool} {w : Option Window} {file : List UInt8} {d : Dec} {s : Src}
    (r : Reach u strict w file d s) : ∃ h, Hdr.Inv u h ∧ 0 < file.length ∧ Good u h file strict 0 d s := by
  induction r with
  | start hr => obtain ⟨hi, _, hf, hg⟩ := fresh_good hu strict w hr; exact ⟨_, hi, hf, hg⟩
  | header _ e ih =>
    obtain ⟨h, hi, hf, hg⟩ := ih
    have hp := readTileHeader_post hi hf hg
    rw [e] at hp
    exact ⟨h, hi, hf, hp.1 rfl⟩
  | @tile d s i _ _ _ _ e ih =>
    obtain ⟨h, hi, hf, hg⟩ := ih
    have hp := decodeTile_post (k := i) hi hg
    rw [e] at hp
    exact ⟨h, hi, hf, hp.1⟩
  | drop _ hl e ih =>
    obtain ⟨h, hi, hf, hg⟩ := ih
    exact ⟨h, hi, hf, destroy_less hg hl e⟩

/-- **C66.** The same for an application that fetches tiles one by one, after any history of calls: the next call
succeeds or is refused. -/
theorem C66_calls_total (u : User) (hu : u.reduce < 64) (strict : Bool) (w : Option Window) (file : List UInt8)
    (d : Dec) (s : Src) (r : Reach u strict w file d s) :
    ((∃ x, readTileHeader u d s = .ok x) ∨ readTileHeader u d s = .error .refused) ∧
    ∀ i, (∃ x, decodeTile d i s = .ok x) ∨ decodeTile d i s = .error .refused := by
  obtain ⟨h, hi, hf, hg⟩ := reach_good hu r
  refine ⟨?_, fun i => ?_⟩
  · have hp := readTileHeader_post hi hf hg
    cases hd : readTileHeader u d s with
    | ok x => exact Or.inl ⟨x, rfl⟩
    | error e =>
      rw [hd] at hp
      cases e with
      | refused => exact Or.inr rfl
      | oob => exact nomatch hp
      | panic => exact nomatch hp
  · have hp := decodeTile_post (k := i) hi hg
    cases hd : decodeTile d i s with
    | ok x => exact Or.inl ⟨x, rfl⟩
    | error e =>
      rw [hd] at hp
      cases e with
      | refused => exact Or.inr rfl
      | oob => exact nomatch hp
      | panic => exact nomatch hp

/-- **C66.** In strict mode no tile ever has a larger allocation than the file (and a margin of two bytes), whatever
lengths the tile-parts claim; and in both modes the bytes held are bytes of the file. -/
theorem C66_memory_bounded (u : User) (hu : u.reduce < 64) (strict : Bool) (w : Option Window) (file : List UInt8)
    (d : Dec) (s : Src) (r : Reach u strict w file d s) :
    (d.tiles.map fun t => (t.data.getD []).length).sum ≤ file.length ∧
    ∀ t ∈ d.tiles, (strict = true → t.cap ≤ file.length + 2) ∧ ∀ x, t.data = some x → x.length + 2 ≤ t.cap := by
  obtain ⟨h, hi, hf, hg⟩ := reach_good hu r
  have h1 := hg.held
  have h2 := hg.src.off
  refine ⟨?_, fun t ht => ⟨(hg.ok.tiles t ht).cap, (hg.ok.tiles t ht).room⟩⟩
  unfold held at h1
  show (d.tiles.map dlen).sum ≤ _
  omega

/-! ## Examples -/

/-- Main header of an image of two tiles, 20 by 10 with tiles of 10 by 10, one component. -/
def exHead : List (Nat × List UInt8) :=
  [(0xFF51, be 2 0 ++ be 4 20 ++ be 4 10 ++ be 4 0 ++ be 4 0 ++ be 4 10 ++ be 4 10 ++ be 4 0 ++ be 4 0 ++ be 2 1 ++
      [7, 1, 1]),
    (0xFF52, [0, 2, 0, 3, 0, 1, 4, 4, 0, 1]), (0xFF5C, [64, 8, 16, 24, 32])]

/-- A tile-part with a `Psot` of `len`. -/
def exPart (tile len num count : Nat) (segs data : List UInt8) : List UInt8 :=
  be 2 0xFF90 ++ be 2 10 ++ be 2 tile ++ be 4 len ++ be 1 num ++ be 1 count ++ segs ++ be 2 0xFF93 ++ data

/-- The file with these tile-parts (the first `SOT` marker is part of `stream`). -/
def exFile (parts : List UInt8) : List UInt8 := stream exHead (parts.drop 2)

/-- What is seen of the tiles. -/
def seen (r : R (List Job)) : R (List (Nat × List UInt8 × Nat)) :=
  r.map fun js => js.map fun j => (j.tile, j.data, j.tcp.pocs.length)

/-- The outcome for a file of three interleaved tile-parts, and for one that ends in the middle of a tile-part. -/
example :
    seen (decodeFile {} true false none (exFile (exPart 0 17 0 2 [] [1, 2, 3] ++ exPart 1 16 0 1 [] [8, 9] ++
      exPart 0 15 1 2 [] [4] ++ be 2 0xFFD9))) = .ok [(1, [8, 9], 0), (0, [1, 2, 3, 4], 0)] ∧
    seen (decodeFile {} true false none (exFile (exPart 0 17 0 1 [] [1, 2]))) = .error .refused := by
  constructor <;> decide +kernel

/-- A claim of four gigabytes in a file of 100 bytes: refused in strict mode, a huge allocation otherwise. -/
example : seen (decodeFile {} true false none (exFile (exPart 0 0xFFFFFFF0 0 1 [] [1, 2]))) = .error .refused := by
  decide +kernel

end Jp2.Tp

import Verif.Jp2.TpSegs
/-!
# C65: the tiles of a well-formed codestream
-/
namespace Jp2.Tp
open Jp2.Hdr (R Fail User be Style Quant Change cocBody qccBodyStd rgnBodyStd)

/-- **C65.** From a codestream whose tile-parts are laid out as the standard says (of any tiles in any mixture, any number of
parts to a tile, with or without their number, the last part with or without its length), decoding hands over each
tile that is wanted and present, and no other, exactly once. The tile comes with the data of its parts in their order,
with the coding parameters its headers and the main header give it, and with its packed packet headers in the order
of their numbers. -/
theorem C65_tiles (u : User) (hu : u.reduce < 64) (strict whole zero : Bool) (w : Option Window) (file rest junk : List UInt8)
    (h : Hdr.Dec) (hr : Hdr.readHeader u file = .ok (h, rest)) (ps : List Part) (g : Nat → Par)
    (hbytes : be 2 0xFF90 ++ rest = partsBytes zero ps ++ (be 2 0xFFD9 ++ junk)) (hj : zero = true → junk = [])
    (hwhole : whole = true → w = none ∧ h.tw * h.th = 1)
    (hv : Valid (h.tw * h.th) (wanted h.tw w) zero ps)
    (hg : Runs u h (wanted h.tw w) (fun _ => { tcp := h.tcp }) ps g) :
    ∃ js, decodeFile u strict whole w file = .ok js ∧ (js.map (·.tile)).Nodup ∧
      (∀ i, i ∈ js.map (·.tile) ↔ wanted h.tw w i = true ∧ ∃ p ∈ ps, p.tile = i) ∧
      ∀ j ∈ js, j.data = dataOf ps j.tile ∧ j.tcp = (g j.tile).tcp ∧ j.ppt = (g j.tile).packed := by
  obtain ⟨js, h1, h2⟩ := decode_full (strict := strict) (whole := whole) hu hr hbytes hj hwhole hv hg
  refine ⟨js, h1, h2.nodup, fun i => ⟨fun hi => ?_, fun ⟨hw, p, hp, ht⟩ => ?_⟩, fun j hj => ?_⟩
  · obtain ⟨j, hj, rfl⟩ := List.mem_map.mp hi
    exact ⟨(h2.right j hj).want, cnt_mem (h2.right j hj).some⟩
  · refine (h2.all i hw ?_).resolve_left (by simp)
    exact List.countP_pos_iff.mpr ⟨p, hp, by simpa using ht⟩
  · exact ⟨(h2.right j hj).data, (h2.right j hj).tcp, (h2.right j hj).ppt⟩

/-! ## What the segments of a tile-part header say -/

/-- **C65.** A `COC` segment in the header of a tile-part gives the component of this tile the style it describes,
whatever the main header and earlier segments said. -/
theorem C65_tile_style (u : User) (hu : u.reduce < 64) (file rest : List UInt8) (h : Hdr.Dec)
    (hr : Hdr.readHeader u file = .ok (h, rest)) (a : Par) (ha : Told u h a) (i : Nat) (t : Hdr.Tccp)
    (ht : a.tcp.tccps[i]? = some t) (s : Style) (hs : s.Valid) (hl : u.reduce ≤ s.levels) :
    ∃ ps, (∀ r ≤ s.levels, ps[r]? = s.precinct r) ∧
      SegStep u h a (0xFF53, cocBody h.comps.length i s) { a with tcp := { a.tcp with tccps := a.tcp.tccps.set i { t with
        csty := s.scoc, numres := s.levels + 1, cblkw := s.xcb, cblkh := s.ycb, cblksty := s.modes,
        qmfbid := if s.reversible then 1 else 0, prcs := ps } } } := by
  have hp := Hdr.readHeader_strong hu file
  rw [hr] at hp
  exact seg_coc hp.2.1 (told_inv hp.2.1 ha) hs hl ht

/-- **C65.** A `QCC` segment in the header of a tile-part gives the component of this tile its quantization. -/
theorem C65_tile_quantization (u : User) (hu : u.reduce < 64) (file rest : List UInt8) (h : Hdr.Dec)
    (hr : Hdr.readHeader u file = .ok (h, rest)) (a : Par) (ha : Told u h a) (i levels : Nat) (t : Hdr.Tccp)
    (ht : a.tcp.tccps[i]? = some t) (q : Quant) (hq : q.Valid levels) :
    ∃ ss, (∀ k ≤ 3 * levels, ss[k]? = q.steps.step levels k) ∧
      SegStep u h a (0xFF5D, qccBodyStd h.comps.length i q) { a with tcp := { a.tcp with tccps := a.tcp.tccps.set i { t with
        qntsty := q.steps.tag, numgbits := q.guard, steps := ss } } } := by
  have hp := Hdr.readHeader_strong hu file
  rw [hr] at hp
  exact seg_qcc hp.2.1 (told_inv hp.2.1 ha) hq ht

/-- **C65.** An `RGN` segment in the header of a tile-part gives the component of this tile its region of interest. -/
theorem C65_tile_region (u : User) (hu : u.reduce < 64) (file rest : List UInt8) (h : Hdr.Dec)
    (hr : Hdr.readHeader u file = .ok (h, rest)) (a : Par) (ha : Told u h a) (i v : Nat) (t : Hdr.Tccp)
    (ht : a.tcp.tccps[i]? = some t) (hv : v < 256) :
    SegStep u h a (0xFF5E, rgnBodyStd h.comps.length i v)
      { a with tcp := { a.tcp with tccps := a.tcp.tccps.set i { t with roishift := v } } } := by
  have hp := Hdr.readHeader_strong hu file
  rw [hr] at hp
  exact seg_rgn hp.2.1 (told_inv hp.2.1 ha) hv ht

/-- **C65.** A `POC` segment in the header of a tile-part adds its progression order changes to those of the tile. (The
standard wants the first one in a tile to replace those of the main header: see `C65_order_changes_not_replaced`.) -/
theorem C65_tile_order_changes_partial (u : User) (hu : u.reduce < 64) (file rest : List UInt8) (h : Hdr.Dec)
    (hr : Hdr.readHeader u file = .ok (h, rest)) (a : Par) (ha : Told u h a) (l : List Change) (hl : l ≠ [])
    (h32 : a.tcp.pocs.length + l.length < 32) (hv : ∀ c ∈ l, c.Valid h.comps.length a.tcp.numlayers) :
    SegStep u h a (0xFF5F, l.flatMap (Change.bytes h.comps.length))
      { a with tcp := { a.tcp with pocs := a.tcp.pocs ++ l.map Change.poc } } := by
  have hp := Hdr.readHeader_strong hu file
  rw [hr] at hp
  exact seg_poc hp.2.1 (told_inv hp.2.1 ha) hl h32 hv

/-- **C65.** A comment in the header of a tile-part changes nothing. -/
theorem C65_tile_comment (u : User) (h : Hdr.Dec) (a : Par) (text : List UInt8) : SegStep u h a (0xFF64, text) a := seg_com text

/-! ## A case -/

theorem order_of {ps : List Part} (h : ∀ k : Fin ps.length, ps[k].num = cnt (ps.take k) ps[k].tile) :
    ∀ a p b, ps = a ++ p :: b → p.num = cnt a p.tile := by
  intro a p b e
  subst e
  have := h ⟨a.length, by simp⟩
  simpa using this

/-- Three parts of two tiles, the parts of tile 0 around that of tile 1, with a region of interest for tile 0, packet
lengths and packed headers for tile 1, and the last part without its length. -/
def exParts : List Part :=
  [⟨0, 0, 0, [(0xFF5E, rgnBodyStd 1 0 7)], [1, 2, 3]⟩, ⟨1, 0, 1, [(0xFF61, [1, 5]), (0xFF58, [0, 2]), (0xFF61, [0, 4])], [8, 9]⟩,
    ⟨0, 1, 2, [], [4]⟩]

def exBytes : List UInt8 := stream exHead ((partsBytes true exParts ++ be 2 0xFFD9).drop 2)
where stream := Jp2.Hdr.stream

/-- The hypotheses of `C65_tiles` are met by this file. -/
example : Valid 2 (wanted 2 none) true exParts := by
  refine ⟨by decide, order_of (by decide +kernel), by decide, by decide, by decide +kernel, by decide, by decide +kernel,
    fun _ _ _ => rfl⟩

/-- What is handed over. -/
example :
    (decodeFile {} true false none exBytes).map (fun js => js.map fun j => (j.tile, j.data)) = .ok [(1, [8, 9]), (0, [1, 2, 3, 4])] ∧
    (decodeFile {} true false none exBytes).map (fun js => js.map fun j => (j.ppt, j.tcp.tccps.map (·.roishift))) =
      .ok [(some [4, 5], [0]), (none, [7])] := by
  constructor <;> decide +kernel

/-- Its headers say this much, and the header is read. -/
example : (Hdr.readHeader {} exBytes).map (fun x => (x.1.tw, x.1.th, be 2 0xFF90 ++ x.2)) =
    .ok (2, 1, partsBytes true exParts ++ (be 2 0xFFD9 ++ [])) := by
  decide +kernel

example (h : Hdr.Dec) (hi : Hdr.Inv {} h) (hc : h.comps.length = 1) (hp : h.ppm = false) (t : Hdr.Tccp) (ht : h.tcp.tccps[0]? = some t) :
    ∃ g, Runs {} h (wanted 2 none) (fun _ => { tcp := h.tcp }) exParts g ∧ (g 1).packed = some [4, 5] ∧
      (g 0).tcp.tccps[0]? = some { t with roishift := 7 } := by
  have hl : 0 < h.tcp.tccps.length := (List.getElem?_eq_some_iff.1 ht).1
  have s1 := seg_rgn (a := { tcp := h.tcp }) (v := 7) hi hi.tcp (by decide) ht
  rw [hc] at s1
  have s2 : SegStep {} h { tcp := h.tcp } (0xFF61, [1, 5]) { tcp := h.tcp, ppts := [(1, [5])] } :=
    SegStep.ppt (z := 1) hp (by decide) rfl
  have s3 : SegStep {} h { tcp := h.tcp, ppts := [(1, [5])] } (0xFF58, [0, 2]) { tcp := h.tcp, ppts := [(1, [5])] } :=
    SegStep.plt (by decide) (by decide)
  have s4 : SegStep {} h { tcp := h.tcp, ppts := [(1, [5])] } (0xFF61, [0, 4]) { tcp := h.tcp, ppts := [(1, [5]), (0, [4])] } :=
    SegStep.ppt (z := 0) hp (by decide) rfl
  have s5 : ∀ x, Par.packed ⟨x, [(1, [5]), (0, [4])]⟩ = some [4, 5] := fun x => by
    unfold Par.packed
    rw [if_neg (by simp)]
    exact congrArg some (show (List.range 256).flatMap (fun z => (List.lookup z [(1, [5]), (0, [4])]).getD []) = ([4, 5] : List UInt8) by
      decide +kernel)
  exact ⟨_, .step rfl (.cons s1 (by decide) .nil) (.step rfl (.cons s2 (by decide) (.cons s3 (by decide) (.cons s4 (by decide) .nil)))
    (.step rfl .nil .nil)), s5 h.tcp, by simp [hl]⟩

/-! ## What is not so -/

/-- **C65** needs tiles with data: a tile whose parts are all empty (a tile of a picture that is all zero, say) is left out
without a word; and if the number of its parts is given, the file is refused. -/
theorem C65_empty_tile_lost :
    seen (decodeFile {} true false none (exFile (exPart 0 17 0 1 [] [1, 2, 3] ++ exPart 1 14 0 0 [] [] ++ be 2 0xFFD9))) =
      .ok [(0, [1, 2, 3], 0)] ∧
    seen (decodeFile {} true false none (exFile (exPart 0 17 0 1 [] [1, 2, 3] ++ exPart 1 14 0 1 [] [] ++ be 2 0xFFD9))) =
      .error .refused := by
  constructor <;> decide +kernel

/-- **C65** needs the length of a part that is not wanted: with only tile 0 wanted, a last part of tile 1 that leaves its
length unsaid is handed over all the same. -/
theorem C65_unwanted_last_tile :
    seen (decodeFile {} true false (some ⟨0, 1, 0, 1⟩)
      (exFile (exPart 0 17 0 1 [] [1, 2, 3] ++ exPart 1 0 0 1 [] [8, 9] ++ be 2 0xFFD9))) =
      .ok [(0, [1, 2, 3], 0), (1, [8, 9], 0)] ∧
    seen (decodeFile {} true false (some ⟨0, 1, 0, 1⟩)
      (exFile (exPart 0 17 0 1 [] [1, 2, 3] ++ exPart 1 16 0 1 [] [8, 9] ++ be 2 0xFFD9))) = .ok [(0, [1, 2, 3], 0)] := by
  constructor <;> decide +kernel

/-- A marker segment the library does not know is skipped in the main header (C55), but in the header of a tile-part it makes
the file refused. -/
theorem C65_unknown_segment_refused :
    seen (decodeFile {} true false none (exFile (exPart 0 21 0 1 (be 2 0xFF30 ++ be 2 2) [1, 2, 3] ++ exPart 1 16 0 1 [] [8, 9] ++
      be 2 0xFFD9))) = .error .refused := by
  decide +kernel

/-- The lenient mode is for files that are cut short. Even there, a file that lacks no more than its last marker is refused,
if the number of parts is given; and if it is not given, a tile that lost a byte is handed over with no byte at all. -/
theorem C65_lenient_mode_loses :
    seen (decodeFile {} false false none (exFile (exPart 0 17 0 1 [] [1, 2, 3] ++ exPart 1 16 0 1 [] [8, 9]))) = .error .refused ∧
    seen (decodeFile {} false false none (exFile (exPart 0 17 0 0 [] [1, 2, 3] ++ (exPart 1 16 0 0 [] [8, 9]).dropLast))) =
      .ok [(0, [1, 2, 3], 0), (1, [], 0)] := by
  constructor <;> decide +kernel

/-- A main header with a progression order change. -/
def exHeadPoc : List (Nat × List UInt8) := exHead ++ [(0xFF5F, Change.bytes 1 ⟨0, 0, 2, 1, 1, 4⟩)]

/-- The changes of progression order in the header of a tile do not replace those of the main header, as A.6.6 of the standard
wants it, but come after them. -/
theorem C65_order_changes_not_replaced :
    seen (decodeFile {} true false none (Hdr.stream exHeadPoc ((exPart 0 28 0 1 (Hdr.segment 0xFF5F (Change.bytes 1 ⟨0, 0, 2, 1, 1, 0⟩))
      [1, 2, 3] ++ exPart 1 16 0 1 [] [8, 9] ++ be 2 0xFFD9).drop 2))) = .ok [(0, [1, 2, 3], 2), (1, [8, 9], 1)] := by
  decide +kernel

end Jp2.Tp

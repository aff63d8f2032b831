import Verif.Jp2.BoxOrder
import Verif.Jp2.HdrProps
/-!
# JP2 files (C57 to C60)
-/
namespace Jp2.Box
open Hdr (Fail R refuseIf be be_len ok_bind refuse_bind)

/-! ## Examples -/

/-- A grey image of 3x2 with opacity, at (1, 1). -/
def exGrey : Image := ⟨1, 1, 4, 3, 2, 0, [⟨8, 0, 0⟩, ⟨8, 0, 1⟩]⟩

/-- A colour image with components of different depths, opacity in the last. -/
def exMixed : Image := ⟨0, 0, 5, 6, 1, 0, [⟨8, 0, 0⟩, ⟨10, 1, 0⟩, ⟨8, 0, 0⟩, ⟨1, 0, 0⟩, ⟨1, 0, 2⟩]⟩

/-- Signature and file type boxes. -/
def exStart : List UInt8 :=
  box (code 'j' 'P' ' ' ' ') magic ++ box (code 'f' 't' 'y' 'p') (be 4 (code 'j' 'p' '2' ' ') ++ be 4 0)

/-- An image header box for one component of 2x1. -/
def exIhdr : List UInt8 := box (code 'i' 'h' 'd' 'r') [0, 0, 0, 1, 0, 0, 0, 2, 0, 1, 7, 7, 0, 0]

/-- How reading data as a file ends, seen through `f`. -/
def ends {α : Type} (m : Mode) (s : St) (f : Codec → List UInt8 → α) : R α := (readFile m {} s).map fun r => f r.1 r.2.rest

/-! ## C57: any bytes -/

theorem readHeader_post (u : Hdr.User) (hu : u.reduce < 64) (data : List UInt8) :
    Post (Wide u.mode data) (readHeader u (St.file data)) (fun r => Ok r.1 ∧ r.1.hasIhdr = true ∧
      Hdr.HeaderOk { u with ihdrW := r.1.ihdrW, ihdrH := r.1.ihdrH } r.2.1) := by
  unfold readHeader
  refine Post.bind (readFile_post u.mode Ok.new (file_sound data)) fun ⟨j, s⟩ hj => ?_
  dsimp only at hj ⊢
  have hh := Hdr.readHeader_post (u := { u with ihdrW := j.ihdrW, ihdrH := j.ihdrH }) hu s.rest
  cases hr : Hdr.readHeader { u with ihdrW := j.ihdrW, ihdrH := j.ihdrH } s.rest with
  | error e =>
    rw [hr] at hh
    cases e with
    | refused => exact Or.inl rfl
    | panic => exact nomatch hh
    | oob => exact nomatch hh
  | ok r => exact ⟨hj.1, hj.2.2.2, hh.of_ok hr⟩

/-- **C57.** Whatever the bytes of a file, reading its boxes and the main header of its codestream either succeeds or
is refused, unless overflow is checked and there is a palette of 16 columns or more in it. -/
theorem C57_file_total (u : Hdr.User) (hu : u.reduce < 64) (data : List UInt8) (hw : ¬ Wide u.mode data) :
    (∃ r, readHeader u (St.file data) = .ok r) ∨ readHeader u (St.file data) = .error .refused := by
  have h := readHeader_post u hu data
  cases hr : readHeader u (St.file data) with
  | ok r => exact Or.inl ⟨r, rfl⟩
  | error e =>
    rw [hr] at h
    rcases h with h | h
    · exact Or.inr (by rw [h])
    · exact absurd h.2 hw

/-- **C57.** In particular in a build without overflow checks. -/
theorem C57_release_total (u : Hdr.User) (hu : u.reduce < 64) (hm : u.mode = .wrapping) (data : List UInt8) :
    (∃ r, readHeader u (St.file data) = .ok r) ∨ readHeader u (St.file data) = .error .refused :=
  C57_file_total u hu data fun h => by
    have := h.1
    rw [hm] at this
    cases this

/-- **C57.** What is accepted has a size that is not 0, between 1 and 16384 components, a palette whose tables are as
long as announced, and channel definitions that are not empty; the main header is complete and in range. -/
theorem C57_in_range (u : Hdr.User) (hu : u.reduce < 64) (data rest : List UInt8) (j : Codec) (d : Hdr.Dec)
    (h : readHeader u (St.file data) = .ok (j, d, rest)) :
    ((1 ≤ j.w ∧ j.w < 2 ^ 32) ∧ (1 ≤ j.h ∧ j.h < 2 ^ 32)) ∧ (1 ≤ j.comps.length ∧ j.comps.length ≤ 16384) ∧
    (∀ pc, j.pclr = some pc → PclrOk pc) ∧ (∀ ds, j.cdef = some ds → ds ≠ []) ∧
    Hdr.HeaderOk { u with ihdrW := j.w, ihdrH := j.h } d := by
  obtain ⟨hj, hi, hd⟩ := (readHeader_post u hu data).of_ok h
  have hs := hj.size hi
  have hd' : Hdr.HeaderOk { u with ihdrW := j.ihdrW, ihdrH := j.ihdrH } d := hd
  rw [hs.2.2.1, hs.2.2.2] at hd'
  exact ⟨⟨hs.1, hs.2.1⟩, ⟨hj.comps hi, hj.count.1⟩, hj.pclr, fun ds h => (hj.cdef ds h).1, hd'⟩

/-- The palette limit is met by real files: a file with a palette of two entries and three columns is not `Wide`
and is read in a checked build. -/
example : ends .checked (St.file (exStart ++ box (code 'j' 'p' '2' 'h') (exIhdr ++
      box (code 'p' 'c' 'l' 'r') [0, 2, 3, 7, 7, 15, 1, 2, 0, 3, 4, 5, 1, 0] ++
      box (code 'c' 'm' 'a' 'p') [0, 0, 1, 0, 0, 0, 1, 1, 0, 0, 1, 2]) ++ box (code 'j' 'p' '2' 'c') [1, 2]))
    (fun j rest => (j.pclr, rest)) =
    .ok (some ⟨2, 3, [(8, 0), (8, 0), (16, 0)], [1, 2, 3, 4, 5, 256], [⟨0, 1, 0⟩, ⟨0, 1, 1⟩, ⟨0, 1, 2⟩]⟩, [1, 2]) := by
  decide +kernel

/-- **C57**, the limit on palettes: a palette of 16 columns panics in a checked build; other builds read it. -/
theorem C57_wide_palette_panics :
    let file := exStart ++ box (code 'j' 'p' '2' 'h') (exIhdr ++
      box (code 'p' 'c' 'l' 'r') ([0, 1, 16] ++ List.replicate 16 7 ++ List.replicate 16 9)) ++ box (code 'j' 'p' '2' 'c') []
    ends .checked (St.file file) (fun _ _ => ()) = .error .panic ∧
    ends .wrapping (St.file file) (fun j _ => j.pclr.map (·.entries)) = .ok (some (List.replicate 16 9)) := by
  refine ⟨?_, ?_⟩ <;> decide +kernel

/-- **C57**, streams of unknown length: a stream whose length was not given (`opj_stream_set_user_data_length` not
called) panics behind the first box, whatever that box is, so no file can be read from it. -/
theorem C57_unknown_length_panics (m : Mode) (b rest : List UInt8) (ty : Nat) (body : List UInt8) (hb : IsBox ty body b)
    (hty : ty = code 'j' 'P' ' ' ' ') : readFile m {} ⟨b ++ rest, 0, 0⟩ = .error .panic := by
  subst hty
  obtain ⟨hd, e, ht, hl, hle, hne, hbl⟩ := readHead_box (n := 0) (rest := rest) hb
  have hf : isFile hd.ty = true := by rw [ht]; decide
  unfold readFile
  rw [readBoxes]
  have hleft : (⟨b ++ rest, 0, 0⟩ : St).left = .ok 0 := rfl
  rw [hleft, ok_bind]
  show ((match readHead 0 (b ++ rest) with | (none, p) => _ | (some h, p) => _) >>= _) = _
  rw [e]
  show ((oneBox m hd {} ((⟨b ++ rest, 0, 0⟩ : St).to (body ++ rest)) >>= _) >>= _) = _
  have : oneBox m hd {} ((⟨b ++ rest, 0, 0⟩ : St).to (body ++ rest)) = .error .panic := by
    unfold oneBox
    rw [if_neg (by rw [ht]; decide), refuse_bind hne, refuse_bind (by omega), if_pos hf]
    unfold fileBox St.left St.to
    dsimp only
    rw [if_pos]
    · rfl
    · have hh : 8 ≤ hd.hlen := by
        have := hb.len
        omega
      simp only [List.length_append]
      omega
  rw [this]
  rfl

/-! ## C58: the order of the boxes -/

/-- **C58.** An accepted file begins with the signature and the file type, or one of its first two boxes is a box
of the image header outside the header box. Missing from the full statement: such a misplaced box is taken as if
everything had been seen (`C58_unsigned_file_accepted`). -/
theorem C58_signature_partial (m : Mode) (data : List UInt8) (r : Codec × St) (h : readFile m {} (St.file data) = .ok r) :
    (∃ ty ∈ headerTypes, Starts ty data) ∨
    ∃ h1 rest, IsHead (code 'j' 'P' ' ' ' ') 4 h1 ∧ data = h1 ++ magic ++ rest ∧
      ((∃ ty ∈ headerTypes, Starts ty rest) ∨
        ∃ h2 body rest2, IsHead (code 'f' 't' 'y' 'p') body.length h2 ∧ rest = h2 ++ body ++ rest2 ∧ 8 ≤ body.length ∧ 4 ∣ body.length) := by
  unfold readFile at h
  obtain ⟨⟨j', s'⟩, h1, h⟩ := Hdr.bind_ok h
  obtain ⟨_, h2, h⟩ := Hdr.bind_ok h
  have h2 := refuse_ok h2
  have e : St.file data = at' data.length data := by unfold St.file at'; simp
  rw [e] at h1
  exact order (Nat.le_refl _) h1 (by simpa using h2)

/-- **C58.** A file whose first two boxes are not boxes of the image header is refused without them. -/
theorem C58_signature_required (m : Mode) (data : List UInt8) (r : Codec × St) (h : readFile m {} (St.file data) = .ok r)
    (hs : ∀ ty ∈ headerTypes, ¬ Starts ty data ∧ ¬ Starts ty (data.drop 12) ∧ ¬ Starts ty (data.drop 20)) :
    ∃ a b ftyp rest, IsHead (code 'j' 'P' ' ' ' ') 4 a ∧ IsHead (code 'f' 't' 'y' 'p') ftyp.length b ∧
      data = a ++ magic ++ (b ++ ftyp ++ rest) := by
  rcases C58_signature_partial m data r h with ⟨ty, ht, hst⟩ | ⟨a, rest, ha, hd, hx⟩
  · exact absurd hst (hs ty ht).1
  · rcases hx with ⟨ty, ht, hst⟩ | ⟨b, body, rest2, hb, hr, _⟩
    · exfalso
      have hl : (a ++ magic).length = 12 ∨ (a ++ magic).length = 20 := by
        rcases ha with rfl | rfl
        · left; simp only [List.length_append, be_len]; rfl
        · right; simp only [List.length_append, be_len]; rfl
      have e : data.drop (a ++ magic).length = rest := by rw [hd, List.drop_left]
      rcases hl with hl | hl
      · rw [hl] at e; exact (hs ty ht).2.1 (by rw [e]; exact hst)
      · rw [hl] at e; exact (hs ty ht).2.2 (by rw [e]; exact hst)
    · exact ⟨a, b, body, rest2, ha, hb, by rw [hd, hr]⟩

/-- The encoder's file meets the hypotheses. -/
example : ends .checked (St.file (stdFile exGrey [] [1, 2, 3])) (fun j rest => (j.w, j.h, rest)) = .ok (3, 2, [1, 2, 3]) ∧
    ∀ ty ∈ headerTypes, ¬ Starts ty (stdFile exGrey [] [1, 2, 3]) ∧ ¬ Starts ty ((stdFile exGrey [] [1, 2, 3]).drop 12) ∧
      ¬ Starts ty ((stdFile exGrey [] [1, 2, 3]).drop 20) := by
  unfold Starts
  decide +kernel

/-- **C58**, the gap: data without signature and file type is accepted as a file when it begins with an image header
box outside the header box. The same data without that box is refused. -/
theorem C58_unsigned_file_accepted :
    let file := box (code 'j' 'p' '2' 'h') exIhdr ++ box (code 'j' 'p' '2' 'c') [1, 2]
    ends .checked (St.file (exIhdr ++ file)) (fun j rest => (j.w, j.h, rest)) = .ok (2, 1, [1, 2]) ∧
    ends .checked (St.file file) (fun _ _ => ()) = .error .refused := by
  refine ⟨?_, ?_⟩ <;> decide +kernel

/-- **C58**, the end of the file: a file that stops behind its header box, or inside the header of a later box, is
accepted, with nothing left as its codestream. -/
theorem C58_no_codestream_accepted :
    ends .checked (St.file (exStart ++ box (code 'j' 'p' '2' 'h') exIhdr)) (fun j rest => (j.w, j.h, rest)) = .ok (2, 1, []) ∧
    ends .checked (St.file (exStart ++ box (code 'j' 'p' '2' 'h') exIhdr ++ [0, 0, 0])) (fun j rest => (j.w, j.h, rest)) = .ok (2, 1, []) := by
  refine ⟨?_, ?_⟩ <;> decide +kernel

/-! ## C59: unknown boxes -/

theorem isImage_iff (ty : Nat) : isImage ty = decide (ty ∈ headerTypes) := by
  have e : headerTypes = [tIHDR, tBPCC, tCOLR, tPCLR, tCMAP, tCDEF] := by decide
  rw [Bool.eq_iff_iff, decide_eq_true_iff, e]
  unfold isImage
  simp only [Bool.or_eq_true, beq_iff_eq, List.mem_cons, List.not_mem_nil, or_false]
  tauto

/-- **C59.** Boxes of unknown type, before and behind the header box and inside it, make no difference: what the
reader knows, where it finds the codestream and how it fails are the same as for the file without them. -/
theorem C59_unknown_boxes_skipped (m : Mode) (ftyp cs with_ without : List UInt8) (x1 header x2 : List (Nat × List UInt8))
    (h1 : IsFile ftyp x1 header x2 cs with_) (h2 : IsFile ftyp [] (header.filter fun x => x.1 ∈ headerTypes) [] cs without)
    (hx1 : ∀ x ∈ x1, Unknown x.1) (hx2 : ∀ x ∈ x2, Unknown x.1) :
    ends m (St.file with_) (fun j rest => (j.known, rest)) = ends m (St.file without) (fun j rest => (j.known, rest)) := by
  have e1 := file_read (m := m) h1 hx1 hx2
  have e2 := file_read (m := m) h2 (fun _ h => nomatch h) (fun _ h => nomatch h)
  have e3 := outcome_filter m ftyp header cs
  have e4 : (header.filter fun x => decide (x.1 ∈ headerTypes)) = header.filter fun x => isImage x.1 := by
    congr 1; funext x; rw [isImage_iff]
  rw [e4, e3] at e2
  exact e1.trans e2.symm

/-- **C59.** Nor do they for the main header read behind them. -/
theorem C59_header_unaffected (u : Hdr.User) (ftyp cs with_ without : List UInt8) (x1 header x2 : List (Nat × List UInt8))
    (h1 : IsFile ftyp x1 header x2 cs with_) (h2 : IsFile ftyp [] (header.filter fun x => x.1 ∈ headerTypes) [] cs without)
    (hx1 : ∀ x ∈ x1, Unknown x.1) (hx2 : ∀ x ∈ x2, Unknown x.1) :
    (readHeader u (St.file with_)).map (fun r => (r.1.known, r.2)) =
      (readHeader u (St.file without)).map (fun r => (r.1.known, r.2)) := by
  have h := C59_unknown_boxes_skipped u.mode ftyp cs with_ without x1 header x2 h1 h2 hx1 hx2
  unfold ends at h
  unfold readHeader
  cases ha : readFile u.mode {} (St.file with_) with
  | error f =>
    cases hb : readFile u.mode {} (St.file without) with
    | error g => rw [ha, hb] at h; injection h with h; rw [h]
    | ok b => rw [ha, hb] at h; cases h
  | ok a =>
    cases hb : readFile u.mode {} (St.file without) with
    | error g => rw [ha, hb] at h; cases h
    | ok b =>
      rw [ha, hb] at h
      injection h with h
      have hk : a.1.known = b.1.known := congrArg Prod.fst h
      have hr : a.2.rest = b.2.rest := congrArg Prod.snd h
      have hw : a.1.ihdrW = b.1.ihdrW := by
        have := congrArg Codec.ihdrW hk
        exact this
      have hh : a.1.ihdrH = b.1.ihdrH := by
        have := congrArg Codec.ihdrH hk
        exact this
      rw [ok_bind, ok_bind]
      dsimp only
      rw [hw, hh, hr]
      cases Hdr.readHeader { u with ihdrW := b.1.ihdrW, ihdrH := b.1.ihdrH } b.2.rest with
      | error f => rfl
      | ok d =>
        show Except.ok (a.1.known, d.1, d.2) = Except.ok (b.1.known, d.1, d.2)
        rw [hk]

theorem exStart_isFile (x1 header x2 : List (Nat × List UInt8)) (cs : List UInt8)
    (h1 : ∀ x ∈ x1 ++ header ++ x2, x.1 < 2 ^ 32 ∧ x.2.length + 16 < 2 ^ 32) (hc : cs.length + 16 < 2 ^ 32)
    (hh : (header.flatMap fun x => box x.1 x.2).length + 16 < 2 ^ 32) :
    IsFile (be 4 (code 'j' 'p' '2' ' ') ++ be 4 0) x1 header x2 cs
      (exStart ++ (x1.flatMap fun x => box x.1 x.2) ++ box (code 'j' 'p' '2' 'h') (header.flatMap fun x => box x.1 x.2) ++
        (x2.flatMap fun x => box x.1 x.2) ++ box (code 'j' 'p' '2' 'c') cs) := by
  have p1 : IsBox (code 'j' 'P' ' ' ' ') magic (box (code 'j' 'P' ' ' ' ') magic) := isBox_box (by decide) (by decide)
  have p2 : IsBox (code 'f' 't' 'y' 'p') (be 4 (code 'j' 'p' '2' ' ') ++ be 4 0) (box (code 'f' 't' 'y' 'p') (be 4 (code 'j' 'p' '2' ' ') ++ be 4 0)) :=
    isBox_box (by decide) (by rw [List.length_append, be_len, be_len]; omega)
  have p3 := isBox_box (ty := code 'j' 'p' '2' 'h') (by decide) hh
  have p4 := isBox_box (ty := code 'j' 'p' '2' 'c') (by decide) hc
  exact ⟨⟨_, _, _, _, _, _, _, rfl, p1, p2,
    boxes_flat x1 fun x hx => h1 x (by simp only [List.mem_append]; exact Or.inl (Or.inl hx)),
    boxes_flat header fun x hx => h1 x (by simp only [List.mem_append]; exact Or.inl (Or.inr hx)), p3,
    boxes_flat x2 fun x hx => h1 x (by simp only [List.mem_append]; exact Or.inr hx), Or.inl p4⟩⟩

/-- A file with unknown boxes in all three places, and the same without. -/
example :
    let u := code 'u' 'u' 'i' 'd'
    let ih : Nat × List UInt8 := (code 'i' 'h' 'd' 'r', [0, 0, 0, 1, 0, 0, 0, 2, 0, 1, 7, 7, 0, 0])
    (∃ b, IsFile (be 4 (code 'j' 'p' '2' ' ') ++ be 4 0) [(u, [1])] [(u, []), ih, (u, [2, 3])] [(u, [4])] [9] b) ∧ Unknown u ∧
    ([(u, []), ih, (u, [2, 3])].filter fun x => x.1 ∈ headerTypes) = [ih] ∧
    ends .checked (St.file (exStart ++ box u [1] ++ box (code 'j' 'p' '2' 'h') (box u [] ++ exIhdr ++ box u [2, 3]) ++ box u [4] ++
      box (code 'j' 'p' '2' 'c') [9])) (fun j rest => (j.w, j.h, rest)) = .ok (2, 1, [9]) := by
  intro u ih
  refine ⟨⟨_, exStart_isFile _ _ _ _ ?_ (by decide) (by decide)⟩, ?_, ?_, ?_⟩
  · decide
  · unfold Unknown; decide
  · decide
  · decide +kernel

/-! ## C60: the encoder's file -/

/-- **C60.** The file the encoder makes of an image without a profile is the one Annex I asks for, when components
of one depth also have one sign, around any codestream of less than 4 GiB. -/
theorem C60_file_is_standard (im : Image) (h : Encodable im) (ha : Agree im.comps) (cs : List UInt8) (hcs : cs.length + 8 < 2 ^ 32) :
    (setup im >>= fun j => writeFile j cs) = .ok (stdFile im (defsFor im) cs) := write_eq h ha hcs

/-- **C60.** A standard file is read back: size, number of components, bit depths, colour space, channel
definitions, and the codestream. -/
theorem C60_file_read_back (m : Mode) (im : Image) (h : Encodable im) (defs : List Def) (hl : defs.length < 65536)
    (hd : ∀ d ∈ defs, d.cn < 65536 ∧ d.typ < 65536 ∧ d.asoc < 65536) (cs : List UInt8) (hcs : cs.length + 16 < 2 ^ 32) :
    ∃ j s, readFile m {} (St.file (stdFile im defs cs)) = .ok (j, s) ∧ s.rest = cs ∧
      (j.w = im.x1 - im.x0 ∧ j.h = im.y1 - im.y0) ∧ (j.ihdrW = im.x1 - im.x0 ∧ j.ihdrH = im.y1 - im.y0) ∧
      depths j = im.comps.map bits ∧ colorSpace j = (if im.colorSpace = 1 ∨ im.colorSpace = 2 ∨ im.colorSpace = 3 then im.colorSpace else -1) ∧
      j.cdef = (if defs = [] then none else some defs) ∧ j.pclr = none ∧ j.icc = none := by
  have e := file_read (m := m) (std_isFile h hl hcs) (fun _ h => nomatch h) (fun _ h => nomatch h)
  rw [std_outcome m h hl hd cs] at e
  cases hr : readFile m {} (St.file (stdFile im defs cs)) with
  | error f => rw [hr] at e; cases e
  | ok r =>
    rw [hr] at e
    injection e with e
    have hk : r.1.known = stdKnown im defs := congrArg Prod.fst e
    have hs : r.2.rest = cs := congrArg Prod.snd e
    refine ⟨r.1, r.2, rfl, hs, ⟨congrArg Codec.w hk, congrArg Codec.h hk⟩, ⟨congrArg Codec.ihdrW hk, congrArg Codec.ihdrH hk⟩, ?_, ?_,
      congrArg Codec.cdef hk, congrArg Codec.pclr hk, congrArg Codec.icc hk⟩
    · have e1 : depths r.1 = depths r.1.known := rfl
      rw [e1, hk]
      unfold depths stdKnown
      dsimp only
      by_cases hu : Uniform im.comps
      · have hp := h.prec
        have hc := h.comps
        obtain ⟨l, hl⟩ : ∃ l, l = im.comps := ⟨_, rfl⟩
        rw [← hl] at hp hc hu ⊢
        rw [if_pos hu, if_pos hu]
        match l with
        | [] => simp only [List.length_nil] at hc; omega
        | c0 :: l =>
          have hb := bits_lt (hp c0 (List.mem_cons_self ..))
          show (if bits c0 = 255 then _ else _) = _
          rw [if_neg (by omega), List.length_replicate]
          show List.replicate _ (bits c0) = _
          symm
          rw [List.eq_replicate_iff]
          refine ⟨List.length_map .., ?_⟩
          intro b hb
          obtain ⟨c, hm, rfl⟩ := List.mem_map.1 hb
          exact hu c hm c0 (List.mem_cons_self ..)
      · rw [if_neg hu, if_neg hu, if_pos rfl]
    · have e1 : colorSpace r.1 = colorSpace r.1.known := rfl
      rw [e1, hk]
      unfold colorSpace stdKnown enumerated
      dsimp only
      by_cases h1 : im.colorSpace = 1
      · rw [h1]; rfl
      · by_cases h2 : im.colorSpace = 2
        · rw [h2]; rfl
        · by_cases h3 : im.colorSpace = 3
          · rw [h3]; rfl
          · rw [if_neg h1, if_neg h2, if_neg h3, if_neg (c := im.colorSpace = 1 ∨ im.colorSpace = 2 ∨ im.colorSpace = 3) (by omega)]; rfl

/-- **C60.** What the encoder writes for an image, boxes and main header, is read back by the decoder: the boxes as in
`C60_file_read_back`, and the header as in C52. -/
theorem C60_whole_file (u : Hdr.User) (im : Image) (h : Encodable im) (ha : Agree im.comps) (e : Hdr.Enc) (junk rest : List UInt8)
    (hw : Hdr.Writable e) (hsh : Hdr.SharedStyle e) (hr : ∀ t ∈ e.tccps, u.reduce < t.numres)
    (hsz : e.x1 - e.x0 = im.x1 - im.x0 ∧ e.y1 - e.y0 = im.y1 - im.y0) :
    ∃ hdr, Hdr.writeHeader e junk = .ok hdr ∧ ∀ _ : (hdr ++ be 2 0xFF90 ++ rest).length + 16 < 2 ^ 32,
      ∃ file j d, (setup im >>= fun c => writeFile c (hdr ++ be 2 0xFF90 ++ rest)) = .ok file ∧
        readHeader u (St.file file) = .ok (j, d, rest) ∧ Hdr.SameHeader e d ∧ depths j = im.comps.map bits := by
  obtain ⟨hdr, d, h1, h2, h3⟩ := Hdr.C52_header_read_back { u with ihdrW := im.x1 - im.x0, ihdrH := im.y1 - im.y0 } e junk rest hw hsh
    ⟨hr, Or.inr (Or.inr (Or.inr ⟨hsz.1.symm, hsz.2.symm⟩))⟩
  refine ⟨hdr, h1, fun hl => ?_⟩
  have hc := h.comps
  have hdl := defsFor_len im
  obtain ⟨j, s, g1, g2, _, g4, g5, _⟩ := C60_file_read_back u.mode im h (defsFor im) (by omega) (defsFor_lt hc.2) _ hl
  refine ⟨_, j, d, write_eq h ha (by omega), ?_, h3, g5⟩
  unfold readHeader
  rw [g1, ok_bind]
  dsimp only
  rw [g4.1, g4.2, g2, h2]
  rfl

theorem exGrey_ok : Encodable exGrey ∧ Agree exGrey.comps ∧ Uniform exGrey.comps := by
  refine ⟨⟨by decide, by decide, by decide, by decide, rfl⟩, fun _ => by decide, by decide⟩

theorem exMixed_ok : Encodable exMixed ∧ Agree exMixed.comps ∧ ¬ Uniform exMixed.comps := by
  refine ⟨⟨by decide, by decide, by decide, by decide, rfl⟩, ?_, by decide⟩
  intro h
  exact absurd (h ⟨8, 0, 0⟩ (by decide) ⟨1, 0, 2⟩ (by decide)) (by decide)

example : defsFor exGrey = [⟨0, 0, 1⟩, ⟨1, 1, 0⟩] ∧
    defsFor exMixed = [⟨0, 0, 1⟩, ⟨1, 0, 2⟩, ⟨2, 0, 3⟩, ⟨3, 65535, 65535⟩, ⟨4, 1, 0⟩] ∧
    ends .checked (St.file (stdFile exMixed (defsFor exMixed) [9, 8])) (fun j rest => (depths j, colorSpace j, rest)) =
      .ok ([7, 137, 7, 0, 0], 1, [9, 8]) := by
  decide +kernel

/-- **C60**, the limit on signs: of two components of 8 bits, one signed, the file says that both are unsigned. -/
theorem C60_sign_lost :
    let im : Image := ⟨0, 0, 4, 4, 2, 0, [⟨8, 0, 0⟩, ⟨8, 1, 0⟩]⟩
    im.comps.map bits = [7, 135] ∧
    (do let j ← setup im; let f ← writeFile j [1]; ends .checked (St.file f) fun j _ => depths j) = .ok [7, 7] := by
  refine ⟨?_, ?_⟩ <;> decide +kernel

/-- **C60**, colour profiles: no image with a profile can be written; the encoder panics, since it never takes over
the length of the profile. -/
theorem C60_profile_never_written (im : Image) (hi : im.iccLen ≠ 0) (cs : List UInt8) :
    ∀ f, (setup im >>= fun j => writeFile j cs) ≠ .ok f := by
  intro f h
  obtain ⟨j, h1, h2⟩ := Hdr.bind_ok h
  have hj : j.meth = 2 ∧ j.iccLen = 0 := by
    unfold setup at h1
    obtain ⟨_, _, h1⟩ := Hdr.bind_ok h1
    split at h1
    · cases h1
    · cases h1
      exact ⟨if_pos hi, rfl⟩
  unfold writeFile at h2
  obtain ⟨_, _, h2⟩ := Hdr.bind_ok h2
  obtain ⟨b, h3, h2⟩ := Hdr.bind_ok h2
  unfold writeJp2h at h3
  obtain ⟨c, h4, h3⟩ := Hdr.bind_ok h3
  unfold writeColr at h4
  rw [hj.1, if_neg (by decide), if_pos (by decide), if_pos hj.2] at h4
  cases h4

theorem C60_profile_panics : (setup ⟨0, 0, 4, 4, 1, 128, [⟨8, 0, 0⟩]⟩ >>= fun j => writeFile j []) = .error .panic := by
  decide +kernel

/-- **C60**, colour spaces: e-YCC and CMYK are written as a colour space of number 0 and read back as unknown. -/
theorem C60_color_space_lost :
    (do let j ← setup { exGrey with colorSpace := 4 }; let f ← writeFile j [1]; ends .checked (St.file f) fun j _ => colorSpace j) = .ok (-1) ∧
    (do let j ← setup { exGrey with colorSpace := 5 }; let f ← writeFile j [1]; ends .checked (St.file f) fun j _ => colorSpace j) = .ok (-1) := by
  refine ⟨?_, ?_⟩ <;> decide +kernel

end Jp2.Box

import Verif.Jp2.BoxStd
/-!
# C63: the boxes of a JP2 header mean what Annex I of ITU-T T.800 says
-/
namespace Jp2.Box
open Hdr (Fail R refuseIf be be_len ok_bind refuse_bind)

/-! ## Which reader reads which box -/

theorem image_ihdr (m : Mode) (j : Codec) (b : List UInt8) : readImage m (code 'i' 'h' 'd' 'r') j b = readIhdr j b := by
  unfold readImage; rw [if_pos (by decide)]

theorem image_colr (m : Mode) (j : Codec) (b : List UInt8) : readImage m (code 'c' 'o' 'l' 'r') j b = readColr j b := by
  unfold readImage; rw [if_neg (by decide), if_pos (by decide)]

theorem image_bpcc (m : Mode) (j : Codec) (b : List UInt8) : readImage m (code 'b' 'p' 'c' 'c') j b = readBpcc j b := by
  unfold readImage; rw [if_neg (by decide), if_neg (by decide), if_pos (by decide)]

theorem image_pclr (m : Mode) (j : Codec) (b : List UInt8) : readImage m (code 'p' 'c' 'l' 'r') j b = readPclr m j b := by
  unfold readImage; rw [if_neg (by decide), if_neg (by decide), if_neg (by decide), if_pos (by decide)]

theorem image_cdef (m : Mode) (j : Codec) (b : List UInt8) : readImage m (code 'c' 'd' 'e' 'f') j b = readCdef j b := by
  unfold readImage; rw [if_neg (by decide), if_neg (by decide), if_neg (by decide), if_neg (by decide), if_pos (by decide)]

theorem image_cmap (m : Mode) (j : Codec) (b : List UInt8) : readImage m (code 'c' 'm' 'a' 'p') j b = readCmap j b := by
  unfold readImage
  rw [if_neg (by decide), if_neg (by decide), if_neg (by decide), if_neg (by decide), if_neg (by decide), if_pos (by decide)]

theorem content_image (m : Mode) (j : Codec) (b : List UInt8) {ty : Nat} (h : ty ∈ headerTypes) : readContent m ty j b = readImage m ty j b := by
  have h1 : ty ≠ tJP := fun e => absurd h (by rw [e]; decide)
  have h2 : ty ≠ tFTYP := fun e => absurd h (by rw [e]; decide)
  have h3 : ty ≠ tJP2H := fun e => absurd h (by rw [e]; decide)
  unfold readContent
  rw [if_neg h1, if_neg h2, if_neg h3]

/-- **C63.** A palette box is read as it is laid out: rows of values of as many bytes as their column's depth needs. -/
theorem C63_palette_read (m : Mode) (cs : List (Nat × Nat)) (rows : List (List Nat)) (h : PaletteFits cs rows)
    (hm : m = .wrapping ∨ cs.length ≤ 15) (j : Codec) (hj : j.pclr = none) :
    readContent m (code 'p' 'c' 'l' 'r') j (paletteBody cs rows) =
      .ok { j with pclr := some ⟨rows.length, cs.length, cs, rows.flatten, []⟩ } := by
  rw [content_image _ _ _ (by decide), image_pclr]
  exact readPclr_be h hm hj

/-- Such a palette: two rows and three columns of 8, 12 and 32 bits, the second of them signed. -/
example : PaletteFits [(8, 0), (12, 1), (32, 0)] [[255, 4095, 1], [0, 7, 4294967295]] :=
  ⟨by decide, by decide, by decide, by decide, by decide⟩

/-- **C63, false of the code.** Columns of more than 32 bits, which the standard allows (up to 38), are read with four
bytes a value: the one value 7 of a 33-bit column is read as 0. -/
theorem C63_deep_palette_wrong :
    (readContent .checked (code 'p' 'c' 'l' 'r') {} (paletteBody [(33, 0)] [[7]])).map Codec.pclr = .ok (some ⟨1, 1, [(33, 0)], [0], []⟩) := by
  decide +kernel

/-- **C63.** A component mapping box is read as it is laid out. -/
theorem C63_mapping_read (m : Mode) (ms : List Map) (h : ∀ x ∈ ms, x.cmp < 65536 ∧ x.mtyp < 256 ∧ x.pcol < 256) (j : Codec) (pc : Pclr)
    (hj : j.pclr = some pc) (hc : pc.cmap = []) (hl : ms.length = pc.nrChannels) :
    readContent m (code 'c' 'm' 'a' 'p') j (mappingBody ms) = .ok { j with pclr := some { pc with cmap := ms } } := by
  rw [content_image _ _ _ (by decide), image_cmap]
  exact readCmap_be h hj hc hl

/-- **C63.** A channel definition box is read as it is laid out. -/
theorem C63_definitions_read (m : Mode) (ds : List Def) (h : ∀ x ∈ ds, x.cn < 65536 ∧ x.typ < 65536 ∧ x.asoc < 65536)
    (hl : 1 ≤ ds.length ∧ ds.length < 65536) (j : Codec) (hj : j.cdef = none) :
    readContent m (code 'c' 'd' 'e' 'f') j (defsBody ds) = .ok { j with cdef := some ds } := by
  rw [content_image _ _ _ (by decide), image_cdef]
  exact readCdef_be h hl hj

/-- **C63.** The first colour specification is taken. -/
theorem C63_color_read (m : Mode) (prec approx : Nat) (hb : prec < 256 ∧ approx < 256) (c : Color) (hc : c.Fits) (j : Codec)
    (hj : j.hasColr = false) : readContent m (code 'c' 'o' 'l' 'r') j (c.body prec approx) = .ok (c.put prec approx j) := by
  rw [content_image _ _ _ (by decide), image_colr]
  exact readColr_be hb hc hj

/-- **C63, false of the code.** CIELab without parameters, which stands for default ones, is kept as 8 numbers instead
of 9, so that the illuminant is in the place of the last offset and nothing in its own. -/
theorem C63_lab_default_short :
    (readContent .checked (code 'c' 'o' 'l' 'r') {} (be 1 1 ++ be 1 0 ++ be 1 0 ++ be 4 14)).map (fun j => j.icc.map List.length) = .ok (some 32) ∧
    (readContent .checked (code 'c' 'o' 'l' 'r') {} ((Color.lab [100, 0, 170, 85, 200, 75, 0x443530]).body 0 0)).map
      (fun j => j.icc.map List.length) = .ok (some 36) := by
  refine ⟨?_, ?_⟩ <;> decide +kernel

/-- **C63.** Later colour specifications change nothing. -/
theorem C63_later_color_ignored (m : Mode) (j : Codec) (hj : j.hasColr = true) (body : List UInt8) (hl : 3 ≤ body.length) :
    readContent m (code 'c' 'o' 'l' 'r') j body = .ok j := by
  rw [content_image _ _ _ (by decide), image_colr]
  unfold readColr
  rw [refuse_bind (by omega), if_pos hj]
  rfl

example : (Color.space 16).Fits ∧ (Color.lab [100, 0, 170, 85, 200, 75, 0]).Fits ∧ (Color.profile [1, 2, 3]).Fits := by
  refine ⟨?_, ?_, ?_⟩ <;> simp [Color.Fits]

/-- The boxes of a header, in turn. -/
theorem subBoxes_desc {m : Mode} {d : Desc} (h : d.Fits) (hm : m = .wrapping ∨ ∀ cs rows ms, d.palette = some (cs, rows, ms) → cs.length ≤ 15)
    {j : Codec} (hj : j.comps = [] ∧ j.hasColr = false ∧ j.pclr = none ∧ j.cdef = none) :
    subBoxes m d.boxes j = .ok (d.known j) := by
  have step : ∀ (ty : Nat) (body : List UInt8) (l : List (Nat × List UInt8)) (j j' : Codec), isImage ty = true →
      readImage m ty j body = .ok j' → subBoxes m ((ty, body) :: l) j = subBoxes m l j' := by
    intro ty body l j j' hi hr
    conv_lhs => unfold subBoxes
    unfold subBox
    dsimp only
    rw [if_pos hi, hr, ok_bind]
  obtain ⟨hb1, hb2, hb3, hb4, hb5⟩ := h.bytes
  unfold Desc.boxes
  rw [List.append_assoc, List.append_assoc, List.append_assoc, List.singleton_append]
  obtain ⟨j1, hj1⟩ : ∃ j1 : Codec, j1 = { j with h := d.h, w := d.w, comps := List.replicate d.n 0, bpc := d.bpc, c := 7, unkC := d.unkC, ipr := d.ipr, ihdrW := d.w, ihdrH := d.h, hasIhdr := true } := ⟨_, rfl⟩
  rw [step _ _ _ j j1 (by decide) (by rw [hj1, image_ihdr]; exact readIhdr_be h.h h.w h.n ⟨hb1, by decide, hb2, hb3⟩ hj.1)]
  obtain ⟨j2, hj2⟩ : ∃ j2 : Codec, j2 = { j1 with comps := d.depths.getD (List.replicate d.n 0) } := ⟨_, rfl⟩
  have e2 : ∀ l, subBoxes m ((d.depths.toList.map fun ds => (code 'b' 'p' 'c' 'c', ds.flatMap (be 1))) ++ l) j1 = subBoxes m l j2 := by
    intro l
    cases hd : d.depths with
    | none =>
      rw [hd] at hj2
      have : j2 = j1 := by rw [hj2, hj1]; rfl
      rw [this]; rfl
    | some ds =>
      rw [hd] at hj2
      obtain ⟨g1, g2⟩ := h.depths ds hd
      show subBoxes m ((code 'b' 'p' 'c' 'c', ds.flatMap (be 1)) :: l) j1 = _
      refine step _ _ _ j1 j2 (by decide) ?_
      rw [hj2, image_bpcc]
      refine readBpcc_be g2 ?_
      rw [hj1]
      show ds.length = (List.replicate d.n 0).length
      rw [List.length_replicate, g1]
  rw [e2, List.singleton_append]
  obtain ⟨j3, hj3⟩ : ∃ j3 : Codec, j3 = d.color.put d.prec d.approx j2 := ⟨_, rfl⟩
  rw [step _ _ _ j2 j3 (by decide) (by
    rw [hj3, image_colr]
    refine readColr_be ⟨hb4, hb5⟩ h.color ?_
    rw [hj2, hj1]; exact hj.2.1)]
  have hp3 : j3.pclr = none ∧ j3.cdef = none := by
    rw [hj3, hj2, hj1]
    cases d.color <;> exact ⟨hj.2.2.1, hj.2.2.2⟩
  obtain ⟨j4, hj4⟩ : ∃ j4 : Codec, j4 = { j3 with pclr := d.palette.map fun p => ⟨p.2.1.length, p.1.length, p.1, p.2.1.flatten, p.2.2⟩ } := ⟨_, rfl⟩
  have e4 : ∀ l, subBoxes m ((d.palette.toList.flatMap fun p =>
      [(code 'p' 'c' 'l' 'r', paletteBody p.1 p.2.1), (code 'c' 'm' 'a' 'p', mappingBody p.2.2)]) ++ l) j3 = subBoxes m l j4 := by
    intro l
    cases hd : d.palette with
    | none =>
      rw [hd] at hj4
      have : j4 = j3 := by
        rw [hj4]
        have := hp3.1
        cases j3
        simp only at this
        rw [this]; rfl
      rw [this]; rfl
    | some p =>
      obtain ⟨cs, rows, ms⟩ := p
      rw [hd] at hj4
      obtain ⟨g1, g2, g3⟩ := h.palette cs rows ms hd
      show subBoxes m ((code 'p' 'c' 'l' 'r', paletteBody cs rows) :: (code 'c' 'm' 'a' 'p', mappingBody ms) :: l) j3 = _
      have hm' : m = .wrapping ∨ cs.length ≤ 15 := hm.imp id (fun f => f cs rows ms hd)
      rw [step _ _ _ j3 _ (by decide) ((image_pclr ..).trans (readPclr_be g1 hm' hp3.1))]
      refine step _ _ _ _ j4 (by decide) ?_
      rw [hj4, image_cmap]
      exact readCmap_be g3 (j := { j3 with pclr := some ⟨rows.length, cs.length, cs, rows.flatten, []⟩ }) rfl rfl g2
  rw [e4]
  have hc4 : j4.cdef = none := by rw [hj4]; exact hp3.2
  have e5 : subBoxes m (d.defs.toList.map fun ds => (code 'c' 'd' 'e' 'f', defsBody ds)) j4 = .ok { j4 with cdef := d.defs } := by
    cases hd : d.defs with
    | none =>
      show Except.ok j4 = _
      congr 1
      cases j4
      simp only at hc4
      rw [hc4]
    | some ds =>
      obtain ⟨g1, g2⟩ := h.defs ds hd
      show subBoxes m [(code 'c' 'd' 'e' 'f', defsBody ds)] j4 = _
      exact step _ _ _ _ _ (by decide) ((image_cdef ..).trans (readCdef_be g2 g1 hc4))
  rw [e5, hj4, hj3, hj2, hj1]
  unfold Desc.known
  cases d.color <;> rfl

theorem readCl_be : ∀ (l : List Nat), (∀ v ∈ l, v < 2 ^ 32) → readCl l.length (l.flatMap (be 4)) = .ok l
  | [], _ => rfl
  | v :: l, h => by
    rw [List.length_cons, List.flatMap_cons]
    unfold readCl
    rw [rd_be _ (by have := h v (List.mem_cons_self ..); omega), ok_bind]
    dsimp only
    rw [readCl_be l fun c hc => h c (List.mem_cons_of_mem _ hc)]
    rfl

theorem readFtyp_be {br mv : Nat} {cl : List Nat} (hb : br < 2 ^ 32 ∧ mv < 2 ^ 32) (hc : ∀ v ∈ cl, v < 2 ^ 32) :
    readFtyp { state := 1 } (be 4 br ++ be 4 mv ++ cl.flatMap (be 4)) = .ok { brand := br, minversion := mv, cl := cl, state := 3 } := by
  unfold readFtyp
  have hl : (cl.flatMap (be 4)).length = cl.length * 4 := flat_len _ 4 _ (fun d => be_len ..)
  rw [refuse_bind (by decide), refuse_bind (by simp only [List.length_append, be_len]; omega), List.append_assoc, rd_be _ (by omega), ok_bind]
  dsimp only
  rw [rd_be _ (by omega), ok_bind]
  dsimp only
  rw [refuse_bind (by rw [hl]; omega), hl, Nat.mul_div_cancel _ (by decide), readCl_be cl hc, ok_bind]
  rfl

/-- **C63.** A whole file: signature, file type and a header whose boxes, unknown ones left out, are those of `d`, with
unknown boxes in front of the header and the codestream. The reader knows exactly what the boxes say, and goes on
at the codestream. -/
theorem C63_file_read (m : Mode) (br mv : Nat) (cl : List Nat) (hb : br < 2 ^ 32 ∧ mv < 2 ^ 32) (hcl : ∀ v ∈ cl, v < 2 ^ 32)
    (d : Desc) (hd : d.Fits) (hm : m = .wrapping ∨ ∀ cs rows ms, d.palette = some (cs, rows, ms) → cs.length ≤ 15)
    (header x1 x2 : List (Nat × List UInt8)) (hh : header.filter (fun x => decide (x.1 ∈ headerTypes)) = d.boxes)
    (h1 : ∀ x ∈ x1, Unknown x.1) (h2 : ∀ x ∈ x2, Unknown x.1) (cs bytes : List UInt8)
    (hf : IsFile (be 4 br ++ be 4 mv ++ cl.flatMap (be 4)) x1 header x2 cs bytes) :
    (readFile m {} (St.file bytes)).map (fun r => (r.1.known, r.2.rest)) =
      .ok (d.known { brand := br, minversion := mv, cl := cl, hasJp2h := true }, cs) := by
  rw [file_read hf h1 h2, ← outcome_filter]
  have e : (fun x : Nat × List UInt8 => isImage x.1) = fun x => decide (x.1 ∈ headerTypes) := by
    funext x
    unfold isImage headerTypes
    simp only [List.mem_cons, List.not_mem_nil, or_false]
    rw [Bool.eq_iff_iff]
    simp only [Bool.or_eq_true, beq_iff_eq, decide_eq_true_eq]
    have a1 : code 'i' 'h' 'd' 'r' = tIHDR := by decide
    have a2 : code 'b' 'p' 'c' 'c' = tBPCC := by decide
    have a3 : code 'c' 'o' 'l' 'r' = tCOLR := by decide
    have a4 : code 'p' 'c' 'l' 'r' = tPCLR := by decide
    have a5 : code 'c' 'm' 'a' 'p' = tCMAP := by decide
    have a6 : code 'c' 'd' 'e' 'f' = tCDEF := by decide
    rw [a1, a2, a3, a4, a5, a6]
    tauto
  rw [e, hh]
  unfold outcome
  rw [readFtyp_be hb hcl, ok_bind, subBoxes_desc hd hm ⟨rfl, rfl, rfl, rfl⟩]
  have hk : (d.known { brand := br, minversion := mv, cl := cl, state := 3, imgState := 0 }).known =
      d.known { brand := br, minversion := mv, cl := cl } := by
    unfold Desc.known Codec.known
    cases d.color <;> rfl
  rw [map_ok', ok_bind, hk]
  have hi : (d.boxes.any fun x => x.1 == tIHDR) = true := by
    unfold Desc.boxes
    rw [List.append_assoc, List.append_assoc, List.append_assoc, List.singleton_append, List.any_cons]
    have : (code 'i' 'h' 'd' 'r' == tIHDR) = true := by decide
    rw [this]; rfl
  rw [hi, refuse_bind (by decide), refuse_bind (by unfold Desc.known; exact fun h => Bool.noConfusion h)]
  unfold Desc.known
  cases d.color <;> rfl

/-- A header with every kind of box: two components of their own depths, one of them turned into three palette
channels and a last one used directly. -/
def exDesc : Desc where
  h := 3
  w := 5
  n := 2
  bpc := 255
  unkC := 0
  ipr := 0
  depths := some [0, 135]
  prec := 0
  approx := 0
  color := .space 16
  palette := some ([(8, 0), (8, 0), (16, 0), (8, 1)], [[1, 2, 300, 4], [5, 6, 700, 8]], [⟨0, 1, 0⟩, ⟨0, 1, 1⟩, ⟨0, 1, 2⟩, ⟨1, 0, 0⟩])
  defs := some [⟨0, 0, 1⟩, ⟨1, 0, 2⟩, ⟨2, 0, 3⟩, ⟨3, 1, 0⟩]

example : exDesc.Fits ∧ (∀ cs rows ms, exDesc.palette = some (cs, rows, ms) → cs.length ≤ 15) := by
  refine ⟨⟨by decide, by decide, by decide, by decide, ?_, by simp [exDesc, Color.Fits], ?_, ?_⟩, ?_⟩
  · intro ds h
    injection h with h
    subst h
    decide
  · intro cs rows ms h
    injection h with h
    injection h with h1 h
    injection h with h2 h3
    subst h1 h2 h3
    exact ⟨⟨by decide, by decide, by decide, by decide, by decide⟩, by decide, by decide⟩
  · intro ds h
    injection h with h
    subst h
    decide
  · intro cs rows ms h
    injection h with h
    injection h with h1 h
    subst h1
    decide

end Jp2.Box

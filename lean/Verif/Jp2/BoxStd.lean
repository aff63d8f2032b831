import Verif.Jp2.BoxWrite
/-!
# What the boxes of a JP2 header mean (Annex I.5.3 of ITU-T T.800): specification
-/
namespace Jp2.Box
open Hdr (Fail R refuseIf be be_len ok_bind refuse_bind)

/-- Bytes a palette value of `bits` bits takes (I.5.3.4): as many as hold it. -/
def valueBytes (bits : Nat) : Nat := (bits + 7) / 8

/-- One row of palette values. -/
def rowBody (columns : List (Nat × Nat)) (row : List Nat) : List UInt8 :=
  (List.zipWith (fun c v => be (valueBytes c.1) v) columns row).flatten

/-- Contents of the palette box (I.5.3.4): numbers of rows and columns, depth less one and sign of each column, rows. -/
def paletteBody (columns : List (Nat × Nat)) (rows : List (List Nat)) : List UInt8 :=
  be 2 rows.length ++ be 1 columns.length ++ columns.flatMap (fun c => be 1 (c.1 - 1 + 128 * c.2)) ++ rows.flatMap (rowBody columns)

/-- A palette in range: up to 1024 rows and 255 columns, depths up to 32 bits, values that fit. -/
structure PaletteFits (columns : List (Nat × Nat)) (rows : List (List Nat)) : Prop where
  nrows : 1 ≤ rows.length ∧ rows.length ≤ 1024
  ncolumns : 1 ≤ columns.length ∧ columns.length ≤ 255
  depth : ∀ c ∈ columns, (1 ≤ c.1 ∧ c.1 ≤ 32) ∧ c.2 ≤ 1
  len : ∀ r ∈ rows, r.length = columns.length
  value : ∀ r ∈ rows, ∀ x ∈ columns.zip r, x.2 < 2 ^ x.1.1

/-- Contents of the component mapping box (I.5.3.5). -/
def mappingBody (ms : List Map) : List UInt8 := ms.flatMap fun m => be 2 m.cmp ++ be 1 m.mtyp ++ be 1 m.pcol

/-- Contents of the channel definition box (I.5.3.6). -/
def defsBody (ds : List Def) : List UInt8 := be 2 ds.length ++ ds.flatMap fun d => be 2 d.cn ++ be 2 d.typ ++ be 2 d.asoc

/-- The first colour specification (I.5.3.3): an enumerated space other than CIELab, CIELab with its seven
parameters, or a restricted profile. -/
inductive Color where
  | space (e : Nat)
  | lab (ps : List Nat)
  | profile (bytes : List UInt8)

/-- Contents of the colour specification box: method, precedence, approximation, then the method's data. -/
def Color.body (prec approx : Nat) : Color → List UInt8
  | .space e => be 1 1 ++ be 1 prec ++ be 1 approx ++ be 4 e
  | .lab ps => be 1 1 ++ be 1 prec ++ be 1 approx ++ be 4 14 ++ ps.flatMap (be 4)
  | .profile bytes => be 1 2 ++ be 1 prec ++ be 1 approx ++ bytes

def Color.Fits : Color → Prop
  | .space e => e < 2 ^ 32 ∧ e ≠ 14
  | .lab ps => ps.length = 7 ∧ ∀ p ∈ ps, p < 2 ^ 32
  | .profile bytes => bytes.length < 2 ^ 32

/-- What the codec knows of the colour: CIELab parameters are kept in place of a profile, with 14, 0 in front, as
little-endian numbers, and length 0. -/
def Color.put (prec approx : Nat) (j : Codec) : Color → Codec
  | .space e => { j with meth := 1, precedence := prec, approx := approx, enumcs := e, hasColr := true }
  | .lab ps => { j with meth := 1, precedence := prec, approx := approx, enumcs := 14, hasColr := true, iccLen := 0
                        icc := some (([14, 0] ++ ps).flatMap fun v => (be 4 v).reverse) }
  | .profile bytes => { j with meth := 2, precedence := prec, approx := approx, hasColr := true, icc := some bytes, iccLen := bytes.length }

/-- A JP2 header: size, number of components, their depths in one byte or each in its own, colour, and optionally
palette with mapping, and channel definitions. -/
structure Desc where
  h : Nat
  w : Nat
  n : Nat
  bpc : Nat
  unkC : Nat
  ipr : Nat
  depths : Option (List Nat)
  prec : Nat
  approx : Nat
  color : Color
  palette : Option (List (Nat × Nat) × List (List Nat) × List Map)
  defs : Option (List Def)

/-- The boxes of a header, by type and contents. -/
def Desc.boxes (d : Desc) : List (Nat × List UInt8) :=
  [(code 'i' 'h' 'd' 'r', be 4 d.h ++ be 4 d.w ++ be 2 d.n ++ be 1 d.bpc ++ be 1 7 ++ be 1 d.unkC ++ be 1 d.ipr)] ++
  (d.depths.toList.map fun ds => (code 'b' 'p' 'c' 'c', ds.flatMap (be 1))) ++
  [(code 'c' 'o' 'l' 'r', d.color.body d.prec d.approx)] ++
  (d.palette.toList.flatMap fun p =>
    [(code 'p' 'c' 'l' 'r', paletteBody p.1 p.2.1), (code 'c' 'm' 'a' 'p', mappingBody p.2.2)]) ++
  (d.defs.toList.map fun ds => (code 'c' 'd' 'e' 'f', defsBody ds))

/-- A header in range. -/
structure Desc.Fits (d : Desc) : Prop where
  h : 1 ≤ d.h ∧ d.h < 2 ^ 32
  w : 1 ≤ d.w ∧ d.w < 2 ^ 32
  n : 1 ≤ d.n ∧ d.n ≤ 16384
  bytes : d.bpc < 256 ∧ d.unkC < 256 ∧ d.ipr < 256 ∧ d.prec < 256 ∧ d.approx < 256
  depths : ∀ ds, d.depths = some ds → ds.length = d.n ∧ ∀ b ∈ ds, b < 256
  color : d.color.Fits
  palette : ∀ cs rows ms, d.palette = some (cs, rows, ms) → PaletteFits cs rows ∧ ms.length = cs.length ∧
    ∀ m ∈ ms, m.cmp < 65536 ∧ m.mtyp < 256 ∧ m.pcol < 256
  defs : ∀ ds, d.defs = some ds → (1 ≤ ds.length ∧ ds.length < 65536) ∧ ∀ x ∈ ds, x.cn < 65536 ∧ x.typ < 65536 ∧ x.asoc < 65536

/-- What a reader has to know from such a header. -/
def Desc.known (d : Desc) (j : Codec) : Codec :=
  { d.color.put d.prec d.approx j with
    h := d.h, w := d.w, ihdrH := d.h, ihdrW := d.w, hasIhdr := true, bpc := d.bpc, c := 7, unkC := d.unkC, ipr := d.ipr
    comps := d.depths.getD (List.replicate d.n 0)
    pclr := d.palette.map fun p => ⟨p.2.1.length, p.1.length, p.1, p.2.1.flatten, p.2.2⟩
    cdef := d.defs }

/-! ## Proofs -/

theorem readBytes_be : ∀ (l : List Nat), (∀ b ∈ l, b < 256) → readBytes l.length (l.flatMap (be 1)) = .ok l
  | [], _ => rfl
  | b :: l, h => by
    rw [List.length_cons, List.flatMap_cons]
    unfold readBytes
    rw [rd_be _ (by have := h b (List.mem_cons_self ..); omega), ok_bind]
    dsimp only
    rw [readBytes_be l fun c hc => h c (List.mem_cons_of_mem _ hc)]
    rfl

theorem readMaps_be : ∀ (l : List Map), (∀ m ∈ l, m.cmp < 65536 ∧ m.mtyp < 256 ∧ m.pcol < 256) →
    readMaps l.length (mappingBody l) = .ok l
  | [], _ => rfl
  | m :: l, h => by
    have hd := h m (List.mem_cons_self ..)
    unfold mappingBody
    rw [List.length_cons, List.flatMap_cons]
    unfold readMaps
    rw [List.append_assoc, List.append_assoc, rd_be _ (by omega), ok_bind]
    dsimp only
    rw [rd_be _ (by omega), ok_bind]
    dsimp only
    rw [rd_be _ (by omega), ok_bind]
    dsimp only
    have := readMaps_be l fun c hc => h c (List.mem_cons_of_mem _ hc)
    unfold mappingBody at this
    rw [this]
    rfl

theorem readChannels_be : ∀ (l : List (Nat × Nat)) (q : List UInt8), (∀ c ∈ l, (1 ≤ c.1 ∧ c.1 ≤ 32) ∧ c.2 ≤ 1) →
    readChannels l.length (l.flatMap (fun c => be 1 (c.1 - 1 + 128 * c.2)) ++ q) = .ok (l, q)
  | [], _, _ => rfl
  | c :: l, q, h => by
    have hd := h c (List.mem_cons_self ..)
    rw [List.length_cons, List.flatMap_cons, List.append_assoc]
    unfold readChannels
    rw [rd_be _ (by omega), ok_bind]
    dsimp only
    rw [readChannels_be l q fun c hc => h c (List.mem_cons_of_mem _ hc), ok_bind]
    dsimp only
    have e1 : (c.1 - 1 + 128 * c.2) % 128 + 1 = c.1 := by omega
    have e2 : (c.1 - 1 + 128 * c.2) / 128 = c.2 := by omega
    rw [e1, e2]
    rfl

theorem entryBytes_eq {n : Nat} (h : n ≤ 32) : entryBytes n = valueBytes n := by
  unfold entryBytes valueBytes; omega

theorem value_lt {n v : Nat} (h : v < 2 ^ n) : v < 256 ^ valueBytes n := by
  refine lt_of_lt_of_le h ?_
  have : 256 = 2 ^ 8 := by norm_num
  rw [this, ← pow_mul]
  apply Nat.pow_le_pow_right (by norm_num)
  unfold valueBytes
  omega

theorem readRow_be : ∀ (cs : List (Nat × Nat)) (r : List Nat) (q : List UInt8), (∀ c ∈ cs, c.1 ≤ 32) → r.length = cs.length →
    (∀ x ∈ cs.zip r, x.2 < 2 ^ x.1.1) → readRow cs (rowBody cs r ++ q) = .ok (r, q)
  | [], [], _, _, _, _ => rfl
  | [], v :: r, _, _, hl, _ => by cases hl
  | c :: cs, [], _, _, hl, _ => by cases hl
  | c :: cs, v :: r, q, hc, hl, hv => by
    have hc0 := hc c (List.mem_cons_self ..)
    have hv0 : v < 2 ^ c.1 := hv (c, v) (by rw [List.zip_cons_cons]; exact List.mem_cons_self ..)
    unfold rowBody
    rw [List.zipWith_cons_cons, List.flatten_cons, List.append_assoc]
    unfold readRow
    rw [entryBytes_eq hc0, refuse_bind (by rw [List.length_append, be_len]; omega), rd_be _ (value_lt hv0), ok_bind]
    dsimp only
    have := readRow_be cs r q (fun d hd => hc d (List.mem_cons_of_mem _ hd)) (by simpa using hl)
      (fun x hx => hv x (by rw [List.zip_cons_cons]; exact List.mem_cons_of_mem _ hx))
    unfold rowBody at this
    rw [this]
    rfl

theorem readRows_be (cs : List (Nat × Nat)) (hc : ∀ c ∈ cs, c.1 ≤ 32) : ∀ (rows : List (List Nat)),
    (∀ r ∈ rows, r.length = cs.length) → (∀ r ∈ rows, ∀ x ∈ cs.zip r, x.2 < 2 ^ x.1.1) →
    readRows cs rows.length (rows.flatMap (rowBody cs)) = .ok rows.flatten
  | [], _, _ => rfl
  | r :: rows, hl, hv => by
    rw [List.length_cons, List.flatMap_cons]
    unfold readRows
    rw [readRow_be cs r _ hc (hl r (List.mem_cons_self ..)) (hv r (List.mem_cons_self ..)), ok_bind]
    dsimp only
    rw [readRows_be cs hc rows (fun x hx => hl x (List.mem_cons_of_mem _ hx)) (fun x hx => hv x (List.mem_cons_of_mem _ hx))]
    rfl

theorem squareU8_ok {m : Mode} {k : Nat} (h : m = .wrapping ∨ k ≤ 15) : squareU8 m k = .ok () := by
  unfold squareU8
  rw [if_neg]
  rintro ⟨h1, h2⟩
  rcases h with h | h
  · rw [h] at h1; cases h1
  · have : k * k ≤ 15 * 15 := Nat.mul_le_mul h h
    omega

theorem readPclr_be {m : Mode} {cs : List (Nat × Nat)} {rows : List (List Nat)} (h : PaletteFits cs rows)
    (hm : m = .wrapping ∨ cs.length ≤ 15) {j : Codec} (hj : j.pclr = none) :
    readPclr m j (paletteBody cs rows) = .ok { j with pclr := some ⟨rows.length, cs.length, cs, rows.flatten, []⟩ } := by
  have hr := h.nrows
  have hc := h.ncolumns
  have hd := h.depth
  unfold readPclr paletteBody
  rw [refuse_bind (by rw [hj]; decide), refuse_bind (by simp only [List.length_append, be_len]; omega)]
  rw [List.append_assoc, List.append_assoc, rd_be _ (by omega), ok_bind]
  dsimp only
  rw [refuse_bind (by omega), rd_be _ (by omega), ok_bind]
  dsimp only
  rw [refuse_bind (by omega), refuse_bind (by
    rw [List.length_append, flat_len _ 1 _ (fun d => be_len ..)]; omega), squareU8_ok hm, ok_bind, readChannels_be cs _ hd, ok_bind]
  dsimp only
  rw [readRows_be cs (fun c hc => (hd c hc).1.2) rows h.len h.value, ok_bind]
  rfl

theorem readCmap_be {ms : List Map} (h : ∀ m ∈ ms, m.cmp < 65536 ∧ m.mtyp < 256 ∧ m.pcol < 256) {j : Codec} {pc : Pclr}
    (hj : j.pclr = some pc) (hc : pc.cmap = []) (hl : ms.length = pc.nrChannels) :
    readCmap j (mappingBody ms) = .ok { j with pclr := some { pc with cmap := ms } } := by
  rw [readCmap_some hj, refuse_bind (by rw [hc]; exact fun h => h rfl), refuse_bind (by
    unfold mappingBody
    rw [flat_len _ 4 _ (fun d => by simp only [List.length_append, be_len])]; omega), ← hl, readMaps_be ms h, ok_bind]
  rfl

theorem readCdef_be {ds : List Def} (h : ∀ x ∈ ds, x.cn < 65536 ∧ x.typ < 65536 ∧ x.asoc < 65536) (hl : 1 ≤ ds.length ∧ ds.length < 65536)
    {j : Codec} (hj : j.cdef = none) : readCdef j (defsBody ds) = .ok { j with cdef := some ds } := by
  unfold readCdef defsBody
  rw [refuse_bind (by rw [hj]; decide), refuse_bind (by simp only [List.length_append, be_len]; omega), rd_be _ (by omega), ok_bind]
  dsimp only
  rw [refuse_bind (by omega), refuse_bind (by
    rw [flat_len _ 6 _ (fun d => by simp only [List.length_append, be_len])]; omega), readDefs_flat ds h, ok_bind]
  rfl

theorem readBpcc_be {ds : List Nat} (h : ∀ b ∈ ds, b < 256) {j : Codec} (hl : ds.length = j.comps.length) :
    readBpcc j (ds.flatMap (be 1)) = .ok { j with comps := ds } := by
  unfold readBpcc
  rw [refuse_bind (by rw [flat_len _ 1 _ (fun d => be_len ..)]; omega), ← hl, readBytes_be ds h, ok_bind]
  rfl

theorem readIhdr_be {h w n bpc c unkC ipr : Nat} (hh : 1 ≤ h ∧ h < 2 ^ 32) (hw : 1 ≤ w ∧ w < 2 ^ 32) (hn : 1 ≤ n ∧ n ≤ 16384)
    (hb : bpc < 256 ∧ c < 256 ∧ unkC < 256 ∧ ipr < 256) {j : Codec} (hj : j.comps = []) :
    readIhdr j (be 4 h ++ be 4 w ++ be 2 n ++ be 1 bpc ++ be 1 c ++ be 1 unkC ++ be 1 ipr) =
    .ok { j with h := h, w := w, comps := List.replicate n 0, bpc := bpc, c := c, unkC := unkC, ipr := ipr,
                 ihdrW := w, ihdrH := h, hasIhdr := true } := by
  unfold readIhdr
  rw [if_neg (by rw [hj]; exact fun h => h rfl), refuse_bind (by simp only [List.length_append, be_len]; omega)]
  simp only [List.append_assoc]
  rw [rd_be _ (by omega), ok_bind]
  dsimp only
  rw [rd_be _ (by omega), ok_bind]
  dsimp only
  rw [rd_be _ (by omega), ok_bind]
  dsimp only
  rw [refuse_bind (by omega), refuse_bind (by omega), rd_be _ (by omega), ok_bind]
  dsimp only
  rw [rd_be _ (by omega), ok_bind]
  dsimp only
  rw [rd_be _ (by omega), ok_bind]
  dsimp only
  have := rd_be (nb := 1) (v := ipr) [] (by omega)
  rw [List.append_nil] at this
  rw [this, ok_bind]
  rfl

theorem cielab_be {ps : List Nat} (h : ps.length = 7) (hp : ∀ p ∈ ps, p < 2 ^ 32) :
    cielab (ps.flatMap (be 4)) = .ok (([14, 0] ++ ps).flatMap fun v => (be 4 v).reverse) := by
  match ps, h with
  | [a, b, c, d, e, f, g], _ =>
    have ha := hp a (by simp)
    have hb := hp b (by simp)
    have hc := hp c (by simp)
    have hd := hp d (by simp)
    have he := hp e (by simp)
    have hf := hp f (by simp)
    have hg := hp g (by simp)
    unfold cielab
    rw [if_pos (by rw [flat_len _ 4 _ (fun d => be_len ..)]; rfl)]
    simp only [List.flatMap_cons, List.flatMap_nil]
    rw [rd_be _ (by omega), ok_bind]
    dsimp only
    rw [rd_be _ (by omega), ok_bind]
    dsimp only
    rw [rd_be _ (by omega), ok_bind]
    dsimp only
    rw [rd_be _ (by omega), ok_bind]
    dsimp only
    rw [rd_be _ (by omega), ok_bind]
    dsimp only
    rw [rd_be _ (by omega), ok_bind]
    dsimp only
    rw [rd_be _ (by omega), ok_bind]
    simp only [List.cons_append, List.nil_append, List.flatMap_cons, List.flatMap_nil, List.append_assoc, List.append_nil]
    rfl

theorem readColr_be {prec approx : Nat} (hb : prec < 256 ∧ approx < 256) {c : Color} (hc : c.Fits) {j : Codec} (hj : j.hasColr = false) :
    readColr j (c.body prec approx) = .ok (c.put prec approx j) := by
  have key : ∀ (meth : Nat) (rest : List UInt8), meth < 256 → readColr j (be 1 meth ++ be 1 prec ++ be 1 approx ++ rest) =
      (if meth = 1 then readEnum { j with meth := meth, precedence := prec, approx := approx } rest
      else if meth = 2 then .ok { j with meth := meth, precedence := prec, approx := approx, iccLen := rest.length % 2 ^ 32, icc := some rest, hasColr := true }
      else .ok { j with meth := meth, precedence := prec, approx := approx }) := by
    intro meth rest hm
    unfold readColr
    rw [refuse_bind (by simp only [List.length_append, be_len]; omega), hj]
    simp only [List.append_assoc]
    rw [if_neg (by decide), rd_be _ (by omega), ok_bind]
    dsimp only
    rw [rd_be _ (by omega), ok_bind]
    dsimp only
    rw [rd_be _ (by omega), ok_bind]
    rfl
  cases c with
  | space e =>
    have h1 : e < 2 ^ 32 := hc.1
    have h2 : e ≠ 14 := hc.2
    unfold Color.body
    dsimp only
    rw [key 1 (be 4 e) (by decide), if_pos rfl]
    unfold readEnum
    have := rd_be (nb := 4) (v := e) [] (by omega)
    rw [List.append_nil] at this
    rw [refuse_bind (by rw [be_len]; decide), this, ok_bind]
    dsimp only
    rw [if_neg h2]
    rfl
  | lab ps =>
    unfold Color.body
    dsimp only
    rw [List.append_assoc (be 1 1 ++ be 1 prec ++ be 1 approx), key 1 _ (by decide), if_pos rfl]
    unfold readEnum
    rw [refuse_bind (by rw [List.length_append, be_len]; omega), rd_be _ (by decide), ok_bind]
    dsimp only
    rw [if_pos rfl, cielab_be hc.1 hc.2, ok_bind]
    rfl
  | profile bytes =>
    have h1 : bytes.length < 2 ^ 32 := hc
    unfold Color.body
    dsimp only
    rw [key 2 _ (by decide), if_neg (by decide), if_pos rfl, Nat.mod_eq_of_lt h1]
    rfl

end Jp2.Box

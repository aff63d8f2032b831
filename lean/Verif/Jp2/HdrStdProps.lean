import Verif.Jp2.HdrStdMore
import Verif.Jp2.HdrProps
/-!
# Marker segments of the main header mean what the standard says (C56), and the encoder writes them so (C52)
-/
namespace Jp2.Hdr

/-- **C52.** The bytes of the main header are those Annex A asks for, segment by segment. -/
theorem C52_header_is_standard (e : Enc) (junk : List UInt8) (hw : Writable e) (hsh : SharedStyle e)
    (hq : ∀ t ∈ e.tccps, t.qntsty ≤ 2) : writeHeader e junk = .ok (stdHeader e) := by
  cases ht : e.tccps with
  | nil => have := hw.tccps; have := hw.comps_len; rw [ht] at *; simp at *; omega
  | cons t ts =>
    have hm : t ∈ e.tccps := by rw [ht]; simp
    have hst := hw.style t hm
    have hqt := hw.quant t hm
    have hsub : ∀ x ∈ e.tccps.tail, x ∈ e.tccps := fun x hx => List.mem_of_mem_tail hx
    unfold writeHeader stdHeader
    rw [(writeCod_eq ht (hw.prcs_len t hm) hst.numres.2).1, ok_bind, writeQcd_eq ht hst.numres hqt.steps_len, ok_bind,
      writeCocs_eq hw hsh ht _ 1 hsub, ok_bind, writeQccs_std hw hsh ht hq _ 1 hsub, ok_bind, writeTlm_std hw.tlm, ok_bind,
      writeRgns_std, writeCom_std, writeSiz_std hw, ht]
    dsimp only
    unfold codBody stdCod stdQcd
    rw [spBytes_std hst, sqBytes_std hst.numres (hq t hm) hqt.steps_len, List.append_nil]
    rfl

example : writeHeader exEnc [] = .ok (stdHeader exEnc) := C52_header_is_standard _ _ exEnc_ok.1 exEnc_ok.2.1 (by decide)

/-! ## C56 -/

/-- **C56.** A `COC` segment gives the component it names the coding style it describes. Nothing else changes. -/
theorem C56_component_style (u : User) (hu : u.reduce < 64) (segs : List (Nat × List UInt8)) (hsegs : Known segs)
    (rest rest' : List UInt8) (d : Dec) (h : readHeader u (stream segs rest) = .ok (d, rest'))
    (i : Nat) (t : Tccp) (hi : d.tcp.tccps[i]? = some t) (s : Style) (hs : s.Valid) (hr : u.reduce ≤ s.levels) :
    ∃ ps b, (∀ r ≤ s.levels, ps[r]? = s.precinct r) ∧
      readHeader u (stream (segs ++ [(0xFF53, cocBody d.comps.length i s)]) rest) = .ok ({ d with
        buf := b
        tcp := { d.tcp with tccps := d.tcp.tccps.set i { t with
          csty := s.scoc, numres := s.levels + 1, cblkw := s.xcb, cblkh := s.ycb, cblksty := s.modes,
          qmfbid := if s.reversible then 1 else 0, prcs := ps } } }, rest) := by
  have hlen : (cocBody d.comps.length i s).length + 2 < 65536 := by
    have hr := room_pos d.comps.length
    have hl := hs.levels
    have hp : ∀ l, s.precincts = some l → l.length = s.levels + 1 := hs.number
    unfold cocBody Style.bytes
    simp only [List.length_append, compNumber_len, be_len]
    cases hc : s.precincts with
    | none => simp; omega
    | some l => simp only [flatMap_be_len]; have := hp l hc; omega
  obtain ⟨tcp, comps, b, h1, ps, h2, h3, rfl⟩ := stream_append (body := cocBody d.comps.length i s) hu hsegs (Or.inl rfl) hlen h
    (Q := fun tcp comps => ∃ ps : List (Nat × Nat), comps = d.comps ∧ (∀ r ≤ s.levels, ps[r]? = s.precinct r) ∧
      tcp = { d.tcp with tccps := d.tcp.tccps.set i { t with
          csty := s.scoc, numres := s.levels + 1, cblkw := s.xcb, cblkh := s.ycb, cblksty := s.modes,
          qmfbid := if s.reversible then 1 else 0, prcs := ps } })
    (fun dh tail hd e1 e2 => by
      obtain ⟨ps, g1, g2⟩ := readCoc_std tail hd hs hr (by rw [e1]; exact hi)
      rw [e2] at g1
      refine ⟨_, dh.comps, ?_, ps, e2, g2, rfl⟩
      rw [← e1]
      exact g1)
  subst h2
  exact ⟨ps, b, h3, h1⟩

/-- **C56.** A `QCC` segment gives the component it names the guard bits and step sizes it describes. Nothing else
changes. -/
theorem C56_component_quantization (u : User) (hu : u.reduce < 64) (segs : List (Nat × List UInt8)) (hsegs : Known segs)
    (rest rest' : List UInt8) (d : Dec) (h : readHeader u (stream segs rest) = .ok (d, rest'))
    (i : Nat) (t : Tccp) (hi : d.tcp.tccps[i]? = some t) (q : Quant) (levels : Nat) (hq : q.Valid levels) :
    ∃ ss b, (∀ k ≤ 3 * levels, ss[k]? = q.steps.step levels k) ∧
      readHeader u (stream (segs ++ [(0xFF5D, qccBodyStd d.comps.length i q)]) rest) = .ok ({ d with
        buf := b
        tcp := { d.tcp with tccps := d.tcp.tccps.set i { t with qntsty := q.steps.tag, numgbits := q.guard, steps := ss } } }, rest) := by
  have hlen : (qccBodyStd d.comps.length i q).length + 2 < 65536 := by
    have hr := room_pos d.comps.length
    obtain ⟨h1, h2, h3⟩ := hq
    unfold qccBodyStd Quant.bytes
    simp only [List.length_append, compNumber_len, be_len]
    cases hc : q.steps with
    | none l => rw [hc] at h3; have : l.length = _ := h3.1; simp only [Steps.bytes, flatMap_be_len]; omega
    | derived e m => simp only [Steps.bytes, be_len]; omega
    | expounded l => rw [hc] at h3; have : l.length = _ := h3.1; simp only [Steps.bytes, flatMap_be_len]; omega
  obtain ⟨tcp, comps, b, h1, ss, h2, h3, rfl⟩ := stream_append (body := qccBodyStd d.comps.length i q) hu hsegs (Or.inr (Or.inl rfl)) hlen h
    (Q := fun tcp comps => ∃ ss : List (Nat × Nat), comps = d.comps ∧ (∀ k ≤ 3 * levels, ss[k]? = q.steps.step levels k) ∧
      tcp = { d.tcp with tccps := d.tcp.tccps.set i { t with qntsty := q.steps.tag, numgbits := q.guard, steps := ss } })
    (fun dh tail hd e1 e2 => by
      obtain ⟨ps, g1, g2⟩ := readQcc_std tail hd hq (by rw [e1]; exact hi)
      rw [e2] at g1
      refine ⟨_, dh.comps, ?_, ps, e2, g2, rfl⟩
      rw [← e1]
      exact g1)
  subst h2
  exact ⟨ss, b, h3, h1⟩

/-- **C56.** An `RGN` segment gives the component it names the shift of its region of interest. Nothing else changes. -/
theorem C56_component_region (u : User) (hu : u.reduce < 64) (segs : List (Nat × List UInt8)) (hsegs : Known segs)
    (rest rest' : List UInt8) (d : Dec) (h : readHeader u (stream segs rest) = .ok (d, rest'))
    (i : Nat) (t : Tccp) (hi : d.tcp.tccps[i]? = some t) (v : Nat) (hv : v < 256) :
    ∃ b, readHeader u (stream (segs ++ [(0xFF5E, rgnBodyStd d.comps.length i v)]) rest) = .ok ({ d with
        buf := b
        tcp := { d.tcp with tccps := d.tcp.tccps.set i { t with roishift := v } } }, rest) := by
  have hlen : (rgnBodyStd d.comps.length i v).length + 2 < 65536 := by
    have hr := room_pos d.comps.length
    unfold rgnBodyStd
    simp only [List.length_append, compNumber_len, be_len]
    omega
  obtain ⟨tcp, comps, b, h1, h2, rfl⟩ := stream_append (body := rgnBodyStd d.comps.length i v) hu hsegs (Or.inr (Or.inr (Or.inl rfl))) hlen h
    (Q := fun tcp comps => comps = d.comps ∧ tcp = { d.tcp with tccps := d.tcp.tccps.set i { t with roishift := v } })
    (fun dh tail hd e1 e2 => by
      have g1 := readRgn_std tail hd hv (by rw [e1]; exact hi)
      rw [e2] at g1
      refine ⟨_, dh.comps, ?_, e2, rfl⟩
      rw [← e1]
      exact g1)
  subst h2
  exact ⟨b, h1⟩

/-- **C56.** A `POC` segment adds the progression order changes it lists, in its order. Nothing else changes. -/
theorem C56_order_changes (u : User) (hu : u.reduce < 64) (segs : List (Nat × List UInt8)) (hsegs : Known segs)
    (rest rest' : List UInt8) (d : Dec) (h : readHeader u (stream segs rest) = .ok (d, rest'))
    (l : List Change) (hl : l ≠ []) (h32 : d.tcp.pocs.length + l.length < 32)
    (hv : ∀ c ∈ l, c.Valid d.comps.length d.tcp.numlayers) :
    ∃ b, readHeader u (stream (segs ++ [(0xFF5F, l.flatMap (Change.bytes d.comps.length))]) rest) = .ok ({ d with
        buf := b
        tcp := { d.tcp with pocs := d.tcp.pocs ++ l.map Change.poc } }, rest) := by
  have hlen : (l.flatMap (Change.bytes d.comps.length)).length + 2 < 65536 := by
    have hr := room_pos d.comps.length
    have : (l.flatMap (Change.bytes d.comps.length)).length ≤ 9 * l.length := by
      clear hv h32 hl
      induction l with
      | nil => simp
      | cons c l ih =>
        rw [List.flatMap_cons, List.length_append, List.length_cons]
        unfold Change.bytes at ih ⊢
        simp only [List.length_append, be_len, compNumber_len] at ih ⊢
        omega
    omega
  obtain ⟨tcp, comps, b, h1, h2, rfl⟩ := stream_append (body := l.flatMap (Change.bytes d.comps.length)) hu hsegs
    (Or.inr (Or.inr (Or.inr (Or.inl rfl)))) hlen h
    (Q := fun tcp comps => comps = d.comps ∧ tcp = { d.tcp with pocs := d.tcp.pocs ++ l.map Change.poc })
    (fun dh tail hd e1 e2 => by
      have g1 := readPoc_std tail hd hl (by rw [e1]; exact h32) (by rw [e1, e2]; exact hv)
      rw [e2] at g1
      refine ⟨_, d.comps, ?_, rfl, rfl⟩
      rw [← e1]
      exact g1)
  subst h2
  exact ⟨b, h1⟩

/-- **C56.** A `CBD` segment sets precision and sign of every component. Nothing else changes. -/
theorem C56_bit_depths (u : User) (hu : u.reduce < 64) (segs : List (Nat × List UInt8)) (hsegs : Known segs)
    (rest rest' : List UInt8) (d : Dec) (h : readHeader u (stream segs rest) = .ok (d, rest'))
    (l : List (Bool × Nat)) (hl : l.length = d.comps.length) (hv : ∀ x ∈ l, 1 ≤ x.2 ∧ x.2 ≤ 31) :
    ∃ b, readHeader u (stream (segs ++ [(0xFF78, cbdBody l)]) rest) = .ok ({ d with buf := b, comps := withDepths d.comps l }, rest) := by
  have hn := (C53_header_in_range u hu _ _ d h).geom.comps_len.2
  have hlen : (cbdBody l).length + 2 < 65536 := by
    unfold cbdBody
    rw [List.length_append, be_len, flatMap_be_len]
    omega
  obtain ⟨tcp, comps, b, h1, h2, rfl⟩ := stream_append (body := cbdBody l) hu hsegs
    (Or.inr (Or.inr (Or.inr (Or.inr (Or.inl rfl))))) hlen h
    (Q := fun tcp comps => tcp = d.tcp ∧ comps = withDepths d.comps l)
    (fun dh tail hd e1 e2 => by
      have g1 := readCbd_std tail hd (by rw [e2]; exact hl) hv
      rw [e2] at g1
      exact ⟨dh.tcp, _, g1, e1, rfl⟩)
  subst h2
  exact ⟨b, h1⟩

/-- **C56.** A comment, whatever it says, changes nothing. -/
theorem C56_comment_ignored (u : User) (hu : u.reduce < 64) (segs : List (Nat × List UInt8)) (hsegs : Known segs)
    (rest rest' : List UInt8) (d : Dec) (h : readHeader u (stream segs rest) = .ok (d, rest'))
    (text : List UInt8) (ht : text.length + 2 < 65536) :
    ∃ b, readHeader u (stream (segs ++ [(0xFF64, text)]) rest) = .ok ({ d with buf := b }, rest) := by
  obtain ⟨tcp, comps, b, h1, h2, rfl⟩ := stream_append (body := text) hu hsegs
    (Or.inr (Or.inr (Or.inr (Or.inr (Or.inr (Or.inl rfl)))))) ht h
    (Q := fun tcp comps => tcp = d.tcp ∧ comps = d.comps)
    (fun dh tail hd e1 e2 => ⟨dh.tcp, dh.comps, rfl, e1, e2⟩)
  subst h2
  exact ⟨b, h1⟩

/-! ### A case, and what is not so -/

/-- `SIZ`, `COD`, `QCD` of two components with two resolutions. -/
def exSegs : List (Nat × List UInt8) :=
  [(0xFF51, (stdSiz exMixed).drop 4), (0xFF52, [0, 2, 0, 3, 0, 1, 4, 4, 0, 1]), (0xFF5C, [64, 8, 16, 24, 32])]

def exStyle : Style := { levels := 2, xcb := 5, ycb := 4, modes := 1, reversible := false, precincts := some [(3, 4), (5, 6), (7, 8)] }

/-- What is left behind a header: the styles of its components. -/
def styles (s : List UInt8) : R (List (Nat × Nat × List (Nat × Nat))) :=
  outcome {} (.ok s) fun d _ => d.tcp.tccps.map fun t => (t.numres, t.cblkw, t.prcs.take t.numres)

/-- Their quantization and regions of interest. -/
def quants (s : List UInt8) : R (List (Nat × Nat × List (Nat × Nat))) :=
  outcome {} (.ok s) fun d _ => d.tcp.tccps.map fun t => (t.qntsty, t.roishift, t.steps.take 4)

/-- Progression order changes. -/
def changes (s : List UInt8) : R (List Pi.Poc) := outcome {} (.ok s) fun d _ => d.tcp.pocs

/-- Bit depths. -/
def depths (s : List UInt8) : R (List (Nat × Nat)) := outcome {} (.ok s) fun d _ => d.comps.map fun c => (c.prec, c.sgnd)

/-- All the segments above, for the second component. -/
example :
    styles (stream exSegs []) = .ok [(2, 6, [(15, 15), (15, 15)]), (2, 6, [(15, 15), (15, 15)])] ∧
    styles (stream (exSegs ++ [(0xFF53, cocBody 2 1 exStyle)]) []) =
      .ok [(2, 6, [(15, 15), (15, 15)]), (3, 5, [(3, 4), (5, 6), (7, 8)])] ∧
    quants (stream (exSegs ++ [(0xFF5D, qccBodyStd 2 1 ⟨1, .derived 9 5⟩)]) []) =
      .ok [(0, 0, [(1, 0), (2, 0), (3, 0), (4, 0)]), (1, 0, [(9, 5), (9, 5), (9, 5), (9, 5)])] ∧
    quants (stream (exSegs ++ [(0xFF5E, rgnBodyStd 2 1 7)]) []) =
      .ok [(0, 0, [(1, 0), (2, 0), (3, 0), (4, 0)]), (0, 7, [(1, 0), (2, 0), (3, 0), (4, 0)])] ∧
    depths (stream (exSegs ++ [(0xFF78, cbdBody [(true, 5), (false, 9)])]) []) = .ok [(5, 1), (9, 0)] := by
  refine ⟨?_, ?_, ?_, ?_, ?_⟩ <;> decide +kernel

example : changes (stream (exSegs ++ [(0xFF5F, [⟨0, 0, 2, 1, 1, 4⟩, ⟨1, 1, 3, 2, 2, 0⟩].flatMap (Change.bytes 2))]) []) =
    .ok [Change.poc ⟨0, 0, 2, 1, 1, 4⟩, Change.poc ⟨1, 1, 3, 2, 2, 0⟩] := by
  decide +kernel

example : exStyle.Valid ∧ (⟨1, .derived 9 5⟩ : Quant).Valid 1 ∧ (⟨1, 1, 3, 2, 2, 0⟩ : Change).Valid 2 3 ∧ Known exSegs := by
  refine ⟨⟨by decide, by decide, by decide, by decide, by decide, ?_, ?_⟩, ⟨by decide, by decide, by decide, by decide⟩,
    ⟨by decide, by decide, by decide, by decide, by decide, by decide⟩, ?_⟩
  · intro l hl; cases hl; rfl
  · intro l hl r q hq
    cases hl
    match r with
    | 0 => cases hq; simp
    | 1 => cases hq; simp
    | 2 => cases hq; simp
    | r + 3 => simp at hq
  · unfold Known; decide +kernel

/-- **C56** is false of a `COC` in front of `COD`, and of a `QCC` in front of `QCD`: Table A.2 lets them come in any
order and gives `COC` and `QCC` precedence, but what they say is lost. -/
theorem C56_component_first_lost :
    styles (stream [(0xFF51, (stdSiz exMixed).drop 4), (0xFF53, cocBody 2 1 exStyle), (0xFF52, [0, 2, 0, 3, 0, 1, 4, 4, 0, 1]),
      (0xFF5C, [64, 8, 16, 24, 32])] []) = styles (stream exSegs []) ∧
    quants (stream [(0xFF51, (stdSiz exMixed).drop 4), (0xFF52, [0, 2, 0, 3, 0, 1, 4, 4, 0, 1]),
      (0xFF5D, qccBodyStd 2 1 ⟨1, .derived 9 5⟩), (0xFF5C, [64, 8, 16, 24, 32])] []) = quants (stream exSegs []) ∧
    styles (stream exSegs []) ≠ styles (stream (exSegs ++ [(0xFF53, cocBody 2 1 exStyle)]) []) ∧
    quants (stream exSegs []) ≠ quants (stream (exSegs ++ [(0xFF5D, qccBodyStd 2 1 ⟨1, .derived 9 5⟩)]) []) := by
  refine ⟨?_, ?_, ?_, ?_⟩ <;> decide +kernel

/-- **C56** is false of a `POC` in front of `COD`: its layers are cut down to none. -/
theorem C56_order_change_first_lost :
    changes (stream [(0xFF51, (stdSiz exMixed).drop 4), (0xFF5F, Change.bytes 2 ⟨0, 0, 2, 1, 1, 4⟩),
      (0xFF52, [0, 2, 0, 3, 0, 1, 4, 4, 0, 1]), (0xFF5C, [64, 8, 16, 24, 32])] []) = .ok [Change.poc ⟨0, 0, 0, 1, 1, 4⟩] := by
  decide +kernel

end Jp2.Hdr

import Verif.Jp2.HdrMore
import Verif.Jp2.PiSpec
import Verif.Jp2.TcdSpec
/-!
# The main header (C52 to C55)
-/
namespace Jp2.Hdr

/-! ## C53: any bytes -/

theorem readHeader_post {u : User} (hu : u.reduce < 64) (s : List UInt8) :
    Post (readHeader u s) (fun r => HeaderOk u r.1) := by
  unfold readHeader
  dsimp only
  refine Post.bind (refuseIf_post _) fun _ h1 => ?_
  refine Post.bind (next_post (by omega) (by omega)) fun ⟨soc, s1⟩ _ => ?_
  dsimp only
  refine Post.bind (refuseIf_post _) fun _ _ => ?_
  refine Post.bind load_post fun ⟨b2, s2⟩ ⟨hl2, hs2, hb2⟩ => ?_
  dsimp only at hs2 hb2 ⊢
  have hlen2 := load_len hl2 hb2
  rw [List.length_replicate] at hlen2
  refine Post.bind (next_post (by omega) (by omega)) fun ⟨m, _⟩ _ => ?_
  dsimp only
  refine Post.bind (readMarkers_post hu _ m _ s2 (Nat.lt_succ_self _)
    ⟨by show 1000 ≤ b2.length; omega, fun _ => ⟨rfl, rfl, rfl, rfl⟩, (fun h => nomatch h), (fun h => nomatch h)⟩) fun ⟨d, s3⟩ hd => ?_
  dsimp only at hd ⊢
  refine Post.bind (refuseIf_post _) fun _ g1 => ?_
  refine Post.bind (refuseIf_post _) fun _ g2 => ?_
  refine Post.bind (refuseIf_post _) fun _ g3 => ?_
  have hsz : d.siz = true := by
    cases h : d.siz with
    | true => rfl
    | false => exact absurd (hd.start h).2.1 g1
  have hi := hd.inv hsz
  have hc := hd.cod (by simpa using g2)
  have ok : HeaderOk u d := ⟨hi.geom, hc.csty, hc.prg, ⟨hc.layers, hi.tcp.layers⟩, hc.mct, hi.tcp.len, hc.style,
    fun t ht => (hi.tcp.tccps t ht).quant, fun t ht => (hi.tcp.tccps t ht).roi, fun t ht => (hi.tcp.tccps t ht).prcs_len,
    hi.tcp.pocs_len, hi.tcp.pocs, hi.tcp.matrix⟩
  refine Post.bind (mergePpm_post d) fun d' hd' => ?_
  refine Post.pure ?_
  rcases hd' with ⟨_, rfl⟩ | ⟨out, rfl, _⟩
  · exact ok
  · have g := ok.geom
    exact ⟨⟨g.image_x, g.image_y, g.tile_x, g.tile_y, g.count_x, g.count_y, g.count, g.comps_len, fun c hc =>
      ⟨(g.comps c hc).prec, (g.comps c hc).sgnd, (g.comps c hc).dx, (g.comps c hc).dy, (g.comps c hc).factor,
        (g.comps c hc).x0, (g.comps c hc).y0, (g.comps c hc).w, (g.comps c hc).h⟩⟩, ok.csty, ok.prg, ok.layers, ok.mct, ok.tccps,
      ok.style, ok.quant, ok.roi, ok.prcs, ok.pocs_len, ok.pocs, ok.matrix⟩

/-- **C53.** Whatever the bytes, reading a main header either succeeds or is refused: it never panics, never
touches memory outside its buffers, and never runs without end. -/
theorem C53_header_total (u : User) (hu : u.reduce < 64) (s : List UInt8) :
    (∃ d rest, readHeader u s = .ok (d, rest)) ∨ readHeader u s = .error .refused := by
  have h := readHeader_post hu s
  cases hr : readHeader u s with
  | ok r => exact Or.inl ⟨r.1, r.2, rfl⟩
  | error e =>
    rw [hr] at h
    cases e with
    | refused => exact Or.inr rfl
    | panic => exact nomatch h
    | oob => exact nomatch h

/-- **C53.** What is accepted as a header is complete and in range. -/
theorem C53_header_in_range (u : User) (hu : u.reduce < 64) (s rest : List UInt8) (d : Dec)
    (h : readHeader u s = .ok (d, rest)) : HeaderOk u d :=
  (readHeader_post hu s).of_ok h

theorem grid_lt {t0 td x1 tw p : Nat} (htd : 0 < td) (htw : tw = cdiv (x1 - t0) td) (hp : p < tw) :
    t0 + p * td < x1 := by
  unfold cdiv at htw
  have h1 : p + 1 ≤ (x1 - t0 + td - 1) / td := by omega
  rw [Nat.le_div_iff_mul_le htd, Nat.succ_mul] at h1
  omega

/-- **C53.** Every tile of an accepted header has the geometry the packet iterators and the tile builder need,
for images that end before `2^31` (the hypotheses of C37 and C45). -/
theorem C53_tiles_usable (u : User) (hu : u.reduce < 64) (s rest : List UInt8) (d : Dec)
    (h : readHeader u s = .ok (d, rest)) (hx : d.x1 ≤ 2 ^ 31) (hy : d.y1 ≤ 2 ^ 31) (n : Nat) (hn : n < d.tw * d.th)
    (szPrec szBlk : Nat) (hsp : 0 < szPrec) (hsb : 0 < szBlk) :
    Pi.ParamsFit (packetParams d) n ∧ Tcd.Fit (tileParams d szPrec szBlk) n ∧ Tcd.Grid (tileParams d szPrec szBlk) d.th := by
  have ok := C53_header_in_range u hu s rest d h
  have g := ok.geom
  have ix := g.image_x
  have iy := g.image_y
  have tx := g.tile_x
  have ty := g.tile_y
  have hcnt := g.count
  have px := grid_lt (by omega) g.count_x (Nat.mod_lt n hcnt.1)
  have py := grid_lt (p := n / d.tw) (by omega) g.count_y (by rw [Nat.div_lt_iff_lt_mul hcnt.1, Nat.mul_comm]; exact hn)
  have hzl : ∀ {α : Type} (f : Comp → Tccp → α), (List.zipWith f d.comps d.tcp.tccps).length = d.comps.length := by
    intro α f; rw [List.length_zipWith, ok.tccps]; omega
  have mem : ∀ {α : Type} (f : Comp → Tccp → α) (x : α), x ∈ List.zipWith f d.comps d.tcp.tccps →
      ∃ c ∈ d.comps, ∃ t ∈ d.tcp.tccps, x = f c t := by
    intro α f x hx
    obtain ⟨i, hi, he⟩ := List.getElem_of_mem hx
    rw [List.getElem_zipWith] at he
    rw [List.length_zipWith] at hi
    exact ⟨_, List.getElem_mem (by omega), _, List.getElem_mem (by omega), he.symm⟩
  refine ⟨⟨hcnt.1, ?_, ?_, tx.2.2, ty.2.2, hx, hy, ?_, ?_, ?_, ?_, ok.layers.2⟩,
    ⟨hcnt.1, ?_, ?_, tx.2.2, ty.2.2, ?_, ?_, ix.2, iy.2, ?_, ?_, hsp, hsb⟩, ⟨?_, ?_, g.count_x, g.count_y⟩⟩
  · show d.tx0 + n % d.tw * d.tdx < 2 ^ 32; omega
  · show d.ty0 + n / d.tw * d.tdy < 2 ^ 32; omega
  · show max (d.tx0 + n % d.tw * d.tdx) d.x0 ≤ min (d.tx0 + (n % d.tw + 1) * d.tdx) d.x1
    rw [Nat.succ_mul]; omega
  · show max (d.ty0 + n / d.tw * d.tdy) d.y0 ≤ min (d.ty0 + (n / d.tw + 1) * d.tdy) d.y1
    rw [Nat.succ_mul]; omega
  · intro cp hcp
    obtain ⟨c, hc, t, ht, rfl⟩ := mem _ _ hcp
    have hcc := g.comps c hc
    have hst := ok.style t ht
    have hpl := ok.prcs t ht
    have hnr := hst.numres
    have hl : (t.prcs.take t.numres).length = t.numres := by rw [List.length_take]; omega
    refine ⟨⟨hcc.dx.1, hcc.dx.2⟩, ⟨hcc.dy.1, hcc.dy.2⟩, ?_, ?_⟩
    · dsimp only; omega
    · intro q hq
      obtain ⟨r, hr, rfl⟩ := List.getElem_of_mem hq
      dsimp only at hr
      have hr' : r < t.numres := by omega
      have := hst.prcs r t.prcs[r] (List.getElem?_eq_getElem (by omega)) hr'
      dsimp only
      rw [List.getElem_take]
      exact ⟨this.1, this.2.1⟩
  · show (List.zipWith _ d.comps d.tcp.tccps).length ≤ 16384
    rw [hzl]; exact g.comps_len.2
  · show d.tx0 + n % d.tw * d.tdx < 2 ^ 32; omega
  · show d.ty0 + n / d.tw * d.tdy < 2 ^ 32; omega
  · show d.x0 < 2 ^ 32; omega
  · show d.y0 < 2 ^ 32; omega
  · intro hc
    have := congrArg List.length hc
    have h2 : (tileParams d szPrec szBlk).comps.length = d.comps.length := hzl _
    rw [h2, List.length_nil] at this
    have := g.comps_len
    omega
  · intro cp hcp
    obtain ⟨c, hc, t, ht, rfl⟩ := mem _ _ hcp
    have hcc := g.comps c hc
    have hst := ok.style t ht
    have hpl := ok.prcs t ht
    have hnr := hst.numres
    have hl : (t.prcs.take t.numres).length = t.numres := by rw [List.length_take]; omega
    refine ⟨⟨hcc.dx.1, hcc.dx.2⟩, ⟨hcc.dy.1, hcc.dy.2⟩, ?_, ?_⟩
    · dsimp only; omega
    · intro r q hq
      dsimp only at hq
      rw [List.getElem?_take] at hq
      split at hq
      · have := hst.prcs r q hq (by assumption)
        exact ⟨this.1, this.2.1, fun hr => this.2.2 (by omega)⟩
      · cases hq
  · exact ⟨tx.1, tx.2.1, ix.1⟩
  · exact ⟨ty.1, ty.2.1, iy.1⟩

/-! ## C52: a header is read back -/

/-- **C52.** The main header the encoder writes is read back: same image and tile grid, components, progression,
layers, and for every component the same coding style, precinct sizes, quantization and region of interest.
Reading stops exactly behind the first `SOT` marker. -/
theorem C52_header_read_back (u : User) (e : Enc) (junk rest : List UInt8) (hw : Writable e) (hsh : SharedStyle e)
    (hs : Suits u e) :
    ∃ h d, writeHeader e junk = .ok h ∧ readHeader u (h ++ be 2 0xFF90 ++ rest) = .ok (d, rest) ∧ SameHeader e d := by
  obtain ⟨b, n, hb, hc⟩ := header_chunk junk hw hsh hs
  have hw' := hb e.comment
  obtain ⟨n', hc'⟩ : ∃ n', Chunk u Start (b ++ writeComIf e.comment) n' (Stage e true true (RgnRel e.tccps.length)) := by
    cases h : e.comment with
    | none => exact ⟨_, hc.append (Chunk.nil _ _)⟩
    | some c => exact ⟨_, hc.append (chunk_com (hw.comment c h))⟩
  obtain ⟨d, hd, fuel, hr, _⟩ := readHeader_chunk hc' (be 2 0xFF90 ++ rest) (by rw [List.length_append, be_len]; omega)
  obtain ⟨b', hb'⟩ := resume_sot u fuel d rest
  have hst : Stage e true true (RgnRel e.tccps.length) { d with buf := b' } :=
    ⟨hd.rsiz, hd.image, hd.tiles, hd.comps, hd.clen, hd.tlen, hd.head, hd.pocs, hd.shift, hd.siz, hd.hasSiz, hd.hasCod, hd.hasQcd,
      hd.ppm, hd.ppms, hd.rel⟩
  refine ⟨_, { d with buf := b' }, hw', ?_, hst.same hw⟩
  rw [List.append_assoc, List.append_assoc, hr, hb', ok_bind]
  dsimp only
  rw [refuse_bind (by rw [hd.hasSiz]; simp), refuse_bind (by rw [hd.hasCod]; simp), refuse_bind (by rw [hd.hasQcd]; simp)]
  unfold mergePpm
  rw [if_pos hd.ppm]
  rfl

/-- A 4:2:0 image of 40x30 at (3, 2) in tiles of 16x16, 6 bands, precincts given, the second component with
its own quantization and a region of interest. -/
def exEnc : Enc :=
  { rsiz := 0, x0 := 3, y0 := 2, x1 := 43, y1 := 32, tdx := 16, tdy := 16, tx0 := 1, ty0 := 0,
    comps := [{ prec := 8, sgnd := 0, dx := 1, dy := 1 }, { prec := 12, sgnd := 1, dx := 2, dy := 2 }],
    csty := 7, prg := 2, numlayers := 3, mct := 0,
    tccps := [
      { csty := 1, numres := 2, cblkw := 6, cblkh := 6, cblksty := 0x29, qmfbid := 0,
        prcs := [(4, 5), (6, 7)] ++ List.replicate 31 (0, 0), qntsty := 2, numgbits := 2,
        steps := [(8, 17), (9, 1), (9, 2047), (10, 3)] ++ List.replicate 93 (0, 0) },
      { csty := 1, numres := 2, cblkw := 6, cblkh := 6, cblksty := 0x29, qmfbid := 0,
        prcs := [(4, 5), (6, 7)] ++ List.replicate 31 (9, 9), qntsty := 1, numgbits := 1,
        steps := [(13, 100)] ++ List.replicate 96 (1, 1), roishift := 7 }],
    tlm := some 9, comment := some [67, 68] }

theorem exEnc_style (t : Tccp) (ht : t ∈ exEnc.tccps) : StyleOk {} t := by
  have hp : ∀ l : List (Nat × Nat), ∀ r q, ([(4, 5), (6, 7)] ++ l)[r]? = some q → r < 2 →
      q.1 ≤ 15 ∧ q.2 ≤ 15 ∧ (0 < r → 0 < q.1 ∧ 0 < q.2) := by
    intro l r q hq hr
    match r, hr with
    | 0, _ => simp at hq; subst hq; simp
    | 1, _ => simp at hq; subst hq; simp
  simp only [exEnc, List.mem_cons, List.not_mem_nil, or_false] at ht
  rcases ht with rfl | rfl <;>
    exact ⟨by decide, by decide, by decide, by decide, by decide, by decide, by decide, hp _⟩

theorem exEnc_ok : Writable exEnc ∧ SharedStyle exEnc ∧ Suits { reduce := 1, ihdrW := 40, ihdrH := 30 } exEnc := by
  refine ⟨⟨by decide, by decide, by decide, by decide, by decide, by decide, by decide, by decide, by decide, by decide, by decide,
    by decide, rfl, by decide, exEnc_style, ?_, by decide, by decide, ?_, by decide, ?_⟩, ?_, ⟨by decide, Or.inr (Or.inr (Or.inr (by decide)))⟩⟩
  · intro t ht
    simp only [exEnc, List.mem_cons, List.not_mem_nil, or_false] at ht
    rcases ht with rfl | rfl <;> exact ⟨by decide, by decide, rfl, by decide⟩
  · intro n hn; cases hn; decide
  · intro c hc; cases hc; decide
  · unfold SharedStyle; decide

/-- How reading `s` ends, and what `f` sees of the result. -/
def outcome {α : Type} (u : User) (s : R (List UInt8)) (f : Dec → List UInt8 → α) : R α := do
  let r ← readHeader u (← s)
  return f r.1 r.2

/-- The header of `e`, then `tail`. -/
def withTail (e : Enc) (tail : List UInt8) : R (List UInt8) := do
  let h ← writeHeader e []
  return h ++ tail

example : (writeHeader exEnc []).map List.length = .ok 151 ∧
    outcome { reduce := 1, ihdrW := 40, ihdrH := 30 } (withTail exEnc (be 2 0xFF90 ++ [0, 10])) (fun d rest =>
      (d.tw, d.th, d.comps.map (fun c => (c.w, c.h)), rest)) = .ok (3, 2, [(20, 15), (10, 8)], [0, 10]) ∧
    outcome { reduce := 1 } (withTail exEnc (be 2 0xFF90)) (fun d _ => d.tcp.tccps.map fun t => (t.steps.take 4, t.roishift)) =
      .ok [([(8, 17), (9, 1), (9, 2047), (10, 3)], 0), ([(13, 100), (13, 100), (13, 100), (13, 100)], 7)] := by
  decide +kernel

/-- **C52**, the limit of `Writable.comment`: a comment of 65532 or 65533 bytes makes the header unreadable,
although it is written without complaint. -/
theorem C52_long_comment_unreadable (u : User) (e : Enc) (junk rest c : List UInt8) (hw : Writable e) (hsh : SharedStyle e)
    (hs : Suits u e) (hc : c.length = 65532 ∨ c.length = 65533) :
    ∃ h, writeHeader { e with comment := some c } junk = .ok h ∧ readHeader u (h ++ rest) = .error .refused := by
  obtain ⟨b, n, hb, hch⟩ := header_chunk junk hw hsh hs
  refine ⟨_, hb (some c), ?_⟩
  have hl := be_len 2 0xFF64
  have hl2 := be_len 2 (c.length + 4)
  obtain ⟨d, hd, fuel, hr, hf⟩ := readHeader_chunk hch (writeComIf (some c) ++ rest) (by
    unfold writeComIf writeCom
    simp only [List.length_append]
    omega)
  rw [List.append_assoc, List.append_assoc, hr]
  have hfu : 1 ≤ fuel := by
    have h4 := hch.1
    have : 2 ≤ (writeComIf (some c) ++ rest).length := by
      unfold writeComIf writeCom
      simp only [List.length_append]
      omega
    omega
  obtain ⟨f, rfl⟩ : ∃ f, fuel = f + 1 := ⟨fuel - 1, by omega⟩
  have : resume u (f + 1) d (writeComIf (some c) ++ rest) = .error .refused := by
    unfold resume writeComIf writeCom
    dsimp only
    simp only [List.append_assoc]
    rw [load_eq hl, ok_bind]
    dsimp only
    rw [next_be _ (by omega) (by omega), ok_bind]
    dsimp only
    rw [readMarkers_known (by omega) (by omega) (by decide)]
    unfold readSegment
    dsimp only
    rw [refuse_bind (by rw [hd.siz]; decide), load_eq hl2, ok_bind]
    dsimp only
    rw [next_mod _ _ (by omega), ok_bind]
    dsimp only
    have : refuseIf ((c.length + 4) % 256 ^ 2 < 2) = .error .refused := by
      unfold refuseIf; rw [if_pos (by omega)]
    rw [this]
    rfl
  rw [this]
  rfl

/-- Two components that differ in the number of resolutions. -/
def exMixed : Enc :=
  { exEnc with
    comment := none
    tlm := none
    tccps := [
      { csty := 0, numres := 2, cblkw := 6, cblkh := 6, qmfbid := 1, qntsty := 0, numgbits := 2 },
      { csty := 0, numres := 1, cblkw := 6, cblkh := 6, qmfbid := 1, qntsty := 0, numgbits := 2 }]
    csty := 0 }

/-- **C52**, the need for `SharedStyle`: the `COC` segment of a component with another coding style carries the
coding style of the first component, so the second one is lost. -/
theorem C52_coc_component_lost :
    exMixed.tccps.map (·.numres) = [2, 1] ∧
    outcome {} (withTail exMixed (be 2 0xFF90)) (fun d _ => d.tcp.tccps.map (·.numres)) = .ok [2, 2] := by
  decide +kernel

/-- A precinct of one sample (exponent 0) above the lowest resolution. -/
def exUnit : Enc :=
  { exMixed with
    csty := 1
    tccps := [
      { csty := 1, numres := 2, cblkw := 6, cblkh := 6, qmfbid := 1, prcs := [(4, 4), (0, 4)] ++ List.replicate 31 (0, 0) },
      { csty := 1, numres := 2, cblkw := 6, cblkh := 6, qmfbid := 1, prcs := [(4, 4), (0, 4)] ++ List.replicate 31 (0, 0) }] }

/-- **C52**, the limit on precincts: the encoder writes a precinct width of one sample, the decoder refuses it. -/
theorem C52_unit_precinct_refused :
    (writeHeader exUnit []).map (fun _ => ()) = .ok () ∧
    outcome {} (withTail exUnit (be 2 0xFF90)) (fun _ _ => ()) = .error .refused := by
  decide +kernel

/-- **C53**, the limit of `u.reduce < 64`: asked to discard 64 resolutions or more, a build with overflow checks
panics at the first component of a good header, before it compares the number with what the stream has. -/
theorem C53_reduce_64_panics :
    outcome {} (withTail exMixed (be 2 0xFF90)) (fun _ _ => ()) = .ok () ∧
    outcome { reduce := 63 } (withTail exMixed (be 2 0xFF90)) (fun _ _ => ()) = .error .refused ∧
    outcome { reduce := 64 } (withTail exMixed (be 2 0xFF90)) (fun _ _ => ()) = .error .panic := by
  decide +kernel

/-! ## C55: packed packet headers -/

/-- **C55.** Packed packet headers, spread over `PPM` segments in any way that does not cut a length field, and
arriving in any order, are put together again in the order of their numbers. -/
theorem C55_packed_headers (u : User) (e : Enc) (junk rest : List UInt8) (hw : Writable e) (hsh : SharedStyle e) (hs : Suits u e)
    (L : List (List UInt8)) (segs arr : List (Nat × List (List UInt8)))
    (hnum : segs.Pairwise (fun a b => a.1 < b.1)) (hseg : ∀ s ∈ segs, s.1 < 256 ∧ s.2.flatten.length ≤ 65532 ∧ s.2 ≠ [])
    (hcut : (segs.map (·.2)).flatten = L.flatMap pieces) (htot : 0 < L.flatten.length ∧ L.flatten.length < 2 ^ 32)
    (harr : arr.Perm segs) :
    ∃ h d, writeHeader e junk = .ok h ∧
      readHeader u (h ++ (arr.flatMap fun s => ppmSegment s.1 s.2) ++ be 2 0xFF90 ++ rest) = .ok (d, rest) ∧
      SameHeader e d ∧ d.ppm = true ∧ d.ppmData = L.flatten := by
  obtain ⟨b, n, hb, hc⟩ := header_chunk junk hw hsh hs
  have hwr := hb e.comment
  obtain ⟨n', hc'⟩ : ∃ n', Chunk u Start (b ++ writeComIf e.comment) n' (Stage e true true (RgnRel e.tccps.length)) := by
    cases h : e.comment with
    | none => exact ⟨_, hc.append (Chunk.nil _ _)⟩
    | some c => exact ⟨_, hc.append (chunk_com (hw.comment c h))⟩
  -- the segments
  obtain ⟨A, hA⟩ : ∃ A, A = arr.map fun s => (s.1, s.2.flatten) := ⟨_, rfl⟩
  obtain ⟨S, hS⟩ : ∃ S, S = segs.map fun s => (s.1, s.2.flatten) := ⟨_, rfl⟩
  have hAS : A.Perm S := by rw [hA, hS]; exact harr.map _
  have hnd : (S.map Prod.fst).Nodup := by
    rw [hS, List.map_map]
    exact List.pairwise_map.2 (hnum.imp fun {a b} h => Nat.ne_of_lt h)
  have hndA : (A.map Prod.fst).Nodup := (hAS.map _).nodup_iff.2 hnd
  have hpne : ∀ p ∈ (segs.map (·.2)).flatten, p ≠ [] := by rw [hcut]; exact pieces_ne L
  have hSs : ∀ s ∈ S, s.1 < 256 ∧ s.2 ≠ [] ∧ s.2.length ≤ 65532 ∧ slot [] s.1 = none := by
    intro s hs'
    rw [hS] at hs'
    obtain ⟨x, hx, rfl⟩ := List.mem_map.1 hs'
    obtain ⟨h1, h2, h3⟩ := hseg x hx
    refine ⟨h1, ?_, h2, rfl⟩
    intro hnil
    dsimp only at hnil
    cases hx2 : x.2 with
    | nil => exact h3 hx2
    | cons q qs =>
      have hq : q ≠ [] := hpne q (List.mem_flatten.2 ⟨x.2, List.mem_map.2 ⟨x, hx, rfl⟩, by rw [hx2]; simp⟩)
      rw [hx2, List.flatten_cons, List.append_eq_nil_iff] at hnil
      exact hq hnil.1
  have hpp := chunk_ppms (u := u) (e := e) A false [] (fun s hs' => hSs s (hAS.mem_iff.1 hs')) hndA
  have hbytes : (A.flatMap fun s => seg 0xFF60 (be 1 s.1 ++ s.2)) = arr.flatMap fun s => ppmSegment s.1 s.2 := by
    rw [hA, List.flatMap_map]
    refine congrArg (fun f => arr.flatMap f) (funext fun s => ?_)
    unfold seg segment ppmSegment
    dsimp only
    rw [List.length_append, be_len, show 1 + s.2.flatten.length + 2 = s.2.flatten.length + 3 by omega]
    simp only [List.append_assoc]
  rw [hbytes] at hpp
  have hAne : A.isEmpty = false := by
    cases hAA : A with
    | nil =>
      exfalso
      rw [hAA] at hAS
      have hS0 := hAS.symm.eq_nil
      rw [hS, List.map_eq_nil_iff] at hS0
      rw [hS0] at hcut
      simp only [List.map_nil, List.flatten_nil] at hcut
      cases L with
      | nil => simp at htot
      | cons x L => simp [pieces] at hcut
    | cons a l => rfl
  rw [hAne] at hpp
  have hfull := (hc'.mono (fun _ h => h) (fun d hd => (⟨d, hd, d.buf, by rw [← hd.ppm, ← hd.ppms]⟩ : PpmStage e false [] d))).append hpp
  obtain ⟨d, ⟨d0, hd0, bb, rfl⟩, fuel, hr, _⟩ := readHeader_chunk hfull (be 2 0xFF90 ++ rest) (by rw [List.length_append, be_len]; omega)
  obtain ⟨b', hb'⟩ := resume_sot u fuel { d0 with ppm := false || !false, ppms := A.foldl store [], buf := bb } rest
  obtain ⟨ms', hm1, hm2⟩ := store_sorted segs [] hnum (by simp)
  rw [List.filterMap_nil, List.nil_append] at hm2
  have hms : A.foldl store [] = ms'.map (Option.map List.flatten) := by
    rw [store_perm hAS hndA, hS]; exact hm1
  have hp1 := ppmPass1_cut ms' [] L 0 (by
    rw [hm2]
    intro s hs'
    obtain ⟨x, hx, rfl⟩ := List.mem_map.1 hs'
    exact (hseg x hx).2.2) (by rw [hm2]; simpa using hcut) (by omega)
  rw [← hms, List.length_nil] at hp1
  obtain ⟨out, ho, hlen, hopen⟩ := ppmPass2_of _ [] 0 0 _ _ (0 + L.flatten.length) hp1 rfl (Nat.le_refl _)
  have hout : out = L.flatten := by
    obtain ⟨M, hM, e1, e2⟩ := (hopen [] ⟨[], by simp, Or.inl ⟨rfl, rfl, rfl⟩⟩).close
    have hL : ∀ x ∈ L, x.length < 2 ^ 32 := by
      intro x hx
      have : x.length ≤ L.flatten.length := (List.sublist_flatten_of_mem hx).length_le
      omega
    rw [List.nil_append, hms, filterMap_map_flatten, hm2, hcut, flatten_pieces] at e1
    rw [e2, series_inj L M hL hM e1]
  have hst : Stage e true true (RgnRel e.tccps.length) d0 := hd0
  have hsame := hst.same hw
  refine ⟨_, { d0 with ppm := true, ppms := [], buf := b', ppmData := L.flatten }, hwr, ?_, ?_, rfl, rfl⟩
  · simp only [List.append_assoc] at hr ⊢
    rw [hr, hb', ok_bind]
    dsimp only
    rw [refuse_bind (by rw [hd0.hasSiz]; simp), refuse_bind (by rw [hd0.hasCod]; simp), refuse_bind (by rw [hd0.hasQcd]; simp)]
    unfold mergePpm
    rw [if_neg (by simp)]
    dsimp only
    rw [hp1, ok_bind]
    dsimp only
    rw [refuse_bind (by simp), refuse_bind (by omega), ho, ok_bind, hout]
    rfl
  · exact ⟨hsame.rsiz, hsame.image, hsame.tiles, hsame.comps, hsame.csty, hsame.prg, hsame.layers, hsame.mct, hsame.pocs,
      hsame.tccps, hsame.shift⟩

/-- **C55.** Whatever the segments held, if they are accepted, the result is the data of the series of packet
headers they spell out, and of no others. -/
theorem C55_merge_sound (d d' : Dec) (hp : d.ppm = true) (h : mergePpm d = .ok d') :
    ∃ L : List (List UInt8), (d.ppms.filterMap id).flatten = L.flatMap series ∧ d'.ppmData = L.flatten ∧
      ∀ M : List (List UInt8), (∀ x ∈ M, x.length < 2 ^ 32) → (d.ppms.filterMap id).flatten = M.flatMap series → M = L := by
  rcases (mergePpm_post d).of_ok h with ⟨h0, _⟩ | ⟨out, rfl, L, hL, h1, h2⟩
  · rw [hp] at h0; cases h0
  · exact ⟨L, h1, h2, fun M hM hM' => series_inj M L hM hL (hM'.symm.trans h1)⟩

/-- Two series, one cut in two, in three segments that arrive in another order. -/
example : outcome {} (withTail exMixed
      (([(7, [[8, 7]]), (0, [Cio.toBe 4 1, [5], Cio.toBe 4 3]), (2, [[9]])].flatMap fun s => ppmSegment s.1 s.2) ++ be 2 0xFF90))
      (fun d _ => (d.ppm, d.ppmData)) = .ok (true, [5, 9, 8, 7]) ∧
    [[Cio.toBe 4 1, [5], Cio.toBe 4 3], [[9]], [[8, 7]]].flatten.flatten = [[5], [9, 8, 7]].flatMap series := by
  decide +kernel

/-- **C55**, the limit on cuts: a series whose length is cut by the end of a segment, which Annex A.7.4 does not
rule out, is refused; the same series in one segment is read. -/
theorem C55_cut_length_refused :
    outcome {} (withTail exMixed (ppmSegment 0 [[0, 0], [0, 1, 9]] ++ be 2 0xFF90)) (fun d _ => d.ppmData) = .ok [9] ∧
    outcome {} (withTail exMixed (ppmSegment 0 [[0, 0]] ++ ppmSegment 1 [[0, 1, 9]] ++ be 2 0xFF90)) (fun d _ => d.ppmData) =
      .error .refused := by
  decide +kernel

/-! ## C54: unknown marker segments -/

/-- **C54**, partial: a segment with an unknown marker is skipped if its length and body, read as 16-bit words,
do not look like markers (and the body has an even number of bytes). The full claim, for every body, is false. -/
theorem C54_unknown_skipped_partial (u : User) (hu : u.reduce < 64) (segs : List (Nat × List UInt8)) (m m2 : Nat)
    (body post : List UInt8)
    (hsegs : ∀ s ∈ segs, s.1 < 65536 ∧ 0xFF00 ≤ s.1 ∧ known s.1 = true ∧ s.1 ≠ 0xFF90 ∧ s.2.length + 2 < 65536)
    (hm : m < 65536) (hm1 : 0xFF00 ≤ m) (hk : known m = false) (hb : Quiet body) (hbl : body.length + 2 < 0xFF00)
    (hm2 : m2 < 65536) (h2 : 0xFF00 ≤ m2) (hk2 : known m2 = true) (r : Dec × List UInt8)
    (h : readHeader u (be 2 0xFF4F ++ ((segs.flatMap fun s => segment s.1 s.2) ++ (be 2 m2 ++ post))) = .ok r) :
    readHeader u (be 2 0xFF4F ++ ((segs.flatMap fun s => segment s.1 s.2) ++ (segment m body ++ (be 2 m2 ++ post)))) = .ok r := by
  have hl2 := be_len 2 m2
  have hlm := be_len 2 m
  have hlb := be_len 2 (body.length + 2)
  obtain ⟨B, hB⟩ : ∃ B, B = segs.flatMap fun s => segment s.1 s.2 := ⟨_, rfl⟩
  have hBl : 4 * segs.length ≤ B.length := by rw [hB]; exact segs_len segs
  have e1 : (B ++ (be 2 m2 ++ post)).length = B.length + 2 + post.length := by simp only [List.length_append]; omega
  have e2 : (B ++ (segment m body ++ (be 2 m2 ++ post))).length = B.length + 6 + body.length + post.length := by
    unfold segment; simp only [List.length_append]; omega
  rw [← hB] at h ⊢
  rw [readHeader_resume (by omega), e1] at h
  rw [readHeader_resume (by omega), e2]
  have run := run_known hu segs {} ⟨by show 1000 ≤ (List.replicate 1000 (0 : UInt8)).length; rw [List.length_replicate], fun _ => ⟨rfl, rfl, rfl, rfl⟩, (fun h => nomatch h), (fun h => nomatch h)⟩ hsegs
  rw [← hB] at run
  rw [show B.length + 2 + post.length - 2 + 1 = (B.length + post.length + 1 - segs.length) + segs.length by omega] at h
  rw [show B.length + 6 + body.length + post.length - 2 + 1 =
    (B.length + 4 + body.length + post.length + 1 - segs.length) + segs.length by omega]
  rcases run with ⟨d', hd', hrun⟩ | ⟨e, hrun⟩
  · rw [hrun] at h ⊢
    have ha : allowed d'.siz m2 = true := by
      obtain ⟨r1, h1, hfin⟩ := bind_ok h
      obtain ⟨f, hf⟩ : ∃ f, B.length + post.length + 1 - segs.length = f + 1 := ⟨B.length + post.length - segs.length, by omega⟩
      rw [hf] at h1
      unfold resume at h1
      rw [load_eq hl2, ok_bind] at h1
      dsimp only at h1
      rw [next_be _ (by omega) (by omega), ok_bind] at h1
      dsimp only at h1
      by_cases h9 : m2 = 0xFF90
      · rw [readMarkers, if_pos h9] at h1
        injection h1 with h1
        subst h1
        unfold finish at hfin
        obtain ⟨_, hs, _⟩ := bind_ok hfin
        dsimp only at hs
        have hsz : d'.siz = true := by
          cases hz : d'.siz with
          | true => rfl
          | false =>
            rw [(hd'.start hz).2.1] at hs
            cases hs
        rw [hsz, h9]; decide
      · rw [readMarkers_known h9 h2 hk2] at h1
        unfold readSegment at h1
        dsimp only at h1
        obtain ⟨_, hseg, _⟩ := bind_ok h1
        obtain ⟨_, hal, _⟩ := bind_ok hseg
        cases hz : allowed d'.siz m2 with
        | true => rfl
        | false => rw [hz] at hal; cases hal
    rw [resume_unknown hm hm1 hk hb hbl hm2 hk2 h2 ha (by omega),
      resume_fuel (g := B.length + post.length + 1 - segs.length) (by rw [List.length_append]; omega) (by rw [List.length_append]; omega)]
    exact h
  · rw [hrun] at h
    cases h

/-- The hypotheses are met by a header with a segment of an unknown kind, and it is skipped. -/
example : Quiet [0, 255, 1, 2] ∧ known 0xFF30 = false ∧
    outcome {} (withTail exMixed (segment 0xFF30 [0, 255, 1, 2] ++ be 2 0xFF90 ++ [7])) (fun d rest => ({ d with buf := [] }, rest)) =
    outcome {} (withTail exMixed (be 2 0xFF90 ++ [7])) (fun d rest => ({ d with buf := [] }, rest)) ∧
    outcome {} (withTail exMixed (be 2 0xFF90 ++ [7])) (fun _ rest => rest) = .ok [7] := by
  refine ⟨⟨by decide, by decide, trivial⟩, ?_⟩
  decide +kernel

/-- **C54** is false of a body with an odd number of bytes: the header is refused. -/
theorem C54_odd_body_refused :
    outcome {} (withTail exMixed (be 2 0xFF90 ++ [7])) (fun _ rest => rest) = .ok [7] ∧
    outcome {} (withTail exMixed (segment 0xFF30 [0] ++ be 2 0xFF90 ++ [7])) (fun _ rest => rest) = .error .refused := by
  decide +kernel

/-- **C54** is false of a body with a word that looks like a marker: the header ends inside the segment. -/
theorem C54_marker_in_body_taken :
    outcome {} (withTail exMixed (segment 0xFF30 [0xFF, 0x90] ++ be 2 0xFF64 ++ [0, 4, 0, 0] ++ be 2 0xFF90 ++ [7]))
      (fun _ rest => rest) = .ok [0xFF, 0x64, 0, 4, 0, 0, 0xFF, 0x90, 7] := by
  decide +kernel

end Jp2.Hdr

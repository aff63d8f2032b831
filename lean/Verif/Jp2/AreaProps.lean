import Verif.Jp2.AreaMain
/-!
# C69: decoding an area
-/
namespace Jp2.Area
open Jp2.Hdr (R Fail refuseIf)
open Jp2.Tcd (cdiv CompFit CompP tileRectOf)

/-- Area inside the image, from `setArea`. -/
theorem area_in {d : Dec} (hk : Known d) {cs : List Comp} {sx sy ex ey : Int} (i1 : I32 sx) (i2 : I32 sy) (i3 : I32 ex) (i4 : I32 ey)
    {w : Tp.Window} {b : Box} {cs' : List Comp} (h : setArea d cs sx sy ex ey = .ok (w, b, cs')) :
    d.p.x0 ≤ b.x0 ∧ b.x1 ≤ d.p.x1 ∧ d.p.y0 ≤ b.y0 ∧ b.y1 ≤ d.p.y1 := by
  obtain ⟨-, -, h3⟩ := setArea_inv hk i1 i2 i3 i4 h
  split at h3
  · rw [h3.1]; exact ⟨le_rfl, le_rfl, le_rfl, le_rfl⟩
  · omega

/-- **C69.** Setting the area: it is refused unless each of its sides is where it should be (the left and upper side neither negative
nor beyond the image, the right and lower side positive and not before the image). If it is accepted, the area is the part of
what was asked for that lies in the image (four zeros ask for all of it), each component gets as many samples as lie in the
area at the resolution asked for, and samples of an earlier image are not touched. Nothing else can happen. -/
theorem C69_area_set (d : Dec) (hk : Known d) (cs : List Comp) (hf : Fresh d cs) (sx sy ex ey : Int) (i1 : I32 sx) (i2 : I32 sy) (i3 : I32 ex)
    (i4 : I32 ey) :
    (∃ w b cs', setArea d cs sx sy ex ey = .ok (w, b, cs') ∧
      (if sx = 0 ∧ sy = 0 ∧ ex = 0 ∧ ey = 0 then b = ⟨d.p.x0, d.p.y0, d.p.x1, d.p.y1⟩ else
        (0 ≤ sx ∧ sx ≤ d.p.x1) ∧ (0 ≤ sy ∧ sy ≤ d.p.y1) ∧ (0 < ex ∧ d.p.x0 ≤ ex) ∧ (0 < ey ∧ d.p.y0 ≤ ey) ∧
        (b.x0 : Int) = max sx d.p.x0 ∧ (b.y0 : Int) = max sy d.p.y0 ∧ (b.x1 : Int) = min ex d.p.x1 ∧ (b.y1 : Int) = min ey d.p.y1) ∧
      cs'.length = cs.length ∧ ∀ (i : Nat) (c : CompP) (c' : Comp), d.p.comps[i]? = some c → cs'[i]? = some c' →
        c'.dx = c.dx ∧ c'.dy = c.dy ∧ c'.data = none ∧
        ∃ a e, Covers a c'.w b.x0 b.x1 (c.dx * 2 ^ d.reduce) ∧ Covers e c'.h b.y0 b.y1 (c.dy * 2 ^ d.reduce)) ∨
    (setArea d cs sx sy ex ey = .error .refused ∧ ¬ (sx = 0 ∧ sy = 0 ∧ ex = 0 ∧ ey = 0) ∧
      ¬ ((0 ≤ sx ∧ sx ≤ d.p.x1) ∧ (0 ≤ sy ∧ sy ≤ d.p.y1) ∧ (0 < ex ∧ d.p.x0 ≤ ex) ∧ (0 < ey ∧ d.p.y0 ≤ ey) ∧ sx ≤ ex ∧ sy ≤ ey)) := by
  obtain ⟨p1, p2, p3, p4, p5, p6⟩ := hk.pos
  have gx := hk.grid.x
  have gy := hk.grid.y
  have sm1 := hk.small.x1
  have sm2 := hk.small.y1
  -- what is left once it is known that the call succeeds
  have done : ∀ w b cs', setArea d cs sx sy ex ey = .ok (w, b, cs') → ∃ w b cs', setArea d cs sx sy ex ey = .ok (w, b, cs') ∧
      (if sx = 0 ∧ sy = 0 ∧ ex = 0 ∧ ey = 0 then b = ⟨d.p.x0, d.p.y0, d.p.x1, d.p.y1⟩ else
        (0 ≤ sx ∧ sx ≤ d.p.x1) ∧ (0 ≤ sy ∧ sy ≤ d.p.y1) ∧ (0 < ex ∧ d.p.x0 ≤ ex) ∧ (0 < ey ∧ d.p.y0 ≤ ey) ∧
        (b.x0 : Int) = max sx d.p.x0 ∧ (b.y0 : Int) = max sy d.p.y0 ∧ (b.x1 : Int) = min ex d.p.x1 ∧ (b.y1 : Int) = min ey d.p.y1) ∧
      cs'.length = cs.length ∧ ∀ (i : Nat) (c : CompP) (c' : Comp), d.p.comps[i]? = some c → cs'[i]? = some c' →
        c'.dx = c.dx ∧ c'.dy = c.dy ∧ c'.data = none ∧
        ∃ a e, Covers a c'.w b.x0 b.x1 (c.dx * 2 ^ d.reduce) ∧ Covers e c'.h b.y0 b.y1 (c.dy * 2 ^ d.reduce) := by
    intro w b cs' h
    obtain ⟨-, h2, h3⟩ := setArea_inv hk i1 i2 i3 i4 h
    obtain ⟨h4, h5⟩ := allDims_ok hk hf h2
    refine ⟨w, b, cs', h, ?_, h4, ?_⟩
    · split
      · rename_i hz; rw [if_pos hz] at h3; exact h3.1
      · rename_i hz; rw [if_neg hz] at h3; exact h3
    · intro i c c' hc hc'
      obtain ⟨k1, k2, k3, X0, Y0, k4⟩ := h5 i c c' hc hc'
      obtain ⟨cf, -⟩ := hk.comp (List.mem_of_getElem? hc)
      obtain ⟨m1, m2⟩ := k4.covers (by rw [k1]; exact cf.dx.1) (by rw [k2]; exact cf.dy.1)
      rw [k1] at m1
      rw [k2] at m2
      exact ⟨k1, k2, k3, X0, Y0, m1, m2⟩
  -- the sizes of the components
  have sizes : ∀ b : Box, (b.x0 < 2 ^ 31 ∧ b.y0 < 2 ^ 31 ∧ b.x1 < 2 ^ 31 ∧ b.y1 < 2 ^ 31) →
      (∃ cs', allDims b (cs.map fun c => { c with factor := d.reduce }) = .ok cs') ∨
      (allDims b (cs.map fun c => { c with factor := d.reduce }) = .error .refused ∧ ¬ (b.x0 ≤ b.x1 ∧ b.y0 ≤ b.y1)) := by
    intro b hb
    have each : ∀ c ∈ cs.map (fun c => { c with factor := d.reduce }), ((∃ c', dims b c = .ok c') ∨ dims b c = .error .refused) ∧
        (b.x0 ≤ b.x1 ∧ b.y0 ≤ b.y1 → ∃ c', dims b c = .ok c') := by
      intro c hc
      obtain ⟨c0, h0, rfl⟩ := List.mem_map.1 hc
      obtain ⟨i, hi⟩ := mem_getE h0
      obtain ⟨q, hq⟩ := getE' hf.len hi
      obtain ⟨e1, e2⟩ := hf.step i q c0 hq hi
      obtain ⟨cf, hr⟩ := hk.comp (List.mem_of_getElem? hq)
      have f1 := cf.dx
      have f2 := cf.dy
      rw [← e1] at f1
      rw [← e2] at f2
      rcases dims_cases (b := b) (c := { c0 with factor := d.reduce }) f1 f2 hr hb with ⟨h1, -⟩ | ⟨h1, h2⟩
      · exact ⟨Or.inl h1, fun _ => h1⟩
      · refine ⟨Or.inr h1, fun hh => absurd ?_ h2⟩
        have hp := Tcd.p2pos d.reduce
        exact ⟨Tcd.cdiv_mono hp (Tcd.cdiv_mono (by simp only; omega) (by omega)), Tcd.cdiv_mono hp (Tcd.cdiv_mono (by simp only; omega) (by omega))⟩
    by_cases hle : b.x0 ≤ b.x1 ∧ b.y0 ≤ b.y1
    · exact Or.inl (mapM_fwd _ fun c hc => (each c hc).2 hle)
    · rcases mapM_fail (f := dims b) _ fun c hc => (each c hc).1 with h | h
      · exact Or.inl h
      · exact Or.inr ⟨h, hle⟩
  by_cases hz : sx = 0 ∧ sy = 0 ∧ ex = 0 ∧ ey = 0
  · left
    rcases sizes ⟨d.p.x0, d.p.y0, d.p.x1, d.p.y1⟩ ⟨by simp only; omega, by simp only; omega, by simp only; omega, by simp only; omega⟩ with ⟨cs', h⟩ | ⟨-, h⟩
    · refine done ⟨0, d.p.tw, 0, d.th⟩ ⟨d.p.x0, d.p.y0, d.p.x1, d.p.y1⟩ cs' ?_
      unfold setArea
      simp only
      rw [if_pos hz, h]
      rfl
    · simp only at h
      omega
  · rcases areaStart_cases (s := sx) (i0 := d.p.x0) (i1 := d.p.x1) (g := d.p.cpTx0) (td := d.p.tdx) i1.2 gx.1 gx.2.1 gx.2.2 with ⟨a1, a2, k1, v1, a3, a4, a5⟩ | ⟨a0, a⟩
    swap
    · right
      unfold setArea
      simp only
      rw [if_neg hz, a]
      exact ⟨rfl, hz, by tauto⟩
    rcases areaStart_cases (s := sy) (i0 := d.p.y0) (i1 := d.p.y1) (g := d.p.cpTy0) (td := d.p.tdy) i2.2 gy.1 gy.2.1 gy.2.2 with ⟨b1, b2, k2, v2, b3, b4, b5⟩ | ⟨a0, a⟩
    swap
    · right
      unfold setArea
      simp only
      rw [if_neg hz, a3, a]
      exact ⟨rfl, hz, by tauto⟩
    rcases areaEnd_cases (e := ex) (i0 := d.p.x0) (i1 := d.p.x1) (g := d.p.cpTx0) (td := d.p.tdx) (t := d.p.tw) i3.2 gx.1 gx.2.1 gx.2.2 (by omega) p5 hk.grid.tw with ⟨c1, c2, k3, v3, c3, c4, c5⟩ | ⟨a0, a⟩
    swap
    · right
      unfold setArea
      simp only
      rw [if_neg hz, a3, b3, a]
      exact ⟨rfl, hz, by tauto⟩
    rcases areaEnd_cases (e := ey) (i0 := d.p.y0) (i1 := d.p.y1) (g := d.p.cpTy0) (td := d.p.tdy) (t := d.th) i4.2 gy.1 gy.2.1 gy.2.2 (by omega) p6 hk.grid.th with ⟨d1, d2, k4, v4, d3, d4, d5⟩ | ⟨a0, a⟩
    swap
    · right
      unfold setArea
      simp only
      rw [if_neg hz, a3, b3, c3, a]
      exact ⟨rfl, hz, by tauto⟩
    rcases sizes ⟨v1, v2, v3, v4⟩ ⟨by simp only; omega, by simp only; omega, by simp only; omega, by simp only; omega⟩ with ⟨cs', h⟩ | ⟨h, h'⟩
    · left
      refine done ⟨k1, k3, k2, k4⟩ ⟨v1, v2, v3, v4⟩ cs' ?_
      unfold setArea
      simp only
      rw [if_neg hz, a3, b3, c3, d3]
      simp only [ok_bind]
      rw [h]
      rfl
    · right
      refine ⟨?_, hz, ?_⟩
      · unfold setArea
        simp only
        rw [if_neg hz, a3, b3, c3, d3]
        simp only [ok_bind]
        rw [h]
        rfl
      · simp only at h'
        omega

/-- **C69.** The tiles that are decoded for an area are those that have a point of it. -/
theorem C69_tiles_needed (d : Dec) (hk : Known d) (cs : List Comp) (sx sy ex ey : Int) (i1 : I32 sx) (i2 : I32 sy) (i3 : I32 ex) (i4 : I32 ey)
    (w : Tp.Window) (b : Box) (cs' : List Comp) (h : setArea d cs sx sy ex ey = .ok (w, b, cs')) (hx : b.x0 < b.x1) (hy : b.y0 < b.y1)
    (n : Nat) (hn : n < d.p.tw * d.th) :
    Tp.wanted d.p.tw (some w) n = true ↔ ∃ x y, InTile d.p n x y ∧ b.has x y := by
  obtain ⟨q1, q2, q3, q4⟩ := area_in hk i1 i2 i3 i4 h
  exact needed hk (setArea_inv hk i1 i2 i3 i4 h).1 ⟨q1, hx, q2⟩ ⟨q3, hy, q4⟩ hn

/-- The components of the image, ready to be filled. -/
theorem ready_of {d : Dec} (hk : Known d) {cs : List Comp} (hf : Fresh d cs) {b : Box} {cs' : List Comp} {used : Nat → Bool}
    (h : allDims b (cs.map fun c => { c with factor := d.reduce }) = .ok cs')
    (hs : ∀ (i : Nat) (c : CompP), d.p.comps[i]? = some c → used i = true → HasSample b c.dx c.dy d.reduce) : Ready d b used cs' := by
  obtain ⟨h1, h2⟩ := allDims_ok hk hf h
  have hl : cs'.length = d.p.comps.length := h1.trans hf.len
  refine ⟨hl, fun i c c0 hc h0 => ?_, fun i c0 h0 hu => ?_, fun i c0 h0 => ?_⟩
  · obtain ⟨k1, k2, -, -⟩ := h2 i c c0 hc h0
    exact ⟨k1, k2⟩
  · obtain ⟨c, hc⟩ := getE' hl h0
    obtain ⟨k1, k2, -, X0, Y0, k3⟩ := h2 i c c0 hc h0
    obtain ⟨cf, -⟩ := hk.comp (List.mem_of_getElem? hc)
    have hsm := hs i c hc hu
    rw [← k1, ← k2] at hsm
    obtain ⟨w1, w2⟩ := k3.pos (by rw [k1]; exact cf.dx.1) (by rw [k2]; exact cf.dy.1) hsm
    exact ⟨w1, w2, X0, Y0, k3⟩
  · obtain ⟨c, hc⟩ := getE' hl h0
    exact (h2 i c c0 hc h0).2.2.1

theorem used_some {d : Dec} (hk : Known d) {sel : List Nat} (hs : ∀ i ∈ sel, i < d.p.comps.length) :
    ∃ i c, d.p.comps[i]? = some c ∧ usedBy sel i = true := by
  obtain ⟨p1, p2, -⟩ := hk.pos
  have hne := (hk.fit 0 (Nat.mul_pos p1 p2)).ne
  rcases sel with _ | ⟨i, sel⟩
  · obtain ⟨c, hc⟩ := getE (l := d.p.comps) (i := 0) rfl (List.length_pos_iff.2 hne)
    exact ⟨0, c, hc, rfl⟩
  · obtain ⟨c, hc⟩ := getE (l := d.p.comps) (i := i) rfl (hs i (by simp))
    exact ⟨i, c, hc, by unfold usedBy; simp⟩

/-- **C69.** Decoding an area gives exactly its samples, if each tile gives its own: the planes `Q n` made of the data of tile `n` are
those of the image where the tile is. The rest is as in `C69_exact`. -/
theorem C69_exact_tiles (d : Dec) (hk : Known d) (cs : List Comp) (hf : Fresh d cs) (sx sy ex ey : Int) (i1 : I32 sx) (i2 : I32 sy) (i3 : I32 ex)
    (i4 : I32 ey) (w : Tp.Window) (b : Box) (cs' : List Comp) (h : setArea d cs sx sy ex ey = .ok (w, b, cs'))
    (sel : List Nat) (hsel : setComponents d.p.comps.length [] sel = .ok ()) (P : Nat → Int → Int → Int)
    (Q : Nat → Nat → Int → Int → Int) (kept : Nat → Nat → List Int)
    (tiles : List Nat) (htiles : ∀ n, n ∈ tiles ↔ n < d.p.tw * d.th ∧ Tp.wanted d.p.tw (some w) n = true)
    (hQ : ∀ n ∈ tiles, Agrees d.p d.reduce P (Q n) n)
    (hs : ∀ (i : Nat) (c : CompP), d.p.comps[i]? = some c → (sel = [] ∨ i ∈ sel) → HasSample b c.dx c.dy d.reduce) :
    ∃ out, decodeBy d b sel Q kept tiles cs' = .ok out ∧ out.length = (if sel = [] then d.p.comps.length else sel.length) ∧
      ∀ (k : Nat) (c : Comp), out[k]? = some c → ∃ i q, asked sel k = some i ∧ d.p.comps[i]? = some q ∧ c.dx = q.dx ∧ c.dy = q.dy ∧
        Holds (P i) b q.dx q.dy d.reduce c := by
  have hs' : ∀ (i : Nat) (c : CompP), d.p.comps[i]? = some c → usedBy sel i = true → HasSample b c.dx c.dy d.reduce := by
    intro i c hc hu
    refine hs i c hc ?_
    unfold usedBy at hu
    simpa using hu
  have hselr : ∀ i ∈ sel, i < d.p.comps.length := by
    have : ∀ (l seen : List Nat), setComponents d.p.comps.length seen l = .ok () → ∀ i ∈ l, i < d.p.comps.length := by
      intro l
      induction l with
      | nil => simp
      | cons a l ih =>
        intro seen h i hi
        unfold setComponents at h
        obtain ⟨u, h1, h⟩ := Hdr.bind_ok h
        obtain ⟨u', h2, h⟩ := Hdr.bind_ok h
        have := refuse_inv h1
        rcases List.mem_cons.1 hi with rfl | hi
        · omega
        · exact ih _ h i hi
    exact this sel [] hsel
  obtain ⟨hw, hd, -⟩ := setArea_inv hk i1 i2 i3 i4 h
  obtain ⟨q1, q2, q3, q4⟩ := area_in hk i1 i2 i3 i4 h
  have hR := ready_of hk hf hd hs'
  have sm1 := hk.small.x1
  have sm2 := hk.small.y1
  obtain ⟨iu, cu, hcu, huu⟩ := used_some hk hselr
  obtain ⟨⟨u, hu⟩, v, hv⟩ := hs' iu cu hcu huu
  have bx : b.x0 < b.x1 := by omega
  have by' : b.y0 < b.y1 := by omega
  have hneed := fun n (hn : n < d.p.tw * d.th) => needed hk hw ⟨q1, bx, q2⟩ ⟨q3, by', q4⟩ (n := n) hn
  have hb : b.x0 ≤ b.x1 ∧ b.x1 < 2 ^ 31 ∧ b.y0 ≤ b.y1 ∧ b.y1 < 2 ^ 31 := by omega
  -- enough: each used component is complete, the others are empty
  suffices hsuf : ∃ cs2, decodeTiles d b (usedBy sel) Q kept tiles cs' = .ok cs2 ∧ cs2.length = cs'.length ∧
      (∀ (i : Nat) (c : Comp), cs2[i]? = some c → usedBy sel i = false → c.data = none) ∧
      ∀ (i : Nat) (q : CompP) (c : Comp), d.p.comps[i]? = some q → cs2[i]? = some c → usedBy sel i = true →
        c.dx = q.dx ∧ c.dy = q.dy ∧ Holds (P i) b q.dx q.dy d.reduce c by
    obtain ⟨cs2, h1, h2, h3, h4⟩ := hsuf
    obtain ⟨out, o1, o2, o3⟩ := handOver_ok (sel := sel) (cs := cs2) (by rw [h2, hR.len]; exact hselr) h3
    refine ⟨out, ?_, by rw [o2, h2, hR.len], ?_⟩
    · unfold decodeBy
      rw [h1, ok_bind, o1]
    · intro k c hc
      obtain ⟨i, a1, a2, a3⟩ := o3 k c hc
      obtain ⟨q, hq⟩ := getE' (h2.trans hR.len) a3
      obtain ⟨e1, e2, e3⟩ := h4 i q c hq a3 a2
      exact ⟨i, q, a1, hq, e1, e2, e3⟩
  unfold decodeTiles
  by_cases hsg : single d b = true
  · rw [if_pos hsg]
    obtain ⟨hT, t1, t2⟩ := single_inv hk hsg ⟨q1, q2⟩ ⟨q3, q4⟩
    have h0 : (0 : Nat) < d.p.tw * d.th := by rw [t1, t2]; omega
    have hin : InTile d.p 0 b.x0 b.y0 := by
      rw [← tileRect_has, hT]
      exact ⟨le_rfl, by simp only; omega, le_rfl, by simp only; omega⟩
    have hbh : b.has b.x0 b.y0 := ⟨⟨le_rfl, bx⟩, le_rfl, by'⟩
    have hmem : (0 : Nat) ∈ tiles := (htiles 0).2 ⟨h0, (hneed 0 h0).2 ⟨_, _, hin, hbh⟩⟩
    have hall : ∀ n ∈ tiles, n = 0 := by
      intro n hn
      have := ((htiles n).1 hn).1
      rw [t1, t2] at this
      omega
    rcases tiles with _ | ⟨n, ns⟩
    · simp at hmem
    have en := hall n (by simp)
    subst en
    obtain ⟨hfit, T, hTT⟩ := inTile_ready hk h0 hin
    obtain ⟨ss, s1, s2, s3'⟩ := decodeTile_ok (used := usedBy sel) (P := Q 0) (kept := kept 0) hfit hk.red hTT (inTile_meets hin hbh) hb
    have s3 : ∀ i c s, d.p.comps[i]? = some c → ss[i]? = some s → Right d b (usedBy sel) P 0 i c s :=
      fun i c s hc hs => (s3' i c s hc hs).agree (hQ 0 (by simp)) hc
    simp only
    rw [s1, ok_bind]
    refine ⟨_, rfl, ?_, ?_, ?_⟩
    · rw [List.length_map, List.length_zip, hR.len, s2, Nat.min_self]
    · intro i c hc hu
      rw [List.getElem?_map, Option.map_eq_some_iff] at hc
      obtain ⟨⟨c0, s⟩, hz, rfl⟩ := hc
      rw [List.getElem?_zip_eq_some] at hz
      obtain ⟨q, hq⟩ := getE' hR.len hz.1
      exact (s3 i q s hq hz.2).no hu
    · intro i q c hq hc hu
      rw [List.getElem?_map, Option.map_eq_some_iff] at hc
      obtain ⟨⟨c0, s⟩, hz, rfl⟩ := hc
      rw [List.getElem?_zip_eq_some] at hz
      simp only at hz
      obtain ⟨w1, w2, X0, Y0, hD⟩ := hR.dest i c0 hz.1 hu
      obtain ⟨e1, e2⟩ := hR.step i q c0 hq hz.1
      obtain ⟨cf, -⟩ := hk.comp (List.mem_of_getElem? hq)
      have f1 : 0 < c0.dx := by rw [e1]; exact cf.dx.1
      have f2 : 0 < c0.dy := by rw [e2]; exact cf.dy.1
      have hr := s3 i q s hq hz.2
      have er := exact_rect hr hu hT e1 e2 hD f1 f2 ⟨w1, w2⟩
      have hdel := (hr.yes hu).1 c0 e1 e2 X0 Y0 hD
      obtain ⟨kp, hkp⟩ := hdel.data
      refine ⟨e1, e2, ?_⟩
      rw [← e1, ← e2]
      refine filled_holds (S := s.rect.has) (X0 := X0) (Y0 := Y0) hD f1 f2 ⟨w1, w2⟩ rfl ?_ ?_
      · have ew : (s.rect.x1 - s.rect.x0).toNat = c0.w := by rw [er]; simp only; omega
        have eh : (s.rect.y1 - s.rect.y0).toNat = c0.h := by rw [er]; simp only; omega
        have ex0 : s.rect.x0 = X0 := by rw [er]
        have ey0 : s.rect.y0 = Y0 := by rw [er]
        refine ⟨?_, ?_⟩
        · intro dst hdst
          obtain ⟨l, vv⟩ := buffer_get (hkp.symm.trans hdst)
          rw [ew, eh] at l vv
          rw [ex0, ey0] at vv
          refine ⟨by simp only; rw [Nat.mul_comm]; exact l, ?_⟩
          intro a e ha he _
          exact vv e a he ha
        · intro a e ha he hhas hnone
          exact buffer_none (hkp.symm.trans hnone) _ _ hhas
      · intro u v hu' hv'
        obtain ⟨c1, c2⟩ := hD.covers f1 f2
        have g1 := (c1 u).2 hu'
        have g2 := (c2 v).2 hv'
        rw [er]
        exact ⟨by simp only; omega, by simp only; omega, by simp only; omega, by simp only; omega⟩
  · rw [if_neg hsg]
    obtain ⟨cs2, l1, l2⟩ := tilesLoop_ok (P := P) (Q := Q) (kept := kept) hR hk.red hb tiles 0 cs' _ (by
      intro n hn
      obtain ⟨n1, n2⟩ := (htiles n).1 hn
      obtain ⟨x, y, hin, hbh⟩ := (hneed n n1).1 n2
      obtain ⟨g1, g2⟩ := inTile_ready hk n1 hin
      exact ⟨g1, g2, inTile_meets hin hbh, hQ n hn⟩) (hR.start (P := P))
    have hcomp : ∀ (i : Nat) (q : CompP) (c : Comp), d.p.comps[i]? = some q → cs2[i]? = some c → usedBy sel i = true →
        c.dx = q.dx ∧ c.dy = q.dy ∧ Holds (P i) b q.dx q.dy d.reduce c := by
      intro i q c hq hc hu
      obtain ⟨c0, h0⟩ := getE' l2.len hc
      obtain ⟨w1, w2, X0, Y0, hD⟩ := hR.dest i c0 h0 hu
      obtain ⟨e1, e2⟩ := hR.step i q c0 hq h0
      obtain ⟨cf, -⟩ := hk.comp (List.mem_of_getElem? hq)
      have f1 : 0 < c0.dx := by rw [e1]; exact cf.dx.1
      have f2 : 0 < c0.dy := by rw [e2]; exact cf.dy.1
      have hsame := l2.same i c0 c h0 hc
      refine ⟨by rw [hsame]; exact e1, by rw [hsame]; exact e2, ?_⟩
      rw [← e1, ← e2]
      refine filled_holds hD f1 f2 ⟨w1, w2⟩ hsame (l2.yes i c0 c h0 hc hu X0 Y0 hD) ?_
      intro u v hu' hv'
      right
      obtain ⟨n, n1, n2⟩ := point_tile hk (x := u * (c0.dx * 2 ^ d.reduce)) (y := v * (c0.dy * 2 ^ d.reduce)) ⟨by omega, by omega⟩ ⟨by omega, by omega⟩
      refine ⟨n, (htiles n).2 ⟨n1, (hneed n n1).2 ⟨_, _, n2, ⟨hu', hv'⟩⟩⟩, q, hq, ?_⟩
      rw [e1] at hu' n2
      rw [e2] at hv' n2
      unfold Here
      have g1 : (u : Int) * 2 ^ d.reduce * q.dx = ((u * (q.dx * 2 ^ d.reduce) : Nat) : Int) := by push_cast; ring
      have g2 : (v : Int) * 2 ^ d.reduce * q.dy = ((v * (q.dy * 2 ^ d.reduce) : Nat) : Int) := by push_cast; ring
      rw [g1, g2]
      refine ⟨tileRect_has.2 n2, ?_, ?_⟩ <;> omega
    rw [l1, ok_bind, Hdr.refuse_bind]
    · exact ⟨cs2, rfl, l2.len, fun i c hc hu => l2.no i c hc hu, hcomp⟩
    · rw [allDecoded_ok cs2 0]
      · simp
      · intro i c hc hu
        rw [Nat.zero_add] at hu
        obtain ⟨q, hq⟩ := getE' (l2.len.trans hR.len) hc
        obtain ⟨-, -, a, e, buf, hbuf, -⟩ := hcomp i q c hq hc hu
        rw [hbuf]; simp

/-- **C69.** Decoding an area gives exactly its samples. After an area was set, and with any choice of components, decoding a
codestream that has all the tiles (in any order, whatever buffers kept from tile to tile hold) succeeds, and hands over the
components asked for in the order asked; each has one sample for each of its positions in the area, and it is the sample of the full
image at that position. -/
theorem C69_exact (d : Dec) (hk : Known d) (cs : List Comp) (hf : Fresh d cs) (sx sy ex ey : Int) (i1 : I32 sx) (i2 : I32 sy) (i3 : I32 ex)
    (i4 : I32 ey) (w : Tp.Window) (b : Box) (cs' : List Comp) (h : setArea d cs sx sy ex ey = .ok (w, b, cs'))
    (sel : List Nat) (hsel : setComponents d.p.comps.length [] sel = .ok ()) (P : Nat → Int → Int → Int) (kept : Nat → Nat → List Int)
    (tiles : List Nat) (htiles : ∀ n, n ∈ tiles ↔ n < d.p.tw * d.th ∧ Tp.wanted d.p.tw (some w) n = true)
    (hs : ∀ (i : Nat) (c : CompP), d.p.comps[i]? = some c → (sel = [] ∨ i ∈ sel) → HasSample b c.dx c.dy d.reduce) :
    ∃ out, decode d b sel P kept tiles cs' = .ok out ∧ out.length = (if sel = [] then d.p.comps.length else sel.length) ∧
      ∀ (k : Nat) (c : Comp), out[k]? = some c → ∃ i q, asked sel k = some i ∧ d.p.comps[i]? = some q ∧ c.dx = q.dx ∧ c.dy = q.dy ∧
        Holds (P i) b q.dx q.dy d.reduce c := by
  exact C69_exact_tiles d hk cs hf sx sy ex ey i1 i2 i3 i4 w b cs' h sel hsel P (fun _ => P) kept tiles htiles (fun _ _ _ _ _ _ _ _ => rfl) hs

/-- **C69.** A choice of components is accepted exactly if it names existing components, each once. -/
theorem C69_components (n : Nat) (sel : List Nat) :
    setComponents n [] sel = (if sel.Nodup ∧ ∀ i ∈ sel, i < n then .ok () else .error .refused) := by
  have : ∀ (l seen : List Nat), setComponents n seen l = (if l.Nodup ∧ (∀ i ∈ l, i < n ∧ i ∉ seen) then .ok () else .error .refused) := by
    intro l
    induction l with
    | nil => intro seen; rw [if_pos (by simp)]; rfl
    | cons a l ih =>
      intro seen
      unfold setComponents
      rcases refuse_cases (n ≤ a) with ⟨h1, h2⟩ | ⟨h1, h2⟩
      · rw [h2, if_neg]
        · rfl
        · rintro ⟨-, h⟩
          have := (h a (by simp)).1
          omega
      rcases refuse_cases (a ∈ seen) with ⟨h3, h4⟩ | ⟨h3, h4⟩
      · rw [h2, ok_bind, h4, if_neg]
        · rfl
        · rintro ⟨-, h⟩
          exact (h a (by simp)).2 h3
      · rw [h2, ok_bind, h4, ok_bind, ih]
        congr 1
        simp only [List.nodup_cons, List.mem_cons, eq_iff_iff]
        constructor
        · rintro ⟨k1, k2⟩
          refine ⟨⟨fun hm => (k2 a hm).2 (Or.inl rfl), k1⟩, ?_⟩
          rintro i (rfl | hi)
          · exact ⟨by omega, h3⟩
          · exact ⟨(k2 i hi).1, fun hh => (k2 i hi).2 (Or.inr hh)⟩
        · rintro ⟨⟨k1, k2⟩, k3⟩
          refine ⟨k2, fun i hi => ⟨(k3 i (Or.inr hi)).1, ?_⟩⟩
          rintro (rfl | hh)
          · exact k1 hi
          · exact (k3 i (Or.inr hi)).2 hh
  rw [this]
  simp

end Jp2.Area

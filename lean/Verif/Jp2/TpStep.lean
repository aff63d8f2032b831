import Verif.Jp2.TpParts
/-!
# From one tile-part to the next
-/
namespace Jp2.Tp
open Jp2.Hdr (R User refuseIf be ok_bind refuse_bind next_be be_len)

theorem TIs.other {all done : List Part} {E : List Nat} {want : Nat → Bool} {f g : Nat → Par} {i : Nat} {t : Tile} {p : Part}
    (h : TIs all done E want f i t) (hi : i ≠ p.tile) (hg : g i = f i) : TIs all (done ++ [p]) E want g i t := by
  have hc : cnt (done ++ [p]) i = cnt done i := by rw [cnt_append, cnt_single, if_neg hi]; rfl
  have hd : dataOf (done ++ [p]) i = dataOf done i := by rw [dataOf_append, dataOf_single, if_neg hi, List.append_nil]
  exact ⟨h.gone, by rw [hg]; exact h.tcp, by rw [hg]; exact h.ppt, by rw [hc]; exact h.part, h.nb, by rw [hd]; exact h.data⟩

theorem skipped_h {h : Hdr.Dec} (d : Dec) {i : Nat} (buf : List UInt8) (hs : d.h = { h with buf := d.h.buf }) :
    skipped d i = skipped { d with h := { h with buf := buf } } i := by
  unfold skipped
  rw [hs]

/-- The bounds a valid list gives for its part `p`. -/
theorem valid_at {n : Nat} {want : Nat → Bool} {zero : Bool} {done ps : List Part} {p : Part} (V : Valid n want zero (done ++ p :: ps)) :
    p.tile < n ∧ p.num = cnt done p.tile ∧ (p.count = 0 ∨ p.count = cnt (done ++ p :: ps) p.tile) ∧
    cnt (done ++ p :: ps) p.tile ≤ 255 ∧ cnt (done ++ p :: ps) p.tile = cnt done p.tile + 1 + cnt ps p.tile := by
  have hm : p ∈ done ++ p :: ps := by simp
  refine ⟨V.tile p hm, V.order done p ps rfl, V.count p hm, V.few p hm, ?_⟩
  have : p :: ps = [p] ++ ps := rfl
  rw [cnt_append, this, cnt_append, cnt_single, if_pos rfl]; omega

theorem valid_fits {n : Nat} {want : Nat → Bool} {zero : Bool} {all : List Part} (V : Valid n want zero all) (hn : n ≤ 65536) :
    ∀ p ∈ all, Fits p := by
  intro p hp
  obtain ⟨done, ps, rfl⟩ := List.append_of_mem hp
  obtain ⟨h1, h2, h3, h4, h5⟩ := valid_at V
  exact ⟨by omega, by omega, by omega, V.len p hp⟩

/-- The tile-part of a tile that is not wanted. -/
theorem part_skipped {u : User} {h : Hdr.Dec} {file junk : List UInt8} {zero : Bool} {want : Nat → Bool} {done ps : List Part} {p : Part}
    {E : List Nat} {f : Nat → Par} {d : Dec} {s : Src} (hn : h.tw * h.th ≤ 65536)
    (V : Valid (h.tw * h.th) want zero (done ++ p :: ps)) (D : DIs h done (p :: ps) E want f d) (hcan : d.can = false)
    (hs : At file s (ahead zero junk (p :: ps))) (hw : want p.tile = false) :
    ∃ d1 s1 d' s', header u (file.length + 1) 0xFF90 d s = .ok (0xFF93, d1, s1) ∧ d1.st = .tph ∧ (∃ l, s1.left = .ok l) ∧ body d1 s1 = .ok (d', s') ∧
      At file s' (partsBytes zero ps ++ (be 2 0xFFD9 ++ junk)) ∧ DIs h (done ++ [p]) ps E want f d' ∧ d'.can = false := by
  obtain ⟨v1, v2, v3, v4, v5⟩ := valid_at V
  obtain ⟨f1, f2, f3, f4⟩ := valid_fits V hn p (by simp)
  have hz : ¬ (zero = true ∧ ps = []) := by
    rintro ⟨z, rfl⟩
    have := V.known z p (by simp)
    rw [hw] at this; exact absurd this (by decide)
  have hlen := len_ge p
  rw [ahead, if_neg hz] at hs
  have hlt : p.tile < d.tiles.length := by rw [D.len]; exact v1
  have ht : d.tiles[p.tile]? = some d.tiles[p.tile] := List.getElem?_eq_getElem hlt
  obtain ⟨t, hteq⟩ : ∃ t, t = d.tiles[p.tile] := ⟨_, rfl⟩
  rw [← hteq] at ht
  have T := D.tiles _ _ ht
  have hE : p.tile ∉ E := by intro hm; have := (D.emitted _ hm).2.1; rw [hw] at this; exact absurd this (by decide)
  have hpart : t.part + 1 = p.num := by rw [T.part hE, v2]
  obtain ⟨buf, s', hs', hbl, he⟩ := header_sot (u := u) (fuel := file.length) hs D.buf D.same D.st f1 f4 f2 f3 (Or.inr hlen) v1 ht hpart
    D.corr (T.nb hE) v3 (by omega) (D.last (by simp)) hcan
  have hb : p.body.length = p.len - 12 := by unfold Part.len; omega
  obtain ⟨nb, hnb⟩ : ∃ x, x = if p.count = 0 then t.nb else cnt (done ++ p :: ps) p.tile := ⟨_, rfl⟩
  rw [← hnb] at he
  obtain ⟨d1, hd1⟩ : ∃ x, x = afterSot { d with h := { h with buf := buf } } p p.len nb t := ⟨_, rfl⟩
  rw [← hd1] at he
  have hnm : nextMarker d1 s' = .ok (0xFF93, d1, { s' with pos := s'.pos + (p.len - 12), off := s'.off + (p.len - 12) }) := by
    unfold nextMarker
    have hskip : d1.skip = true := by
      rw [hd1]
      have := D.skips p.tile (V.tile p (by simp))
      rw [hw, skipped_h d buf D.same] at this
      exact this
    have hsot : d1.sot = p.len - 12 := by
      rw [hd1]; unfold afterSot; dsimp only; rw [if_neg (by omega)]
    rw [if_pos hskip, hsot, hs'.skip hb]
  have hskip : d1.skip = true := by
    rw [hd1]
    have := D.skips p.tile (V.tile p (by simp))
    rw [hw, skipped_h d buf D.same] at this
    exact this
  have hfl : 0 < file.length := by
    have := hs.len
    simp [be_len] at this; omega
  obtain ⟨k, hk⟩ : ∃ k, file.length = k + 1 := ⟨file.length - 1, by omega⟩
  refine ⟨d1, { s' with pos := s'.pos + (p.len - 12), off := s'.off + (p.len - 12) }, { d1 with skip := false, can := false, st := .tphsot }, _, ?_, by rw [hd1]; rfl, ⟨_, (hs'.move hb).left⟩, ?_, hs'.move hb, ?_, rfl⟩
  · rw [he, hnm, ok_bind]
    dsimp only
    rw [hk, header, if_pos rfl]
    rfl
  · unfold body; rw [if_pos hskip]; rfl
  · rw [hd1]
    have hall : done ++ [p] ++ ps = done ++ p :: ps := by simp
    refine ⟨rfl, hbl, ?_, ?_, D.only, ?_, D.ready, rfl, D.corr, rfl, ?_, ?_⟩
    · show (d.tiles.set _ _).length = _
      rw [List.length_set]; exact D.len
    · intro i ti hi
      rw [hall]
      have hi' : (d.tiles.set p.tile { t with part := p.num, nb := nb })[i]? = some ti := hi
      rw [List.getElem?_set] at hi'
      by_cases hip : p.tile = i
      · subst hip
        rw [if_pos rfl, if_pos hlt] at hi'
        injection hi' with hi'
        subst hi'
        refine ⟨fun hm => absurd hm hE, fun _ => T.tcp hE, fun _ => ?_, fun _ => ?_, fun _ => ?_, fun _ => ?_⟩
        · have P := T.ppt hE
          exact ⟨P.flag, P.at_, P.len, P.full, P.buf⟩
        · show (p.num : Int) + 1 = _
          rw [cnt_append, cnt_single, if_pos rfl, v2]; omega
        · show nb = 0 ∨ nb = _
          rw [hnb]; split
          · exact T.nb hE
          · exact Or.inr rfl
        · show t.data = _
          rw [T.data hE, if_neg (by rw [hw]; simp), if_neg (by rw [hw]; simp)]
      · rw [if_neg hip] at hi'
        exact (D.tiles _ _ hi').other (fun e => hip e.symm) rfl
    · intro i hi
      have := D.skips i hi
      unfold skipped at this ⊢
      rw [D.same] at this
      exact this
    · intro _
      show (p.len == 0) = false
      simp; omega
    · intro i hi
      obtain ⟨a, b, c⟩ := D.emitted i hi
      have hpp : p :: ps = [p] ++ ps := rfl
      rw [hpp, cnt_append] at a
      refine ⟨by omega, b, by rw [cnt_append]; omega⟩

/-- The tile-part of a tile that is wanted. -/
theorem part_wanted {u : User} {h : Hdr.Dec} {file junk : List UInt8} {zero : Bool} {want : Nat → Bool} {done ps : List Part} {p : Part}
    {E : List Nat} {f : Nat → Par} {a : Par} {d : Dec} {s : Src} (hn : h.tw * h.th ≤ 65536)
    (V : Valid (h.tw * h.th) want zero (done ++ p :: ps)) (D : DIs h done (p :: ps) E want f d) (hcan : d.can = false)
    (hs : At file s (ahead zero junk (p :: ps))) (hj : zero = true → junk = []) (hw : want p.tile = true)
    (hsegs : SegsTo u h (f p.tile) p.segs a) :
    ∃ d1 s1 d' s', header u (file.length + 1) 0xFF90 d s = .ok (0xFF93, d1, s1) ∧ d1.st = .tph ∧ (∃ l, s1.left = .ok l) ∧ body d1 s1 = .ok (d', s') ∧
      At file s' (partsBytes zero ps ++ (be 2 0xFFD9 ++ junk)) ∧
      DIs h (done ++ [p]) ps E want (fun i => if i = p.tile then a else f i) d' ∧
      d'.cur = p.tile ∧ p.tile ∉ E ∧ (d'.can = true → cnt ps p.tile = 0) := by
  obtain ⟨v1, v2, v3, v4, v5⟩ := valid_at V
  obtain ⟨f1, f2, f3, f4⟩ := valid_fits V hn p (by simp)
  have hlen := len_ge p
  obtain ⟨psot, hpsot⟩ : ∃ x, x = if zero = true ∧ ps = [] then 0 else p.len := ⟨_, rfl⟩
  rw [ahead, ← hpsot] at hs
  have hpok : psot = 0 ∨ 14 ≤ psot := by rw [hpsot]; split <;> omega
  have hlt : p.tile < d.tiles.length := by rw [D.len]; exact v1
  have ht : d.tiles[p.tile]? = some d.tiles[p.tile] := List.getElem?_eq_getElem hlt
  obtain ⟨t, hteq⟩ : ∃ t, t = d.tiles[p.tile] := ⟨_, rfl⟩
  rw [← hteq] at ht
  have T := D.tiles _ _ ht
  have hE : p.tile ∉ E := by
    intro hm
    have := (D.emitted _ hm).1
    exact cnt_zero this p (by simp) rfl
  have hpart : t.part + 1 = p.num := by rw [T.part hE, v2]
  obtain ⟨buf, s1, hs1, hbl, he⟩ := header_sot (u := u) (fuel := file.length) hs D.buf D.same D.st f1
    (by rw [hpsot]; split <;> omega) f2 f3 hpok v1 ht hpart D.corr (T.nb hE) v3 (by omega) (D.last (by simp)) hcan
  obtain ⟨nb, hnb⟩ : ∃ x, x = if p.count = 0 then t.nb else cnt (done ++ p :: ps) p.tile := ⟨_, rfl⟩
  rw [← hnb] at he
  have hnbv : nb = 0 ∨ nb = cnt (done ++ p :: ps) p.tile := by
    rw [hnb]; split
    · exact T.nb hE
    · exact Or.inr rfl
  obtain ⟨d1, hd1⟩ : ∃ x, x = afterSot { d with h := { h with buf := buf } } p psot nb t := ⟨_, rfl⟩
  rw [← hd1] at he
  have hskip : d1.skip = false := by
    rw [hd1]
    have := D.skips p.tile (V.tile p (by simp))
    rw [hw, skipped_h d buf D.same] at this
    exact this
  have hbody : p.body ++ (partsBytes zero ps ++ (be 2 0xFFD9 ++ junk)) =
      be 2 (hd p.segs) ++ tlb p.segs (p.data ++ (partsBytes zero ps ++ (be 2 0xFFD9 ++ junk))) := by
    rw [← hd_tlb]
    unfold Part.body
    simp only [List.append_assoc]
  rw [hbody] at hs1
  have hs2 := hs1.move (n := 2) (be_len 2 _)
  obtain ⟨buf2, hbuf2⟩ : ∃ x, x = be 2 (hd p.segs) ++ buf.drop 2 := ⟨_, rfl⟩
  have hbl2 : 1000 ≤ buf2.length := by rw [hbuf2]; simp [be_len]; omega
  have hd1h : d1.h = { h with buf := buf } := by rw [hd1]; rfl
  have hnm : nextMarker d1 s1 = .ok (hd p.segs, { d1 with h := { h with buf := buf2 } }, { s1 with pos := s1.pos + 2, off := s1.off + 2 }) := by
    unfold nextMarker
    rw [if_neg (by rw [hskip]; decide), hs1.load (be_len 2 _), ok_bind]
    dsimp only
    rw [next_two _ (hd_lt hsegs), ok_bind, hd1h]
    dsimp only
    rw [← hbuf2]
    rfl
  obtain ⟨t1, ht1⟩ : ∃ x, x = { t with part := p.num, nb := nb } := ⟨_, rfl⟩
  have hd1t : d1.tiles = d.tiles.set p.tile t1 := by rw [hd1, ht1]; rfl
  have hd1c : d1.cur = p.tile := by rw [hd1]; rfl
  have P := T.ppt hE
  have hfuel : p.segs.length < file.length := by
    have h1 := hs.len
    have h2 := segLen_ge p.segs
    have h3 : p.body.length = segLen p.segs + 2 + p.data.length := by
      unfold Part.body segLen; simp only [List.length_append, be_len]; omega
    simp only [List.length_append, be_len] at h1
    omega
  have hget1 : (d.tiles.set p.tile t1)[p.tile]? = some t1 := by simp [hlt]
  obtain ⟨buf3, sot, t2, s3, he3, hs3, hbl3, T2, hsot⟩ := header_segs hsegs (d := { d1 with h := { h with buf := buf2 } }) hs2 hfuel
    rfl hbl2 (by rw [hd1]; rfl) hskip (t0 := t1) (t := t1) (by dsimp only; rw [hd1t, hd1c]; exact hget1)
    (by rw [ht1]; exact ⟨T.tcp hE, ⟨P.flag, P.at_, P.len, P.full, P.buf⟩, rfl, rfl, rfl⟩)
  obtain ⟨d3, hd3⟩ : ∃ x : Dec, x = { d1 with h := { h with buf := buf3 }, sot := sot, tiles := d.tiles.set p.tile t2 } := ⟨_, rfl⟩
  have he3' : header u file.length (hd p.segs) { d1 with h := { h with buf := buf2 } } { s1 with pos := s1.pos + 2, off := s1.off + 2 } =
      .ok (0xFF93, d3, s3) := by
    rw [he3, hd3, hd1t, hd1c, List.set_set]
  have hd3last : d3.last = (psot == 0) := by rw [hd3, hd1]; rfl
  have hd3can : d3.can = (nb != 0 && nb == p.num + 1) := by rw [hd3, hd1]; rfl
  have hd3cur : d3.cur = p.tile := by rw [hd3]; exact hd1c
  have hd3t : d3.tiles = d.tiles.set p.tile t2 := by rw [hd3]
  have hget3 : d3.tiles[d3.cur]? = some t2 := by rw [hd3t, hd3cur]; simp [hlt]
  have ht2d : t2.data = if dataOf done p.tile ≠ [] then some (dataOf done p.tile) else none := by
    rw [T2.data, ht1]
    show t.data = _
    rw [T.data hE]
    by_cases h0 : dataOf done p.tile = []
    · rw [if_neg (fun h => h.2 h0), if_neg (fun h => h h0)]
    · rw [if_pos ⟨hw, h0⟩, if_pos h0]
  have ht2g : t2.data.getD [] = dataOf done p.tile := by
    rw [ht2d]
    by_cases h0 : dataOf done p.tile = []
    · rw [if_neg (fun h => h h0), h0]; rfl
    · rw [if_pos h0]; rfl
  have hall2 : dataOf (done ++ p :: ps) p.tile = dataOf done p.tile ++ (p.data ++ dataOf ps p.tile) := by
    have : p :: ps = [p] ++ ps := rfl
    rw [this, dataOf_append, dataOf_append, dataOf_single, if_pos rfl]
  have hroom : (t2.data.getD []).length + p.data.length + 2 < 2 ^ 32 := by
    have := V.room p (by simp)
    rw [hall2, List.length_append, List.length_append] at this
    rw [ht2g]; omega
  have hd3sot : d3.sot = sot := by rw [hd3]
  have hd1sot : d1.sot = if psot = 0 then 0 else psot - 12 := by rw [hd1]; rfl
  have hbl4 : p.body.length = segLen p.segs + 2 + p.data.length := by
    unfold Part.body segLen; simp only [List.length_append, be_len]; omega
  obtain ⟨cap, sot4, he4⟩ := readSod_is hs3 hget3 hroom
    (by
      intro x hx
      rw [ht2d] at hx
      by_cases h0 : dataOf done p.tile = []
      · rw [if_neg (fun h => h h0)] at hx; cases hx
      · rw [if_pos h0] at hx; injection hx with hx; rw [← hx]; exact h0)
    (by
      rw [hd3last, hd3sot]
      by_cases hz : zero = true ∧ ps = []
      · rw [if_pos hz] at hpsot
        rw [if_pos (by simp [hpsot]), hj hz.1, hz.2]
        simp [partsBytes, be_len]
      · rw [if_neg hz] at hpsot
        rw [if_neg (by simp; omega)]
        rw [if_neg (by omega)] at hd1sot
        have hpl : p.len = 12 + p.body.length := rfl
        have := hsot (by show segLen p.segs ≤ d1.sot; omega) (by show d1.sot < 2 ^ 32; omega)
        rw [this]
        show d1.sot - segLen p.segs = _
        omega)
  have hs4 := hs3.move (n := p.data.length) rfl
  obtain ⟨s4, hs4eq⟩ : ∃ x : Src, x = { s3 with pos := s3.pos + p.data.length, off := s3.off + p.data.length } := ⟨_, rfl⟩
  rw [← hs4eq] at hs4
  obtain ⟨t4, ht4⟩ : ∃ x : Tile, x = { t2 with
      cap := cap, data := if t2.data.getD [] ++ p.data = [] then none else some (t2.data.getD [] ++ p.data) } := ⟨_, rfl⟩
  obtain ⟨d4, hd4⟩ : ∃ x : Dec, x = { d3 with sot := sot4, st := .tphsot, tiles := d.tiles.set p.tile t4 } := ⟨_, rfl⟩
  have he4' : readSod d3 s3 = .ok (d4, s4) := by
    rw [he4, hd4, ← ht4, hd3t, hd3cur, List.set_set, hs4eq]
  have hcnt : d4.can = true → cnt ps p.tile = 0 := by
    intro hc
    rw [hd4] at hc
    have hc : d3.can = true := hc
    rw [hd3can] at hc
    simp only [Bool.and_eq_true, bne_iff_ne, ne_eq, beq_iff_eq] at hc
    omega
  have hDIs : ∀ c, DIs h (done ++ [p]) ps E want (fun i => if i = p.tile then a else f i) { d4 with checked := c } := by
    intro c
    rw [hd4, hd3, hd1]
    have hall : done ++ [p] ++ ps = done ++ p :: ps := by simp
    refine ⟨rfl, hbl3, ?_, ?_, D.only, ?_, D.ready, ?_, D.corr, rfl, ?_, ?_⟩
    · show (d.tiles.set _ _).length = _
      rw [List.length_set]; exact D.len
    · intro i ti hi
      rw [hall]
      have hi' : (d.tiles.set p.tile t4)[i]? = some ti := hi
      rw [List.getElem?_set] at hi'
      by_cases hip : p.tile = i
      · subst hip
        rw [if_pos rfl, if_pos hlt] at hi'
        injection hi' with hi'
        subst hi'
        have Q := T2.ppt
        refine ⟨fun hm => absurd hm hE, fun _ => ?_, fun _ => ?_, fun _ => ?_, fun _ => ?_, fun _ => ?_⟩
        · rw [if_pos rfl, ht4]; exact T2.tcp
        · rw [if_pos rfl, ht4]; exact ⟨Q.flag, Q.at_, Q.len, Q.full, Q.buf⟩
        · rw [ht4]
          show t2.part + 1 = _
          rw [T2.part, ht1, cnt_append, cnt_single, if_pos rfl]
          show (p.num : Int) + 1 = _
          rw [v2]; omega
        · rw [ht4]
          show t2.nb = 0 ∨ t2.nb = _
          rw [T2.nb, ht1]
          exact hnbv
        · rw [ht4]
          show (if _ then _ else _) = _
          rw [ht2g, dataOf_append, dataOf_single, if_pos rfl]
          by_cases h0 : dataOf done p.tile ++ p.data = []
          · rw [if_pos h0, if_neg (fun h => h.2 h0)]
          · rw [if_neg h0, if_pos ⟨hw, h0⟩]
      · rw [if_neg hip] at hi'
        exact (D.tiles _ _ hi').other (fun e => hip e.symm) (if_neg fun e => hip e.symm)
    · intro i hi
      have := D.skips i hi
      unfold skipped at this ⊢
      rw [D.same] at this
      exact this
    · rw [hd1] at hskip; exact hskip
    · intro hne
      show (psot == 0) = false
      rw [if_neg (fun h => hne h.2)] at hpsot
      simp; omega
    · intro i hi
      obtain ⟨a, b, c⟩ := D.emitted i hi
      have hpp : p :: ps = [p] ++ ps := rfl
      rw [hpp, cnt_append] at a
      refine ⟨by omega, b, by rw [cnt_append]; omega⟩
  have hd4cur : d4.cur = p.tile := by rw [hd4]; exact hd3cur
  have hd3skip : d3.skip = false := by rw [hd3]; exact hskip
  have hhead : header u (file.length + 1) 0xFF90 d s = .ok (0xFF93, d3, s3) := by
    rw [he, hnm, ok_bind]
    exact he3'
  have hd3st : d3.st = .tph := by rw [hd3, hd1]; rfl
  have hbody0 : body d3 s3 = if d4.can = true ∧ d4.checked = false then (do
      let (need, s) ← needCorrection d4.cur s4.off (s4.data.length + 1) s4
      return (if need then correct { d4 with checked := true } else { d4 with checked := true }, s)) else .ok (d4, s4) := by
    unfold body
    rw [if_neg (by rw [hd3skip]; decide), he4', ok_bind]
    rfl
  by_cases hc : d4.can = true ∧ d4.checked = false
  · have hz := hcnt hc.1
    refine ⟨d3, s3, { d4 with checked := true }, s4, hhead, hd3st, ⟨_, hs3.left⟩, ?_, hs4, hDIs true, hd4cur, hE, hcnt⟩
    rw [hbody0, if_pos hc, hd4cur]
    have hlen4 := hs4.len
    have := partsBytes_len (zero := zero) ps
    rw [List.length_append] at hlen4
    rw [needCorrection_no (zero := zero) (junk := junk) hs4 ps s4 _ (fun q hq => valid_fits V hn q (by simp [hq])) (cnt_zero hz) (by rw [hs4.data]; omega) hs4
      (Nat.le_refl _), ok_bind]
    rfl
  · refine ⟨d3, s3, d4, s4, hhead, hd3st, ⟨_, hs3.left⟩, ?_, hs4, hDIs d4.checked, hd4cur, hE, hcnt⟩
    rw [hbody0, if_neg hc]

end Jp2.Tp

import Verif.Jp2.CodecLemmas
/-!
# A tile of the image, coded and decoded
-/
namespace Jp2.Codec
open Jp2.Hdr (R Fail User Enc Tccp SameHeader SameTccp Writable SharedStyle)
open Jp2.Tcd (Rect CompP tileRectOf compRect cdiv)
open Jp2.Cut (CompI ShowsAll Shows tileSamples area)
open Jp2.Area (render render_get)

/-! ## The planes of the image -/

/-- The components of the image by position. -/
def planesOf (q : Tcd.Params) (cs : List CompI) : List (Int → Int → Int) := List.zipWith (fun p c => planeOf (compRect (area q) p) c.data) q.comps cs

/-- A component of the image fits one of the coding parameters. -/
structure CompFits (q : Tcd.Params) (p : CompP) (c : CompI) : Prop where
  dx : c.dx = p.dx
  dy : c.dy = p.dy
  size : c.data.length = Pipe.height (compRect (area q) p) * Pipe.width (compRect (area q) p)

theorem shows_all {q : Tcd.Params} : ∀ {ps : List CompP} {cs : List CompI}, List.Forall₂ (CompFits q) ps cs →
    ShowsAll q ps cs (List.zipWith (fun p c => planeOf (compRect (area q) p) c.data) ps cs)
  | _, _, .nil => .nil
  | _, _, .cons h t => .cons ⟨h.dx, h.dy, (render_planeOf h.size).symm⟩ (shows_all t)

theorem hdr_cdiv (a b : Nat) (hb : 0 < b) : (Hdr.cdiv a b : Int) = cdiv a b := by
  unfold Hdr.cdiv cdiv
  rw [Int.natCast_div]
  congr 1
  omega

theorem forall2_idx {α β : Type} {Q : α → β → Prop} : ∀ {l : List α} {l' : List β}, l.length = l'.length →
    (∀ (i : Nat) (a : α) (b : β), l[i]? = some a → l'[i]? = some b → Q a b) → List.Forall₂ Q l l'
  | [], [], _, _ => .nil
  | [], _ :: _, h, _ => by simp at h
  | _ :: _, [], h, _ => by simp at h
  | a :: l, b :: l', h, k => .cons (k 0 a b rfl rfl) (forall2_idx (by simpa using h) fun i x y hx hy => k (i + 1) x y (by simpa using hx) (by simpa using hy))

/-- Component `i` of the parameters. -/
theorem param_comp {sz : Nat × Nat} {e : Enc} {i : Nat} {p : CompP} (h : (params sz (encPar e)).comps[i]? = some p) :
    ∃ k t, e.comps[i]? = some k ∧ e.tccps[i]? = some t ∧ p = ⟨k.dx, k.dy, t.prcs.take t.numres, t.cblkw, t.cblkh⟩ ∧
      (setup sz (encPar e) 0).cxs[i]? = some ⟨k.prec, k.sgnd == 1, t.cblksty⟩ := by
  unfold params encPar at h
  simp only [List.getElem?_map, Option.map_eq_some_iff, List.getElem?_zip_eq_some] at h
  obtain ⟨⟨a, t⟩, ⟨h1, h2⟩, rfl⟩ := h
  obtain ⟨k, h1, rfl⟩ := h1
  refine ⟨k, t, h1, h2, rfl, ?_⟩
  unfold setup encPar
  simp only [List.getElem?_map, Option.map_eq_some_iff, List.getElem?_zip_eq_some]
  exact ⟨_, ⟨⟨_, h1, rfl⟩, h2⟩, rfl⟩

theorem image_comp {e : Enc} {cs : List CompI} (hi : Image e cs) {i : Nat} {k : Hdr.Comp} {c : CompI} (hk : e.comps[i]? = some k) (hc : cs[i]? = some c) :
    c.prec = k.prec ∧ c.sgnd = k.sgnd ∧ c.dx = k.dx ∧ c.dy = k.dy := by
  have := congrArg (fun l => l[i]?) hi.same
  simp only [List.getElem?_map, hk, hc, Option.map_some, Option.some.injEq, Prod.mk.injEq] at this
  exact this

theorem image_len {e : Enc} {cs : List CompI} (hi : Image e cs) : cs.length = e.comps.length := by
  have := congrArg List.length hi.same
  simpa using this

theorem image_fits {sz : Nat × Nat} {e : Enc} {cs : List CompI} (hw : Writable e) (hsz : 0 < sz.1 ∧ 0 < sz.2) (hi : Image e cs) :
    List.Forall₂ (CompFits (params sz (encPar e))) (params sz (encPar e)).comps cs := by
  refine forall2_idx (by rw [(fit_of hw hsz).2.2.1, image_len hi]) fun i p c hp hc => ?_
  obtain ⟨k, t, h1, h2, rfl, -⟩ := param_comp hp
  obtain ⟨a1, a2, a3, a4⟩ := image_comp hi h1 hc
  obtain ⟨-, -, d1, d2⟩ := hw.comps k (List.mem_of_getElem? h1)
  refine ⟨a3, a4, ?_⟩
  rw [hi.size c (List.mem_of_getElem? hc), a3, a4, Nat.mul_comm]
  unfold Pipe.height Pipe.width compRect area params encPar
  simp only
  have e1 := hdr_cdiv e.x0 k.dx d1.1
  have e2 := hdr_cdiv e.x1 k.dx d1.1
  have e3 := hdr_cdiv e.y0 k.dy d2.1
  have e4 := hdr_cdiv e.y1 k.dy d2.1
  rw [← e1, ← e2, ← e3, ← e4]
  congr 1 <;> omega

theorem tileRect_inside {q : Tcd.Params} {n : Nat} : (area q).x0 ≤ (tileRectOf q n).x0 ∧ (tileRectOf q n).x1 ≤ (area q).x1 ∧
    (area q).y0 ≤ (tileRectOf q n).y0 ∧ (tileRectOf q n).y1 ≤ (area q).y1 := by
  unfold area tileRectOf
  simp only
  omega

/-- A sample of the tile is one of the component. -/
theorem mem_render {q : Tcd.Params} {n : Nat} {p : CompP} {c : CompI} (hd : 0 < p.dx ∧ 0 < p.dy) (hc : CompFits q p c) {v : Int}
    (h : v ∈ render (planeOf (compRect (area q) p) c.data) (compRect (tileRectOf q n) p)) : v ∈ c.data := by
  unfold render at h
  simp only [List.mem_flatMap, List.mem_range, List.mem_map] at h
  obtain ⟨j, hj, i, hi, rfl⟩ := h
  obtain ⟨t1, t2, t3, t4⟩ := tileRect_inside (q := q) (n := n)
  have hdx : (0 : Int) < p.dx := by exact_mod_cast hd.1
  have hdy : (0 : Int) < p.dy := by exact_mod_cast hd.2
  have m1 := Tcd.cdiv_mono hdx t1
  have m2 := Tcd.cdiv_mono hdx t2
  have m3 := Tcd.cdiv_mono hdy t3
  have m4 := Tcd.cdiv_mono hdy t4
  have hs := hc.size
  unfold Pipe.height Pipe.width at hs
  change i < (cdiv (tileRectOf q n).x1 p.dx - cdiv (tileRectOf q n).x0 p.dx).toNat at hi
  change j < (cdiv (tileRectOf q n).y1 p.dy - cdiv (tileRectOf q n).y0 p.dy).toNat at hj
  unfold planeOf
  change (c.data[((cdiv (tileRectOf q n).y0 p.dy + j - cdiv (area q).y0 p.dy) * (cdiv (area q).x1 p.dx - cdiv (area q).x0 p.dx) +
    (cdiv (tileRectOf q n).x0 p.dx + i - cdiv (area q).x0 p.dx)).toNat]?).getD 0 ∈ c.data
  change _ = (cdiv (area q).y1 p.dy - cdiv (area q).y0 p.dy).toNat * (cdiv (area q).x1 p.dx - cdiv (area q).x0 p.dx).toNat at hs
  obtain ⟨a, ha⟩ := Int.eq_ofNat_of_zero_le (show 0 ≤ cdiv (tileRectOf q n).y0 p.dy + j - cdiv (area q).y0 p.dy by omega)
  obtain ⟨b, hb⟩ := Int.eq_ofNat_of_zero_le (show 0 ≤ cdiv (area q).x1 p.dx - cdiv (area q).x0 p.dx by omega)
  obtain ⟨d, hdd⟩ := Int.eq_ofNat_of_zero_le (show 0 ≤ cdiv (tileRectOf q n).x0 p.dx + i - cdiv (area q).x0 p.dx by omega)
  have hdlt : d < b := by omega
  have halt : a < (cdiv (area q).y1 p.dy - cdiv (area q).y0 p.dy).toNat := by omega
  have hlt : a * b + d < c.data.length := by
    rw [hs, hb, Int.toNat_natCast]
    calc a * b + d < a * b + b := by omega
      _ = (a + 1) * b := by ring
      _ ≤ _ := Nat.mul_le_mul_right _ halt
  rw [ha, hb, hdd]
  have e : (((a : Nat) : Int) * (b : Nat) + (d : Nat)).toNat = a * b + d := by
    rw [show (((a : Nat) : Int) * (b : Nat) + (d : Nat)) = ((a * b + d : Nat) : Int) by push_cast; rfl]
    exact Int.toNat_natCast _
  rw [e, List.getElem?_eq_getElem hlt, Option.getD_some]
  exact List.getElem_mem hlt

theorem tileSamples_get {t : Rect} : ∀ {ps : List CompP} {Ps : List (Int → Int → Int)} {i : Nat} {x : List Int}, (tileSamples t ps Ps)[i]? = some x →
    ∃ p P, ps[i]? = some p ∧ Ps[i]? = some P ∧ x = render P (compRect t p)
  | [], _, i, x, h => by simp [tileSamples] at h
  | _ :: _, [], i, x, h => by simp [tileSamples] at h
  | p :: ps, P :: Ps, 0, x, h => by
    simp only [tileSamples, List.getElem?_cons_zero, Option.some.injEq] at h
    exact ⟨p, P, rfl, rfl, h.symm⟩
  | p :: ps, P :: Ps, i + 1, x, h => by
    simp only [tileSamples, List.getElem?_cons_succ] at h
    simpa using tileSamples_get h

theorem tileSamples_len {t : Rect} : ∀ {ps : List CompP} {Ps : List (Int → Int → Int)}, ps.length = Ps.length → (tileSamples t ps Ps).length = ps.length
  | [], _, _ => rfl
  | _ :: _, [], h => by simp at h
  | p :: ps, P :: Ps, h => by simp [tileSamples, tileSamples_len (ps := ps) (Ps := Ps) (by simpa using h)]

theorem planesOf_len {q : Tcd.Params} {cs : List CompI} (h : List.Forall₂ (CompFits q) q.comps cs) : q.comps.length = (planesOf q cs).length := by
  unfold planesOf
  rw [List.length_zipWith, ← h.length_eq, Nat.min_self]

theorem planesOf_get {q : Tcd.Params} {cs : List CompI} {i : Nat} {P : Int → Int → Int} (h : (planesOf q cs)[i]? = some P) :
    ∃ p c, q.comps[i]? = some p ∧ cs[i]? = some c ∧ P = planeOf (compRect (area q) p) c.data := by
  unfold planesOf at h
  rw [List.getElem?_zipWith] at h
  cases hp : q.comps[i]? with
  | none => rw [hp] at h; simp at h
  | some p =>
    cases hc : cs[i]? with
    | none => rw [hp, hc] at h; simp at h
    | some c =>
      rw [hp, hc] at h
      exact ⟨p, c, rfl, rfl, (Option.some.inj h).symm⟩

/-- The samples of a tile suit its coder. -/
theorem samples_ok {m : Mode} {sz : Nat × Nat} {flag : Option Pi.Letter} {e : Enc} {P : Nat} {cs : List CompI} (hw : Writable e) (hsh : SharedStyle e)
    (hs : Suits m sz flag e P) (hi : Image e cs) {n : Nat} {T : Tcd.TileS} (hf : Tcd.Fit (params sz (encPar e)) n)
    (hT : Tcd.initTile true (params sz (encPar e)) n = .ok T) :
    Pipe.Samples (setup sz (encPar e) n) P T (tileSamples (tileRectOf (params sz (encPar e)) n) (params sz (encPar e)).comps (planesOf (params sz (encPar e)) cs)) := by
  have hfit := image_fits hw hs.room hi
  have hlen := planesOf_len hfit
  have hts := tileSamples_len (t := tileRectOf (params sz (encPar e)) n) hlen
  have hcomps : T.comps = (params sz (encPar e)).comps.map (Tcd.compOf true (tileRectOf (params sz (encPar e)) n)) :=
    Pipe.comps_eq (S := setup sz (encPar e) n) hf hT
  have hcx : (setup sz (encPar e) n).cxs.length = (params sz (encPar e)).comps.length := by unfold setup params; simp
  refine ⟨?_, ?_, ?_⟩
  · refine forall2_idx (by rw [hcx, hts]) fun i cx x hcx' hx => ?_
    obtain ⟨p, Q, h1, h2, rfl⟩ := tileSamples_get hx
    obtain ⟨k, t, k1, k2, rfl, k3⟩ := param_comp h1
    obtain ⟨p', c, h3, h4, rfl⟩ := planesOf_get h2
    rw [h1] at h3
    cases h3
    rw [show (setup sz (encPar e) n).cxs[i]? = (setup sz (encPar e) 0).cxs[i]? from rfl, k3] at hcx'
    cases hcx'
    obtain ⟨a1, a2, a3, a4⟩ := image_comp hi k1 h4
    obtain ⟨b1, b2, d1, d2⟩ := hw.comps k (List.mem_of_getElem? k1)
    refine ⟨⟨b1.1, hs.prec k (List.mem_of_getElem? k1)⟩, fun v hv => ?_⟩
    have hm := mem_render (And.intro d1.1 d2.1 : 0 < k.dx ∧ 0 < k.dy) (forall2_at hfit h1 h4) hv
    have hr := hi.range c (List.mem_of_getElem? h4) v hm
    unfold Pipe.CompX.lo Pipe.CompX.hi
    simp only [beq_iff_eq]
    rw [a1, a2] at hr
    by_cases hg : k.sgnd = 1
    · rw [if_pos hg] at hr
      rw [if_pos hg, if_pos hg]
      omega
    · rw [if_neg hg] at hr
      rw [if_neg hg, if_neg hg]
      omega
  · refine forall2_idx (by rw [hcomps, hts, List.length_map]) fun i tc x htc hx => ?_
    obtain ⟨p, Q, h1, h2, rfl⟩ := tileSamples_get hx
    rw [hcomps, List.getElem?_map, h1, Option.map_some, Option.some.injEq] at htc
    subst htc
    rw [render_get.1, Nat.mul_comm]
    rfl
  · rcases hs.colour with h0 | ⟨a, b, c, rest, he, hd1, hd2⟩
    · exact Or.inl h0
    · by_cases hm : e.mct = 0
      · exact Or.inl hm
      · right
        refine ⟨by have := hw.mct; change e.mct = 1; omega, ?_⟩
        have hl := hw.tccps
        rw [he] at hl
        rcases ht : e.tccps with _ | ⟨ta, _ | ⟨tb, _ | ⟨tc, trest⟩⟩⟩
        · rw [ht] at hl; simp at hl
        · rw [ht] at hl; simp at hl
        · rw [ht] at hl; simp at hl
        · have s1 := hsh ta (by rw [ht]; simp) tb (by rw [ht]; simp)
          have s2 := hsh ta (by rw [ht]; simp) tc (by rw [ht]; simp)
          obtain ⟨rest', hq⟩ : ∃ rest', (params sz (encPar e)).comps = ⟨a.dx, a.dy, ta.prcs.take ta.numres, ta.cblkw, ta.cblkh⟩ ::
              ⟨b.dx, b.dy, tb.prcs.take tb.numres, tb.cblkw, tb.cblkh⟩ :: ⟨c.dx, c.dy, tc.prcs.take tc.numres, tc.cblkw, tc.cblkh⟩ :: rest' := by
            unfold params encPar
            simp only
            rw [he, ht]
            exact ⟨_, rfl⟩
          rw [hcomps]
          refine ⟨_, _, _, rest', _, _, _, _, hq, by rw [hq]; rfl, ?_, ?_, ?_, ?_⟩
          · simp only; rw [s1.2.2.2.2.2]
          · simp only; rw [s2.2.2.2.2.2]
          · unfold Tcd.compOf compRect; simp only; rw [hd1.1, hd1.2]
          · unfold Tcd.compOf compRect; simp only; rw [hd2.1, hd2.2]

/-! ## How many parts -/

theorem encParts_length {m : Mode} {fuel : Nat} {t : Pi.TileParams} {i : Pi.TileInfo} {tpOn first : Bool} : ∀ {n tp : Nat} {p : Pi.EncPoc} {l : List (List Pi.Pkt)},
    Pi.encParts m fuel t i tpOn first n tp p = some l → l.length = n
  | 0, tp, p, l, h => by
    unfold Pi.encParts at h
    cases h; rfl
  | n + 1, tp, p, l, h => by
    unfold Pi.encParts at h
    simp only [Option.bind_eq_bind, Option.bind_eq_some_iff] at h
    obtain ⟨⟨q, p'⟩, h1, d, h2, r, h3, h4⟩ := h
    cases h4
    simp [encParts_length h3]

theorem encodeParts_length {m : Mode} {fuel : Nat} {t : Pi.TileParams} {flag : Option Pi.Letter} {n k : Nat} {i : Pi.TileInfo} {parts : List (List Pi.Pkt)}
    (hp : t.pocs = []) (hi : Pi.tileInfo m t n = some i) (hc : Tp.counts flag ⟨t, i⟩ = .ok [k]) (h : Pi.encodeParts m fuel t flag n = some (some parts)) :
    parts.length = k := by
  unfold Pi.encodeParts at h
  rw [hi] at h
  simp only [Option.bind_eq_bind, Option.bind_some] at h
  split at h
  · cases h
  · have hl : Pi.encPocs t i = [Pi.encWhole t i] := by unfold Pi.encPocs; rw [hp]
    rw [hl] at h
    unfold Tp.counts at hc
    simp only at hc
    rw [hl] at hc
    have hk : Pi.numTp flag t.prg (Pi.encWhole t i) = some k := by
      cases hn : Pi.numTp flag t.prg (Pi.encWhole t i) with
      | none => rw [List.mapM_cons, hn] at hc; cases hc
      | some k' => rw [List.mapM_cons, hn] at hc; cases hc; rfl
    unfold Pi.encProgs at h
    rw [hk] at h
    simp only [Option.bind_eq_bind, Option.bind_some] at h
    simp only [Option.bind_eq_some_iff] at h
    obtain ⟨r, ⟨a, h1, b, h2, h3⟩, h4⟩ := h
    unfold Pi.encProgs at h2
    cases h2
    cases h3
    cases h4
    rw [List.append_nil]
    exact encParts_length h1

theorem tileParts_length {csty ml : Nat} : ∀ {l : List (List Pi.Pkt × List UInt8)} {pk : Nat} {E : T2.EncTile} {outs : List (List UInt8 × List Nat)} {pk' : Nat} {E' : T2.EncTile},
    T2.encodeTileParts csty ml l pk E = .ok (outs, pk', E') → outs.length = l.length
  | [], pk, E, outs, pk', E', h => by
    unfold T2.encodeTileParts at h
    cases h; rfl
  | (ps, dest) :: l, pk, E, outs, pk', E', h => by
    unfold T2.encodeTileParts at h
    cases h1 : T2.encodePackets csty ml ps pk E dest with
    | error x => rw [h1] at h; cases h
    | ok o =>
      obtain ⟨out, sizes, pk1, E1⟩ := o
      rw [h1] at h
      change (T2.encodeTileParts csty ml l pk1 E1 >>= _) = _ at h
      cases h2 : T2.encodeTileParts csty ml l pk1 E1 with
      | error x => rw [h2] at h; cases h
      | ok o2 =>
        obtain ⟨rest, pk2, E2⟩ := o2
        rw [h2] at h
        cases h
        simp [tileParts_length h2]

theorem coding_parts {m : Mode} {fuel : Nat} {S : Pipe.Setup} {flag : Option Pi.Letter} {plan : Nat → Nat → Nat → Nat → Nat → Pipe.Plan} {room : Nat → List UInt8}
    {junk : Nat → Nat → Int} {xs : List (List Int)} {K : Pipe.Coding} (h : Pipe.encodeTile m fuel S flag plan room junk xs = some K) :
    ∃ parts, Pi.encodeParts m fuel S.pi flag S.n = some (some parts) ∧ K.parts.length = parts.length := by
  unfold Pipe.encodeTile at h
  split at h
  · cases h
  · simp only [Option.bind_eq_some_iff] at h
    obtain ⟨ds, h1, E, h2, r, h3, parts, h4, h5⟩ := h
    subst h4
    refine ⟨parts, h3, ?_⟩
    split at h5
    · cases h5
    · rename_i outs pk E' hen
      cases h5
      simp only [List.length_map]
      rw [tileParts_length hen]
      simp

/-- What the coder gave for the parts of a tile is its coding. -/
theorem gave_bytes {m : Mode} {fuel : Nat} {sz : Nat × Nat} {plan : Nat → Nat → Nat → Nat → Nat → Nat → Pipe.Plan} {X : EncEnv} {flag : Option Pi.Letter} {p : Par}
    {cs : List CompI} {tile : Nat} {K : Pipe.Coding} (hK : codeTile m fuel sz plan X flag p cs tile = .ok K) : ∀ {k : Nat} {xs : List (Nat × Nat)} {d : List UInt8},
    Tp.Gave (coder m fuel sz plan X flag p cs) tile k xs d → K.parts.length = k + xs.length → d = (K.parts.drop k).flatten
  | k, _, _, .nil, h => by
    rw [List.drop_of_length_le (by simp at h; omega)]
    rfl
  | k, _, _, .cons (xs := xs) (o := o) h1 h2, h => by
    have ih := gave_bytes hK h2 (by rw [h, List.length_cons]; omega)
    unfold coder at h1
    rw [hK] at h1
    change (match K.parts[k]?, K.sizes[k]? with | some d, some s => _ | _, _ => _) = _ at h1
    have hk : k < K.parts.length := by rw [h, List.length_cons]; omega
    rw [List.getElem?_eq_getElem hk] at h1
    rw [List.drop_eq_getElem_cons hk, List.flatten_cons, ih]
    congr 1
    split at h1
    · rename_i d' s' e1 e2
      split at h1
      · cases h1
        exact (Option.some.inj e1).symm
      · cases h1
    · cases h1

theorem coder_first {m : Mode} {fuel : Nat} {sz : Nat × Nat} {plan : Nat → Nat → Nat → Nat → Nat → Nat → Pipe.Plan} {X : EncEnv} {flag : Option Pi.Letter} {p : Par}
    {cs : List CompI} {tile a b cur room : Nat} {o : Tp.Coded} (h : coder m fuel sz plan X flag p cs tile a b cur room = .ok o) :
    ∃ K, codeTile m fuel sz plan X flag p cs tile = .ok K ∧ K.parts[cur]? = some o.data := by
  unfold coder at h
  obtain ⟨K, h1, h⟩ := Hdr.bind_ok h
  refine ⟨K, h1, ?_⟩
  split at h
  · rename_i d s e1 e2
    split at h
    · cases h; exact e1
    · cases h
  · cases h

end Jp2.Codec

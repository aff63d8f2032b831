import Verif.Jp2.AreaTile
import Verif.Jp2.AreaSpec
/-!
# All components, all tiles
-/
namespace Jp2.Area
open Jp2.Hdr (R Fail refuseIf)
open Jp2.Setup (u32)
open Jp2.Tcd (Rect cdiv RectOk CompFit CompP TileC compRect compOf tileRectOf)

theorem compSrcs_ok {d : Dec} {b : Box} {whole : Bool} {used : Nat → Bool} {P : Nat → Int → Int → Int} {kept : Nat → List Int} :
    ∀ (l : List (CompP × TileC)) (i : Nat) (Q : Nat → Src → Prop),
    (∀ j c t, l[j]? = some (c, t) → ∃ s, compSrc d b whole (used (i + j)) (P (i + j)) (kept (i + j)) c t = .ok s ∧ Q j s) →
    ∃ ss, compSrcs d b whole used P kept i l = .ok ss ∧ ss.length = l.length ∧ ∀ (j : Nat) (s : Src), ss[j]? = some s → Q j s
  | [], i, Q, _ => ⟨[], rfl, rfl, by simp⟩
  | (c, t) :: rest, i, Q, h => by
    obtain ⟨s, h1, h2⟩ := h 0 c t rfl
    obtain ⟨ss, h3, h4, h5⟩ := compSrcs_ok rest (i + 1) (fun j s => Q (j + 1) s) (fun j c t hj => by
      have := h (j + 1) c t hj
      rwa [show i + (j + 1) = i + 1 + j by omega] at this)
    refine ⟨s :: ss, ?_, by simp [h4], ?_⟩
    · unfold compSrcs
      rw [Nat.add_zero] at h1
      rw [h1, ok_bind, h3, ok_bind]
      rfl
    · rintro (_ | j) s' hs
      · simp only [List.getElem?_cons_zero, Option.some.injEq] at hs
        subst hs; exact h2
      · exact h5 j s' (by simpa using hs)

theorem update_ok : ∀ (cs : List Comp) (ss : List Src) (Q : Nat → Comp → Comp → Prop), cs.length = ss.length →
    (∀ (j : Nat) (c : Comp) (s : Src), cs[j]? = some c → ss[j]? = some s → ∃ c', copyComp c s = .ok c' ∧ Q j c c') →
    ∃ cs', update cs ss = .ok cs' ∧ cs'.length = cs.length ∧ ∀ (j : Nat) (c c' : Comp), cs[j]? = some c → cs'[j]? = some c' → Q j c c'
  | [], [], Q, _, _ => ⟨[], rfl, rfl, by simp⟩
  | c :: cs, s :: ss, Q, hl, h => by
    obtain ⟨c', h1, h2⟩ := h 0 c s rfl rfl
    obtain ⟨cs', h3, h4, h5⟩ := update_ok cs ss (fun j => Q (j + 1)) (by simpa using hl) (fun j c s hc hs => h (j + 1) c s hc hs)
    refine ⟨c' :: cs', ?_, by simp [h4], ?_⟩
    · unfold update
      rw [h1, ok_bind, h3, ok_bind]
      rfl
    · rintro (_ | j) a a' ha ha'
      · simp only [List.getElem?_cons_zero, Option.some.injEq] at ha ha'
        subst ha; subst ha'; exact h2
      · exact h5 j a a' (by simpa using ha) (by simpa using ha')

/-- What is known of the codestream. -/
structure Known (d : Dec) : Prop where
  grid : Tcd.Grid d.p d.th
  small : Tcd.Small d.p
  fit : ∀ n, n < d.p.tw * d.th → Tcd.Fit d.p n
  red : ∀ c ∈ d.p.comps, d.reduce < c.prc.length

/-- What a decoded tile has for component `i`. -/
structure Right (d : Dec) (b : Box) (used : Nat → Bool) (P : Nat → Int → Int → Int) (n i : Nat) (c : CompP) (s : Src) : Prop where
  yes : used i = true → (∀ k : Comp, k.dx = c.dx → k.dy = c.dy → ∀ X0 Y0, Dest b d.reduce k X0 Y0 → Delivers (P i) X0 Y0 k s) ∧
    (∀ u v, Here (tileRectOf d.p n) b d.reduce c.dx c.dy u v → s.rect.has u v) ∧
    ∀ u v, s.rect.has u v → (tileRectOf d.p n).has (u * 2 ^ d.reduce * c.dx) (v * 2 ^ d.reduce * c.dy)
  no : used i = false → s.data = none

theorem decodeTile_ok {d : Dec} {b : Box} {used : Nat → Bool} {P : Nat → Int → Int → Int} {kept : Nat → List Int} {n : Nat}
    (hf : Tcd.Fit d.p n) (hr : ∀ c ∈ d.p.comps, d.reduce < c.prc.length) {T : Tcd.TileS} (hT : Tcd.initTile false d.p n = .ok T)
    (hm : Meets (tileRectOf d.p n) b) (hb : b.x0 ≤ b.x1 ∧ b.x1 < 2 ^ 31 ∧ b.y0 ≤ b.y1 ∧ b.y1 < 2 ^ 31) :
    ∃ ss, decodeTile d b used P kept n = .ok ss ∧ ss.length = d.p.comps.length ∧
      ∀ i c s, d.p.comps[i]? = some c → ss[i]? = some s → Right d b used P n i c s := by
  obtain ⟨-, hl, hg⟩ := Tcd.comps_get hf hT
  have ht := Tcd.tile_ok hf hT
  have hz : ∀ (j : Nat) (c : CompP) (t : TileC), (d.p.comps.zip T.comps)[j]? = some (c, t) → d.p.comps[j]? = some c ∧ T.comps[j]? = some t := by
    intro j c t h
    rw [List.getElem?_zip_eq_some] at h
    exact h
  obtain ⟨w, hw⟩ := wholeTile_ok d b used (d.p.comps.zip T.comps) 0 (fun x hx => hf.comps _ (List.of_mem_zip hx).1)
  obtain ⟨ss, h1, h2, h3⟩ := compSrcs_ok (d := d) (b := b) (whole := w) (used := used) (P := P) (kept := kept) (d.p.comps.zip T.comps) 0
    (fun i s => ∀ c, d.p.comps[i]? = some c → Right d b used P n i c s) (by
      intro j c t hj
      obtain ⟨k1, k2⟩ := hz j c t hj
      have e := hg k1 k2
      subst e
      rw [Nat.zero_add]
      cases hu : used j
      · refine ⟨⟨⟨0, 0, 0, 0⟩, 0, none⟩, rfl, ?_⟩
        intro c' hc'
        exact ⟨fun h => by rw [hu] at h; exact absurd h (by simp), fun _ => rfl⟩
      · obtain ⟨s, e1, e2, e3⟩ := compSrc_ok (whole := w) (P := P j) (kept := kept j) ht hm (hf.comps c (List.mem_of_getElem? k1)) (hr c (List.mem_of_getElem? k1)) hb
        refine ⟨s, e1, ?_⟩
        intro c' hc'
        rw [k1] at hc'
        have := Option.some.inj hc'
        subst this
        exact ⟨fun _ => ⟨e2, e3⟩, fun h => by rw [hu] at h; exact absurd h (by simp)⟩)
  refine ⟨ss, ?_, ?_, fun i c s hc hs => h3 i s hs c hc⟩
  · unfold decodeTile
    rw [hT]
    change (wholeTile d b used 0 (d.p.comps.zip T.comps) >>= _) = _
    rw [hw, ok_bind, h1]
  · rw [h2, List.length_zip, hl, Nat.min_self]

/-- The components on the way: `cs0` at the start, `S` says what is there of each. -/
structure Inv (d : Dec) (b : Box) (used : Nat → Bool) (P : Nat → Int → Int → Int) (cs0 cs : List Comp) (S : Nat → Int → Int → Prop) : Prop where
  len : cs.length = cs0.length
  same : ∀ (i : Nat) (c0 c : Comp), cs0[i]? = some c0 → cs[i]? = some c → c = { c0 with data := c.data }
  yes : ∀ (i : Nat) (c0 c : Comp), cs0[i]? = some c0 → cs[i]? = some c → used i = true → ∀ X0 Y0, Dest b d.reduce c0 X0 Y0 → Filled (P i) X0 Y0 c (S i)
  no : ∀ (i : Nat) (c : Comp), cs[i]? = some c → used i = false → c.data = none

/-- What is known of the components to be filled. -/
structure Ready (d : Dec) (b : Box) (used : Nat → Bool) (cs0 : List Comp) : Prop where
  len : cs0.length = d.p.comps.length
  step : ∀ (i : Nat) (c : CompP) (c0 : Comp), d.p.comps[i]? = some c → cs0[i]? = some c0 → c0.dx = c.dx ∧ c0.dy = c.dy
  dest : ∀ (i : Nat) (c0 : Comp), cs0[i]? = some c0 → used i = true → 0 < c0.w ∧ 0 < c0.h ∧ ∃ X0 Y0, Dest b d.reduce c0 X0 Y0
  none : ∀ (i : Nat) (c0 : Comp), cs0[i]? = some c0 → c0.data = none

theorem Ready.start {d : Dec} {b : Box} {used : Nat → Bool} {P : Nat → Int → Int → Int} {cs0 : List Comp} (h : Ready d b used cs0) :
    Inv d b used P cs0 cs0 (fun _ _ _ => False) := by
  refine ⟨rfl, ?_, ?_, fun i c hc _ => h.none i c hc⟩
  · intro i c0 c h0 hc
    rw [h0] at hc
    have := Option.some.inj hc
    subst this; rfl
  · intro i c0 c h0 hc _ X0 Y0 _
    refine ⟨?_, by simp⟩
    intro dst hd
    rw [h.none i c hc] at hd
    exact absurd hd (by simp)

theorem getE {α : Type} {l : List α} {i : Nat} {n : Nat} (hl : l.length = n) (hi : i < n) : ∃ a, l[i]? = some a :=
  ⟨_, List.getElem?_eq_getElem (by omega)⟩

theorem getE' {α β : Type} {l : List α} {m : List β} (hl : l.length = m.length) {i : Nat} {a : α} (h : l[i]? = some a) : ∃ b, m[i]? = some b := by
  obtain ⟨hi, -⟩ := List.getElem?_eq_some_iff.1 h
  exact getE hl.symm hi

theorem Dest.data {b : Box} {r : Nat} {c c' : Comp} {X0 Y0 : Nat} (h : Dest b r c X0 Y0) (e : c' = { c with data := c'.data }) : Dest b r c' X0 Y0 := by
  rw [e]
  exact ⟨⟨h.place.x, h.place.y, h.place.w, h.place.h⟩, h.x0, h.x1, h.y0, h.y1⟩

/-- One tile. -/
theorem tile_step {d : Dec} {b : Box} {used : Nat → Bool} {P : Nat → Int → Int → Int} {n : Nat} {cs0 cs : List Comp} {ss : List Src}
    {S : Nat → Int → Int → Prop} (hR : Ready d b used cs0) (hI : Inv d b used P cs0 cs S) (hl : ss.length = d.p.comps.length)
    (hs : ∀ i c s, d.p.comps[i]? = some c → ss[i]? = some s → Right d b used P n i c s) :
    ∃ cs', update cs ss = .ok cs' ∧ Inv d b used P cs0 cs' (fun i u v => S i u v ∨ ∃ c, d.p.comps[i]? = some c ∧ Here (tileRectOf d.p n) b d.reduce c.dx c.dy u v) := by
  have hlen : cs.length = ss.length := by rw [hI.len, hR.len, hl]
  obtain ⟨cs', h1, h2, h3⟩ := update_ok cs ss (fun i c c' => c' = { c with data := c'.data } ∧
      (used i = true → ∀ c0, cs0[i]? = some c0 → ∀ X0 Y0, Dest b d.reduce c0 X0 Y0 → Filled (P i) X0 Y0 c' (fun u v => S i u v ∨ ∃ c, d.p.comps[i]? = some c ∧ Here (tileRectOf d.p n) b d.reduce c.dx c.dy u v)) ∧
      (used i = false → c'.data = none)) hlen (by
    intro i c s hc hsi
    obtain ⟨c0, h0⟩ := getE' hI.len hc
    obtain ⟨p, hp⟩ := getE' hR.len h0
    have hr := hs i p s hp hsi
    have hsame := hI.same i c0 c h0 hc
    cases hu : used i
    · refine ⟨c, ?_, rfl, by simp, fun _ => hI.no i c hc hu⟩
      unfold copyComp
      rw [hr.no hu]
    · obtain ⟨hdel, hhere, -⟩ := hr.yes hu
      obtain ⟨w0, h0', X0, Y0, hD⟩ := hR.dest i c0 h0 hu
      obtain ⟨st1, st2⟩ := hR.step i p c0 hp h0
      have hD' := hD.data hsame
      have e1 : c.dx = c0.dx := by rw [hsame]
      have e2 : c.dy = c0.dy := by rw [hsame]
      have e3 : c.w = c0.w := by rw [hsame]
      have e4 : c.h = c0.h := by rw [hsame]
      obtain ⟨c', k1, k2, k3⟩ := copyComp_ok hD'.place (hdel c (e1.trans st1) (e2.trans st2) X0 Y0 hD') (by omega) (by omega) (hI.yes i c0 c h0 hc hu X0 Y0 hD)
      refine ⟨c', k1, k2, ?_, by simp⟩
      intro _ c0' hc0' X Y hXY
      rw [h0] at hc0'
      have := Option.some.inj hc0'
      subst this
      have eX : X = X0 := by have := hXY.x0.trans hD.x0.symm; omega
      have eY : Y = Y0 := by have := hXY.y0.trans hD.y0.symm; omega
      subst eX; subst eY
      have imp : ∀ u v, (S i u v ∨ ∃ c, d.p.comps[i]? = some c ∧ Here (tileRectOf d.p n) b d.reduce c.dx c.dy u v) → (S i u v ∨ s.rect.has u v) := by
        rintro u v (h | ⟨q, hq, h⟩)
        · exact Or.inl h
        · rw [hp] at hq
          have := Option.some.inj hq
          subst this
          exact Or.inr (hhere u v h)
      exact ⟨fun dst hd => ⟨(k3.vals dst hd).1, fun a e ha he h => (k3.vals dst hd).2 a e ha he (imp _ _ h)⟩, fun a e ha he h => k3.some a e ha he (imp _ _ h)⟩)
  refine ⟨cs', h1, h2.trans hI.len, ?_, ?_, ?_⟩
  · intro i c0 c' h0 hc'
    obtain ⟨c, hc⟩ := getE' (hI.len.symm) h0
    obtain ⟨k1, -, -⟩ := h3 i c c' hc hc'
    rw [k1, hI.same i c0 c h0 hc]
  · intro i c0 c' h0 hc' hu X0 Y0 hD
    obtain ⟨c, hc⟩ := getE' (hI.len.symm) h0
    exact (h3 i c c' hc hc').2.1 hu c0 h0 X0 Y0 hD
  · intro i c' hc' hu
    obtain ⟨c, hc⟩ := getE' h2 hc'
    exact (h3 i c c' hc hc').2.2 hu

/-- Position in the tile, in words of the rectangle. -/
theorem tileRect_has {p : Tcd.Params} {n x y : Nat} : (tileRectOf p n).has x y ↔ InTile p n x y := by
  unfold Tcd.Rect.has tileRectOf InTile
  simp only
  generalize n % p.tw * p.tdx = A
  generalize (n % p.tw + 1) * p.tdx = B
  generalize n / p.tw * p.tdy = C
  generalize (n / p.tw + 1) * p.tdy = D
  omega

theorem render_congr {P Q : Int → Int → Int} {r : Tcd.Rect} (h : ∀ u v, r.has u v → Q u v = P u v) : render Q r = render P r := by
  unfold render
  refine List.flatMap_congr fun j hj => List.map_congr_left fun i hi => ?_
  rw [List.mem_range] at hj hi
  exact h _ _ ⟨by omega, by omega, by omega, by omega⟩

/-- What a tile has of its own planes is what it has of those of the image. -/
theorem Right.agree {d : Dec} {b : Box} {used : Nat → Bool} {P Q : Nat → Int → Int → Int} {n i : Nat} {c : CompP} {s : Src}
    (hQ : Agrees d.p d.reduce P Q n) (hc : d.p.comps[i]? = some c) (h : Right d b used Q n i c s) : Right d b used P n i c s := by
  refine ⟨fun hu => ?_, h.no⟩
  obtain ⟨h1, h2, h3⟩ := h.yes hu
  refine ⟨fun k k1 k2 X0 Y0 hD => ?_, h2, h3⟩
  have hd := h1 k k1 k2 X0 Y0 hD
  obtain ⟨kp, hkp⟩ := hd.data
  refine ⟨hd.ok, hd.stride, ⟨kp, ?_⟩, hd.l, hd.r, hd.t, hd.b⟩
  have e : render (Q i) s.rect = render (P i) s.rect := by
    refine render_congr fun u v huv => ?_
    have hx := hd.ok.x0
    have hy := hd.ok.y0
    obtain ⟨v1, v2, v3, v4⟩ := huv
    obtain ⟨u', rfl⟩ := Int.eq_ofNat_of_zero_le (show 0 ≤ u by omega)
    obtain ⟨v', rfl⟩ := Int.eq_ofNat_of_zero_le (show 0 ≤ v by omega)
    have := h3 _ _ ⟨v1, v2, v3, v4⟩
    refine hQ i c hc u' v' (tileRect_has.1 ?_)
    have e1 : ((u' * (c.dx * 2 ^ d.reduce) : Nat) : Int) = u' * 2 ^ d.reduce * c.dx := by push_cast; ring
    have e2 : ((v' * (c.dy * 2 ^ d.reduce) : Nat) : Int) = v' * 2 ^ d.reduce * c.dy := by push_cast; ring
    rw [e1, e2]
    exact this
  rw [hkp]
  unfold buffer
  rw [e]

/-- All tiles. -/
theorem tilesLoop_ok {d : Dec} {b : Box} {used : Nat → Bool} {P : Nat → Int → Int → Int} {Q : Nat → Nat → Int → Int → Int}
    {kept : Nat → Nat → List Int} {cs0 : List Comp} (hR : Ready d b used cs0) (hr : ∀ c ∈ d.p.comps, d.reduce < c.prc.length)
    (hb : b.x0 ≤ b.x1 ∧ b.x1 < 2 ^ 31 ∧ b.y0 ≤ b.y1 ∧ b.y1 < 2 ^ 31) :
    ∀ (tiles : List Nat) (k : Nat) (cs : List Comp) (S : Nat → Int → Int → Prop),
    (∀ t ∈ tiles, Tcd.Fit d.p t ∧ (∃ T, Tcd.initTile false d.p t = .ok T) ∧ Meets (tileRectOf d.p t) b ∧ Agrees d.p d.reduce P (Q t) t) →
    Inv d b used P cs0 cs S →
    ∃ cs', tilesLoop d b used Q kept k tiles cs = .ok cs' ∧
      Inv d b used P cs0 cs' (fun i u v => S i u v ∨ ∃ t ∈ tiles, ∃ c, d.p.comps[i]? = some c ∧ Here (tileRectOf d.p t) b d.reduce c.dx c.dy u v)
  | [], k, cs, S, _, hI => by
    refine ⟨cs, rfl, ?_⟩
    simpa using hI
  | t :: ts, k, cs, S, h, hI => by
    obtain ⟨hf, ⟨T, hT⟩, hm, hQ⟩ := h t (by simp)
    obtain ⟨ss, s1, s2, s3⟩ := decodeTile_ok (used := used) (P := Q t) (kept := kept k) hf hr hT hm hb
    obtain ⟨cs1, u1, u2⟩ := tile_step hR hI s2 fun i c s hc hs => (s3 i c s hc hs).agree hQ hc
    obtain ⟨cs', l1, l2⟩ := tilesLoop_ok hR hr hb ts (k + 1) cs1 _ (fun t ht => h t (by simp [ht])) u2
    refine ⟨cs', ?_, l2.len, l2.same, ?_, l2.no⟩
    · unfold tilesLoop
      rw [s1, ok_bind, u1, ok_bind, l1]
    · intro i c0 c h0 hc hu X0 Y0 hD
      have k := l2.yes i c0 c h0 hc hu X0 Y0 hD
      have imp : ∀ u v, (S i u v ∨ ∃ t' ∈ t :: ts, ∃ c, d.p.comps[i]? = some c ∧ Here (tileRectOf d.p t') b d.reduce c.dx c.dy u v) →
          ((S i u v ∨ ∃ c, d.p.comps[i]? = some c ∧ Here (tileRectOf d.p t) b d.reduce c.dx c.dy u v) ∨
            ∃ t' ∈ ts, ∃ c, d.p.comps[i]? = some c ∧ Here (tileRectOf d.p t') b d.reduce c.dx c.dy u v) := by
        rintro u v (hh | ⟨t', ht', hh⟩)
        · exact Or.inl (Or.inl hh)
        · rcases List.mem_cons.1 ht' with e | ht'
          · exact Or.inl (Or.inr (e ▸ hh))
          · exact Or.inr ⟨t', ht', hh⟩
      exact ⟨fun dst hd => ⟨(k.vals dst hd).1, fun a e ha he h => (k.vals dst hd).2 a e ha he (imp _ _ h)⟩, fun a e ha he h => k.some a e ha he (imp _ _ h)⟩

theorem allDecoded_ok {used : Nat → Bool} : ∀ (cs : List Comp) (i : Nat), (∀ (j : Nat) (c : Comp), cs[j]? = some c → used (i + j) = true → c.data ≠ none) →
    allDecoded used i cs = true
  | [], _, _ => rfl
  | c :: cs, i, h => by
    have h1 := h 0 c rfl
    have h2 := allDecoded_ok cs (i + 1) (fun j c hc hu => h (j + 1) c hc (by rwa [show i + (j + 1) = i + 1 + j by omega]))
    unfold allDecoded
    rw [h2, Bool.and_true]
    rw [Nat.add_zero] at h1
    cases hu : used i
    · rfl
    · have := h1 hu
      cases hd : c.data
      · exact absurd hd this
      · rfl

end Jp2.Area

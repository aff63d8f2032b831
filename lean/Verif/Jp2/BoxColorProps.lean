import Verif.Jp2.BoxCdef
/-!
# C61, C62: palettes and channel definitions of a JP2 file

`Loaded H comps` says that `comps` are the components of a decoded image, each with its own samples; `applyColor` is
what decoding does to them when the codestream has been decoded. The tables come from a file that was read, which
gives `PclrOk` (`C57_in_range`).
-/
namespace Jp2.Box
open Hdr (Fail R refuseIf ok_bind refuse_bind)

/-! ## C61 -/

/-- What the palette step does when the mapping is usable. -/
theorem applyPclr_eq {pc : Pclr} {comps : List Comp} {H : Heap} (hu : Usable comps.length pc) (hl : Loaded H comps) :
    ∃ H' ncs, applyPclr pc comps H = .ok (H', ncs) ∧ ∀ c ∈ ncs, Dangling H' c := by
  obtain ⟨H1, ncs, e1, e2, e3, _⟩ := mapPalette_eq hu hl
  obtain ⟨H2, f1, f2, _⟩ := freeAll_eq comps H1 (hl.shape e2)
  refine ⟨H2, ncs, ?_, ?_⟩
  · unfold applyPclr
    rw [e1, ok_bind]
    dsimp only
    rw [f1, ok_bind]
    rfl
  · intro c hc
    rw [e3] at hc
    obtain ⟨x, hx, rfl⟩ := List.mem_map.1 hc
    have hx1 : x.1 ∈ pc.cmap := (List.of_mem_zip hx).1
    obtain ⟨i, hi, he⟩ := List.getElem_of_mem hx1
    have hm := hu.maps i x.1 (by rw [List.getElem?_eq_getElem hi, he])
    rw [getD_lt hm.cmp]
    obtain ⟨b, hb1, hb2⟩ := f2 _ (List.getElem_mem hm.cmp)
    exact ⟨b, hb1, hb2⟩

/-- **C61.** Whatever palette, component mapping and channel definitions a file has, applying them to the decoded
image succeeds or is refused: no table is indexed outside its length, no sample outside its component. -/
theorem C61_color_safe (toDecode : Nat) (ignore : Bool) (j : Codec) (hj : ∀ pc, j.pclr = some pc → PclrOk pc)
    (comps : List Comp) (H : Heap) (hl : Loaded H comps) :
    (∃ r, applyColor toDecode ignore j comps H = .ok r) ∨ applyColor toDecode ignore j comps H = .error .refused := by
  unfold applyColor
  split
  · exact Or.inl ⟨_, rfl⟩
  split
  · exact Or.inl ⟨_, rfl⟩
  have hc := checkColor_post (numcomps := comps.length) (cdef := j.cdef) hj
  cases h : checkColor comps.length j.pclr j.cdef with
  | error e =>
    rw [h] at hc
    rcases hc with hc | hc
    · exact Or.inr (by rw [hc]; rfl)
    · exact absurd hc.2 id
  | ok r =>
    rw [ok_bind]
    have hu := hc.of_ok h
    left
    unfold palette
    cases r with
    | none => exact ⟨_, rfl⟩
    | some pc =>
      dsimp only
      split
      · exact ⟨_, rfl⟩
      · rename_i hne
        obtain ⟨H', ncs, e, _⟩ := applyPclr_eq (hu pc rfl hne) hl
        rw [e, ok_bind]
        exact ⟨_, rfl⟩

/-- **C61, in part.** A palette is applied as the standard says up to the point where the old components are dropped, if
no two channels are made of the same component: every channel has the size and sign of its column, and its samples are
the entries its component selects, or the component itself for direct use.

Missing: after the drop the samples are gone (`C61_palette_samples_freed`), and several channels from one component,
the usual case, give wrong colours (`C61_shared_component_wrong`). -/
theorem C61_palette_lookup_partial (pc : Pclr) (hp : PclrOk pc) (comps : List Comp) (H : Heap) (hl : Loaded H comps)
    (hlen : pc.cmap.length = pc.nrChannels) (hm : ∀ i m, pc.cmap[i]? = some m → MapOk comps.length pc.nrChannels i m)
    (hnd : (pc.cmap.map Map.cmp).Nodup) :
    ∃ H' ncs, mapPalette pc comps H = .ok (H', ncs) ∧ ncs.length = pc.nrChannels ∧
      ∀ (i : Nat) (m : Map) (ch : Nat × Nat), pc.cmap[i]? = some m → pc.channel[i]? = some ch → ∃ oc nc src, comps[m.cmp]? = some oc ∧ ncs[i]? = some nc ∧
        nc = { oc with prec := ch.1, sgnd := ch.2 } ∧ samples H oc = .ok src ∧ samples H' nc = .ok (channelSamples pc m src) := by
  obtain ⟨H', ncs, e1, _, e3, e4⟩ := mapPalette_eq ⟨hp, hlen, hm⟩ hl
  refine ⟨H', ncs, e1, ?_, ?_⟩
  · rw [e3, List.length_map, List.length_zip, hlen, hp.channel, Nat.min_self]
  · intro i m ch h1 h2
    have hz : (pc.cmap.zip pc.channel)[i]? = some (m, ch) := List.getElem?_zip_eq_some.2 ⟨h1, h2⟩
    obtain ⟨src, g1, g2⟩ := e4 hnd (m, ch) (List.mem_of_getElem? hz)
    have hc := (hm i m h1).cmp
    rw [getD_lt hc] at g1 g2
    refine ⟨comps[m.cmp], _, src, List.getElem?_eq_getElem hc, ?_, rfl, g1, g2⟩
    rw [e3, List.getElem?_map, hz]
    have hg : comps.getD m.cmp {} = comps[m.cmp] := getD_lt hc
    show some { comps.getD m.cmp {} with prec := ch.1, sgnd := ch.2 } = _
    rw [hg]

/-- An image of two components of two samples, for a palette of two entries and two columns. -/
def exPal : Pclr := ⟨2, 2, [(8, 0), (16, 1)], [10, 20, 30, 40], [⟨1, 1, 0⟩, ⟨0, 1, 1⟩]⟩
def exComps : List Comp := [{ w := 2, h := 1, prec := 1, data := some 0 }, { w := 1, h := 2, prec := 2, data := some 1 }]
def exHeap : Heap := [some [0, 1], some [1, 7]]

theorem exLoaded : Loaded exHeap exComps := by
  refine ⟨?_, by decide⟩
  intro c hc
  simp only [exComps, List.mem_cons, List.not_mem_nil, or_false] at hc
  rcases hc with rfl | rfl
  · exact ⟨0, [0, 1], rfl, rfl, by decide⟩
  · exact ⟨1, [1, 7], rfl, rfl, by decide⟩

theorem exPal_ok : PclrOk exPal :=
  ⟨by decide, by decide, by decide, by decide, by decide, by decide, Or.inr (by decide), by decide⟩

/-- The hypotheses of `C61_palette_lookup_partial` can be met, and what it says of that image. -/
example : (∀ i m, exPal.cmap[i]? = some m → MapOk exComps.length exPal.nrChannels i m) ∧ (exPal.cmap.map Map.cmp).Nodup ∧
    mapPalette exPal exComps exHeap = .ok ([some [20, 40], some [30, 30]],
      [{ w := 1, h := 2, prec := 8, sgnd := 0, data := some 1 }, { w := 2, h := 1, prec := 16, sgnd := 1, data := some 0 }]) := by
  refine ⟨?_, by decide, by decide +kernel⟩
  intro i m h
  match i, h with
  | 0, h => injection h with h; subst h; exact ⟨by decide, by decide, by decide⟩
  | 1, h => injection h with h; subst h; exact ⟨by decide, by decide, by decide⟩

/-- **C61, false of the code.** Whenever a palette is applied, every component of the image that is returned points to
memory that has been freed: the new components take over the pointers of the old ones, which are dropped. -/
theorem C61_palette_samples_freed (j : Codec) (hj : ∀ pc, j.pclr = some pc → PclrOk pc) (comps : List Comp) (H : Heap)
    (hl : Loaded H comps) (pc : Pclr) (hp : j.pclr = some pc) (hc : pc.cmap ≠ []) (H' : Heap) (r : List Comp)
    (h : applyColor 0 false j comps H = .ok (H', r)) : ∀ c ∈ r, Dangling H' c ∧ samples H' c = .error .oob := by
  unfold applyColor at h
  rw [if_neg (by decide), if_neg (by decide)] at h
  obtain ⟨q, hq, h⟩ := Hdr.bind_ok h
  have hu := (checkColor_post (numcomps := comps.length) (cdef := j.cdef) hj).of_ok hq
  have hsome : ∃ pc', q = some pc' ∧ pc'.cmap ≠ [] := by
    unfold checkColor at hq
    rw [hp] at hq
    obtain ⟨_, _, hq⟩ := Hdr.bind_ok hq
    dsimp only at hq
    split at hq
    · rename_i hlen
      cases hm : checkMaps comps.length pc.nrChannels pc.cmap with
      | none => rw [hm] at hq; cases hq
      | some ms =>
        rw [hm] at hq
        injection hq with hq
        refine ⟨_, hq.symm, ?_⟩
        have := (checkMaps_ok hlen hm).1
        intro h0
        have h0 : ms = [] := h0
        rw [h0] at this
        have hp1 := (hj pc hp).channels
        simp at this
        omega
    · injection hq with hq
      exact ⟨pc, hq.symm, hc⟩
  obtain ⟨pc', rfl, hne⟩ := hsome
  obtain ⟨H1, ncs, e, hd⟩ := applyPclr_eq (hu pc' rfl hne) hl
  unfold palette at h
  dsimp only at h
  rw [if_neg hne, e, ok_bind] at h
  dsimp only at h
  injection h with h
  injection h with h1 h2
  subst h1
  have key : ∀ c ∈ r, Dangling H1 c := by
    intro c hc
    rw [← h2] at hc
    have hb : c.body ∈ ncs.map Comp.body := by
      unfold define at hc
      cases hcd : j.cdef with
      | none => rw [hcd] at hc; exact List.mem_map_of_mem hc
      | some ds =>
        rw [hcd] at hc
        exact (applyCdef_perm ds ncs).mem_iff.1 (List.mem_map_of_mem hc)
    obtain ⟨c0, hc0, he⟩ := List.mem_map.1 hb
    obtain ⟨b, hb1, hb2⟩ := hd c0 hc0
    refine ⟨b, ?_, hb2⟩
    have : c.body.data = c0.body.data := by rw [he]
    exact this.trans hb1
  intro c hc
  refine ⟨key c hc, ?_⟩
  obtain ⟨b, hb1, hb2⟩ := key c hc
  unfold samples
  rw [hb1]
  dsimp only
  rw [hb2]

/-- Such an image: the one above, its palette applied. -/
example : (applyColor 0 false { pclr := some exPal } exComps exHeap).map Prod.fst = .ok [none, none] := by decide +kernel

/-- **C61, false of the code.** One component with three columns, as in any palette image: samples 0 and 1 with the
palette (1, 2, 3), (4, 5, 6) shall be (1, 2, 3) and (4, 5, 6), but all three channels share one block, and each column
is looked up with the result of the one before. -/
theorem C61_shared_component_wrong :
    mapPalette ⟨2, 3, [(8, 0), (8, 0), (8, 0)], [1, 2, 3, 4, 5, 6], [⟨0, 1, 0⟩, ⟨0, 1, 1⟩, ⟨0, 1, 2⟩]⟩
      [{ w := 2, h := 1, prec := 1, data := some 0 }] [some [0, 1]] =
    .ok ([some [6, 6]], [{ w := 2, h := 1, prec := 8, data := some 0 }, { w := 2, h := 1, prec := 8, data := some 0 },
      { w := 2, h := 1, prec := 8, data := some 0 }]) ∧
    channelSamples ⟨2, 3, [(8, 0), (8, 0), (8, 0)], [1, 2, 3, 4, 5, 6], []⟩ ⟨0, 1, 0⟩ [0, 1] = [1, 4] := by
  refine ⟨?_, ?_⟩ <;> decide +kernel

/-- **C61.** Neither palette nor channel definitions are applied when some components only are decoded, or when the
user asked to ignore them. -/
theorem C61_not_applied (toDecode : Nat) (ignore : Bool) (h : toDecode ≠ 0 ∨ ignore = true) (j : Codec) (comps : List Comp) (H : Heap) :
    applyColor toDecode ignore j comps H = .ok (H, comps) := by
  unfold applyColor
  split
  · rfl
  · rcases h with h | h
    · contradiction
    · rw [if_pos h]

/-! ## C62 -/

/-- **C62.** Without a palette, channel definitions are accepted exactly if they name channels and colours the image
has, and every channel but the first has one. -/
theorem C62_accepted_iff (j : Codec) (ds : List Def) (hp : j.pclr = none) (hc : j.cdef = some ds) (comps : List Comp) (H : Heap) :
    (∃ r, applyColor 0 false j comps H = .ok r) ↔
    (∀ d ∈ ds, d.cn < comps.length ∧ (d.asoc = 65535 ∨ d.asoc ≤ comps.length)) ∧
      ∀ c, 1 ≤ c → c < comps.length → ∃ d ∈ ds, d.cn = c := by
  rw [← checkDefs_iff]
  unfold applyColor
  rw [if_neg (by decide), if_neg (by decide)]
  unfold checkColor
  rw [hp, hc]
  dsimp only
  constructor
  · rintro ⟨r, h⟩
    obtain ⟨_, h1, _⟩ := Hdr.bind_ok h
    obtain ⟨_, h2, _⟩ := Hdr.bind_ok h1
    have := refuse_ok h2
    simpa using this
  · intro h
    have h' : (Option.map (checkDefs comps.length) (some ds)).getD true = true := h
    rw [h']
    exact ⟨_, rfl⟩

/-- **C62.** No component is lost or made twice by channel definitions, whatever they are: they only reorder the
components and set their kinds, and leave all samples. -/
theorem C62_components_kept (j : Codec) (hp : j.pclr = none) (comps r : List Comp) (H H' : Heap)
    (h : applyColor 0 false j comps H = .ok (H', r)) : H' = H ∧ (r.map Comp.body).Perm (comps.map Comp.body) := by
  unfold applyColor at h
  rw [if_neg (by decide), if_neg (by decide)] at h
  obtain ⟨q, hq, h⟩ := Hdr.bind_ok h
  have : q = none := by
    unfold checkColor at hq
    rw [hp] at hq
    obtain ⟨_, _, hq⟩ := Hdr.bind_ok hq
    injection hq with hq
    exact hq.symm
  subst this
  unfold palette at h
  dsimp only at h
  rw [ok_bind] at h
  dsimp only at h
  injection h with h
  injection h with h1 h2
  refine ⟨h1.symm, ?_⟩
  rw [← h2]
  unfold define
  split
  · exact List.Perm.refl _
  · exact applyCdef_perm _ _

/-- What decoding does with definitions that are as the standard asks. -/
theorem applyColor_defs {j : Codec} {ds : List Def} (hp : j.pclr = none) (hc : j.cdef = some ds) {comps : List Comp}
    (hd : DefsOk comps.length ds) (H : Heap) : applyColor 0 false j comps H = .ok (H, applyCdef ds comps) := by
  obtain ⟨r, hr⟩ := (C62_accepted_iff j ds hp hc comps H).2
    ⟨fun d h => ⟨hd.cn d h, hd.asoc d h⟩, fun c _ h => hd.all c h⟩
  rw [hr]
  unfold applyColor at hr
  rw [if_neg (by decide), if_neg (by decide)] at hr
  obtain ⟨q, hq, hr⟩ := Hdr.bind_ok hr
  have : q = none := by
    unfold checkColor at hq
    rw [hp] at hq
    obtain ⟨_, _, hq⟩ := Hdr.bind_ok hq
    injection hq with hq
    exact hq.symm
  subst this
  unfold palette at hr
  dsimp only at hr
  rw [ok_bind] at hr
  dsimp only at hr
  rw [hc] at hr
  exact hr.symm

/-- **C62.** With definitions as the standard has them, in whatever order, every colour channel ends up at the place of
its colour: component 0 is the first colour, and so on. -/
theorem C62_colors_placed (j : Codec) (ds : List Def) (hp : j.pclr = none) (hc : j.cdef = some ds) (comps : List Comp)
    (hd : DefsOk comps.length ds) (H : Heap) : ∃ r, applyColor 0 false j comps H = .ok (H, r) ∧
      ∀ d ∈ ds, IsColor d → r[d.asoc - 1]?.map Comp.body = comps[d.cn]?.map Comp.body :=
  ⟨_, applyColor_defs hp hc hd H, applyCdef_place ds comps hd.in⟩

/-- **C62, in part.** If colours are defined before opacity and other channels, every component also gets the kind its
definition says (0 colour, 1 opacity, 2 premultiplied opacity): the result is the typed components in another order,
colours at their places.

Missing: definitions in any other order may lose kinds (`C62_opacity_lost`). -/
theorem C62_kinds_partial (j : Codec) (cs os : List Def) (hp : j.pclr = none) (hc : j.cdef = some (cs ++ os)) (comps : List Comp)
    (hd : DefsOk comps.length (cs ++ os)) (hcs : ∀ d ∈ cs, IsColor d) (hos : ∀ d ∈ os, ¬ IsColor d)
    (ha : ∀ c ∈ comps, c.alpha = 0) (H : Heap) :
    ∃ r, applyColor 0 false j comps H = .ok (H, r) ∧ r.Perm (typed (cs ++ os) comps) ∧
      ∀ d ∈ cs, r[d.asoc - 1]? = comps[d.cn]? := by
  have h := applyCdef_full cs.length cs os comps rfl hd.in hcs hos ha
  rw [typed_eq hd rfl] at h
  exact ⟨_, applyColor_defs hp hc hd H, h⟩

/-- Blue, green, red and opacity, in that order: definitions the theorems above speak of. -/
def exBgra : List Def := [⟨0, 0, 3⟩, ⟨1, 0, 2⟩, ⟨2, 0, 1⟩, ⟨3, 1, 0⟩]
def ex4 : List Comp := [{ prec := 1, data := some 0 }, { prec := 2, data := some 1 }, { prec := 3, data := some 2 }, { prec := 4, data := some 3 }]

example : DefsOk ex4.length exBgra ∧ (∀ d ∈ exBgra.take 3, IsColor d) ∧ (∀ d ∈ exBgra.drop 3, ¬ IsColor d) ∧
    applyColor 0 false { cdef := some exBgra } ex4 [] =
      .ok ([], [{ prec := 3, data := some 2 }, { prec := 2, data := some 1 }, { prec := 1, data := some 0 },
        { prec := 4, data := some 3, alpha := 1 }]) := by
  refine ⟨⟨by decide, by decide, by decide, by decide, by decide⟩, by decide, by decide, ?_⟩
  decide +kernel

/-- **C62, false of the code.** Opacity first, then red, green and blue, as in ARGB: the colours are placed, but the
opacity channel is no longer marked as one, since the exchange with the first colour takes the mark away. -/
theorem C62_opacity_lost :
    DefsOk ex4.length [⟨0, 1, 0⟩, ⟨1, 0, 1⟩, ⟨2, 0, 2⟩, ⟨3, 0, 3⟩] ∧
    applyColor 0 false { cdef := some [⟨0, 1, 0⟩, ⟨1, 0, 1⟩, ⟨2, 0, 2⟩, ⟨3, 0, 3⟩] } ex4 [] =
      .ok ([], [{ prec := 2, data := some 1 }, { prec := 3, data := some 2 }, { prec := 4, data := some 3 },
        { prec := 1, data := some 0, alpha := 0 }]) := by
  refine ⟨⟨by decide, by decide, by decide, by decide, by decide⟩, ?_⟩
  decide +kernel

/-- **C62, false of the code.** The standard wants a definition for every channel; one for the first is not asked for. -/
theorem C62_first_undefined_accepted :
    applyColor 0 false { cdef := some [⟨1, 0, 2⟩] } (ex4.take 2) [] = .ok ([], ex4.take 2) := by decide +kernel

end Jp2.Box

import Verif.Jp2.BoxColorSpec
import Verif.Jp2.BoxSafe
import Verif.Jp2.BoxOrder
/-!
# Palettes: helper lemmas
-/
namespace Jp2.Box
open Hdr (Fail R refuseIf ok_bind refuse_bind)

theorem getD_lt {α : Type} {l : List α} {d : α} {i : Nat} (h : i < l.length) : l.getD i d = l[i] := by
  rw [List.getD_eq_getElem?_getD, List.getElem?_eq_getElem h]; rfl

/-! ## The checks -/

theorem scanMap_true {nr i : Nat} {c : Map} {st : Bool × List Nat} (h : (scanMap nr i c st).1 = true) :
    st.1 = true ∧ c.pcol < nr ∧ ((c.mtyp = 0 ∧ c.pcol = 0) ∨ (c.mtyp = 1 ∧ c.pcol = i)) := by
  unfold scanMap at h
  split at h
  · cases h
  split at h
  · cases h
  split at h
  · cases h
  split at h
  · cases h
  split at h
  · cases h
  refine ⟨h, by omega, ?_⟩
  by_cases hm : c.mtyp = 0
  · left; refine ⟨hm, ?_⟩
    by_contra hp
    exact ‹¬ (c.mtyp = 0 ∧ c.pcol ≠ 0)› ⟨hm, hp⟩
  · right
    have : c.mtyp = 1 := by
      by_contra hp
      exact ‹¬ (c.mtyp ≠ 0 ∧ c.mtyp ≠ 1)› ⟨hm, hp⟩
    refine ⟨this, ?_⟩
    by_contra hp
    exact ‹¬ (c.mtyp = 1 ∧ c.pcol ≠ i)› ⟨this, hp⟩

theorem scanMaps_true {nr : Nat} : ∀ {cs : List Map} {i : Nat} {st : Bool × List Nat}, (scanMaps nr i cs st).1 = true →
    st.1 = true ∧ ∀ k c, cs[k]? = some c → c.pcol < nr ∧ ((c.mtyp = 0 ∧ c.pcol = 0) ∨ (c.mtyp = 1 ∧ c.pcol = i + k))
  | [], i, st, h => ⟨h, by intro k c hk; simp at hk⟩
  | c :: cs, i, st, h => by
    unfold scanMaps at h
    obtain ⟨h1, h2⟩ := scanMaps_true h
    obtain ⟨g1, g2, g3⟩ := scanMap_true h1
    refine ⟨g1, ?_⟩
    intro k c' hk
    cases k with
    | zero => simp at hk; subst hk; exact ⟨g2, g3⟩
    | succ k =>
      simp at hk
      have := h2 k c' hk
      refine ⟨this.1, ?_⟩
      rcases this.2 with h | h
      · exact Or.inl h
      · exact Or.inr ⟨h.1, by omega⟩

theorem checkMaps_ok {numcomps nr : Nat} {ms ms' : List Map} (hl : ms.length = nr) (h : checkMaps numcomps nr ms = some ms') :
    ms'.length = nr ∧ ∀ i m, ms'[i]? = some m → MapOk numcomps nr i m := by
  unfold checkMaps at h
  dsimp only at h
  obtain ⟨s0, hs0⟩ : ∃ s, s = ms.all fun c => decide (c.cmp < numcomps) := ⟨_, rfl⟩
  obtain ⟨sc, hsc⟩ : ∃ sc, sc = scanMaps nr 0 ms (s0, []) := ⟨_, rfl⟩
  rw [← hs0, ← hsc] at h
  have key : sc.1 = true → ∀ i m, ms[i]? = some m → MapOk numcomps nr i m := by
    intro ht i m hm
    rw [hsc] at ht
    obtain ⟨h0, h1⟩ := scanMaps_true ht
    have h0 : s0 = true := h0
    rw [hs0, List.all_eq_true] at h0
    have := h1 i m hm
    rw [Nat.zero_add] at this
    exact ⟨by simpa using h0 m (List.mem_of_getElem? hm), this.1, this.2⟩
  split at h
  · rename_i hc
    have ht : sc.1 = true := by
      have := hc.1
      rw [Bool.and_eq_true] at this
      exact this.1
    injection h with h
    subst h
    refine ⟨by rw [List.length_mapIdx]; exact hl, ?_⟩
    intro i m hm
    rw [List.getElem?_mapIdx] at hm
    cases hi : ms[i]? with
    | none => rw [hi] at hm; cases hm
    | some m0 =>
      rw [hi] at hm
      have hm' : ({ m0 with mtyp := 1, pcol := i } : Map) = m := by simpa using hm
      subst hm'
      have hlt : i < ms.length := by
        rw [List.getElem?_eq_some_iff] at hi
        exact hi.1
      exact ⟨(key ht i m0 hi).cmp, by show i < nr; omega, Or.inr ⟨rfl, rfl⟩⟩
  · split at h
    · rename_i hc
      rw [Bool.and_eq_true] at hc
      injection h with h
      subst h
      exact ⟨hl, key hc.1⟩
    · cases h

/-- What is known of a palette that may be applied. -/
structure Usable (numcomps : Nat) (pc : Pclr) : Prop where
  ok : PclrOk pc
  len : pc.cmap.length = pc.nrChannels
  maps : ∀ i m, pc.cmap[i]? = some m → MapOk numcomps pc.nrChannels i m

theorem checkColor_post {numcomps : Nat} {pclr : Option Pclr} {cdef : Option (List Def)} (hp : ∀ pc, pclr = some pc → PclrOk pc) :
    Post False (checkColor numcomps pclr cdef) (fun r => ∀ pc, r = some pc → pc.cmap ≠ [] → Usable numcomps pc) := by
  unfold checkColor
  refine Post.bind (refuseIf_post _) fun _ _ => ?_
  cases pclr with
  | none => exact Post.pure (fun pc h => nomatch h)
  | some pc =>
    have hok := hp pc rfl
    dsimp only
    split
    · rename_i hl
      cases hc : checkMaps numcomps pc.nrChannels pc.cmap with
      | none => exact Post.refused
      | some ms =>
        refine Post.pure ?_
        intro pc' h' _
        injection h' with h'
        subst h'
        obtain ⟨h1, h2⟩ := checkMaps_ok hl hc
        refine ⟨⟨hok.entries, hok.channels, hok.channel, hok.sizes, hok.len, hok.range, Or.inr h1, ?_⟩, h1, h2⟩
        intro m hm
        obtain ⟨i, hi, rfl⟩ := List.getElem_of_mem hm
        have hmo := h2 i _ (List.getElem?_eq_getElem hi)
        have hc1 := hok.channels
        -- the component of the mapping is one of those read
        have hcmp : (ms[i]).cmp < 65536 := by
          unfold checkMaps at hc
          dsimp only at hc
          split at hc
          · injection hc with hc
            subst hc
            rw [List.getElem_mapIdx]
            exact (hok.maps _ (List.getElem_mem _)).1
          · split at hc
            · injection hc with hc
              subst hc
              exact (hok.maps _ (List.getElem_mem _)).1
            · cases hc
        refine ⟨hcmp, ?_, by have := hmo.col; omega⟩
        rcases hmo.kind with h | h <;> omega
    · rename_i hl
      refine Post.pure ?_
      intro pc' h' hne
      injection h' with h'
      subst h'
      rcases hok.cmap with h | h
      · exact absurd h hne
      · exact absurd h hl

/-! ## Memory -/

/-- Blocks keep their lengths and stay live. -/
def Shape (H H' : Heap) : Prop := H'.map (Option.map List.length) = H.map (Option.map List.length)

theorem Shape.refl (H : Heap) : Shape H H := rfl

theorem Shape.trans {H H' H'' : Heap} (h : Shape H H') (h' : Shape H' H'') : Shape H H'' := by
  unfold Shape at *; rw [h', h]

theorem Shape.live {H H' : Heap} (h : Shape H H') {b : Nat} {xs : List Int} (hb : H[b]? = some (some xs)) :
    ∃ ys, H'[b]? = some (some ys) ∧ ys.length = xs.length := by
  unfold Shape at h
  have := congrArg (fun l => l[b]?) h
  simp only [List.getElem?_map] at this
  rw [hb] at this
  cases h' : H'[b]? with
  | none => rw [h'] at this; cases this
  | some o =>
    rw [h'] at this
    cases o with
    | none => cases this
    | some ys =>
      refine ⟨ys, rfl, ?_⟩
      simpa using this

theorem Loaded.shape {H H' : Heap} {comps : List Comp} (hl : Loaded H comps) (h : Shape H H') : Loaded H' comps := by
  refine ⟨?_, hl.own⟩
  intro c hc
  obtain ⟨b, xs, h1, h2, h3⟩ := hl.live c hc
  obtain ⟨ys, h4, h5⟩ := h.live h2
  exact ⟨b, ys, h1, h4, by omega⟩

theorem store_eq {H : Heap} {c : Comp} {b : Nat} {xs ys : List Int} (hc : c.data = some b) (hb : H[b]? = some (some xs)) :
    store H c ys = H.set b (some (ys ++ xs.drop ys.length)) := by
  unfold store
  rw [hc]
  dsimp only
  rw [hb]
  rfl

theorem store_shape {H : Heap} {c : Comp} {b : Nat} {xs ys : List Int} (hc : c.data = some b) (hb : H[b]? = some (some xs))
    (hl : ys.length ≤ xs.length) : Shape H (store H c ys) := by
  rw [store_eq hc hb]
  unfold Shape
  apply List.ext_getElem?
  intro k
  rw [List.getElem?_map, List.getElem?_map, List.getElem?_set]
  by_cases hk : b = k
  · subst hk
    rw [hb, if_pos rfl]
    have hlt : b < H.length := (List.getElem?_eq_some_iff.1 hb).1
    rw [if_pos hlt]
    show some (some ((ys ++ xs.drop ys.length).length)) = some (some xs.length)
    rw [List.length_append, List.length_drop]
    congr 2
    omega
  · rw [if_neg hk]

theorem samples_ok {H : Heap} {c : Comp} {b : Nat} {xs : List Int} (hc : c.data = some b) (hb : H[b]? = some (some xs))
    (hl : c.w * c.h ≤ xs.length) : samples H c = .ok (xs.take (c.w * c.h)) := by
  unfold samples
  rw [hc]
  dsimp only
  rw [hb]
  dsimp only
  rw [if_pos hl]

/-! ## Palette -/

theorem lookup_eq {pc : Pclr} (h : PclrOk pc) {pcol : Nat} (hp : pcol < pc.nrChannels) (v : Int) :
    lookup pc pcol v = .ok (entry pc (row pc.nrEntries v) pcol) := by
  have he := h.entries
  unfold lookup entry
  dsimp only
  have hk : (if v < 0 then 0 else if (pc.nrEntries : Int) - 1 < v then (pc.nrEntries : Int) - 1 else v) = (row pc.nrEntries v : Nat) := by
    unfold row
    split
    · omega
    · split <;> omega
  rw [hk]
  have e : (((row pc.nrEntries v : Nat) : Int) * pc.nrChannels + pcol).toNat = row pc.nrEntries v * pc.nrChannels + pcol := by
    rw [← Int.natCast_mul, ← Int.natCast_add, Int.toNat_natCast]
  rw [e]
  have hlt : row pc.nrEntries v * pc.nrChannels + pcol < pc.entries.length := by
    rw [h.len]
    have : row pc.nrEntries v + 1 ≤ pc.nrEntries := by unfold row; omega
    have := Nat.mul_le_mul_right pc.nrChannels this
    rw [Nat.succ_mul] at this
    omega
  rw [List.getElem?_eq_getElem hlt, getD_lt hlt]

theorem lookups_eq {pc : Pclr} (h : PclrOk pc) {pcol : Nat} (hp : pcol < pc.nrChannels) : ∀ vs,
    lookups pc pcol vs = .ok (vs.map fun v => entry pc (row pc.nrEntries v) pcol)
  | [] => rfl
  | v :: vs => by
    unfold lookups
    rw [lookup_eq h hp, ok_bind, lookups_eq h hp vs, ok_bind]
    rfl

theorem channelSamples_len (pc : Pclr) (m : Map) (src : List Int) : (channelSamples pc m src).length = src.length := by
  unfold channelSamples
  split
  · rfl
  · rw [List.length_map]

theorem mapChannel_eq {pc : Pclr} (h : PclrOk pc) {old : List Comp} {H : Heap} {m : Map} {ch : Nat × Nat} (hp : m.pcol < pc.nrChannels)
    {oc : Comp} (ho : old[m.cmp]? = some oc) {src : List Int} (hs : samples H oc = .ok src) :
    mapChannel pc old H m ch = .ok (store H { oc with prec := ch.1, sgnd := ch.2 } (channelSamples pc m src), { oc with prec := ch.1, sgnd := ch.2 }) := by
  unfold mapChannel channelSamples
  rw [ho]
  dsimp only
  rw [hs, ok_bind]
  split
  · rfl
  · rw [lookups_eq h hp, ok_bind]
    rfl

/-- What the loop over the channels does. -/
theorem mapChannels_eq {pc : Pclr} (h : PclrOk pc) {old : List Comp} : ∀ (xs : List (Map × (Nat × Nat))) (H : Heap), Loaded H old →
    (∀ x ∈ xs, x.1.cmp < old.length ∧ x.1.pcol < pc.nrChannels) →
    ∃ H' ncs, mapChannels pc old xs H = .ok (H', ncs) ∧ Shape H H' ∧
      ncs = xs.map (fun x => { old.getD x.1.cmp {} with prec := x.2.1, sgnd := x.2.2 }) ∧
      (∀ b : Nat, (∀ x ∈ xs, (old.getD x.1.cmp {}).data ≠ some b) → H'[b]? = H[b]?) ∧
      ((xs.map fun x => x.1.cmp).Nodup → ∀ x ∈ xs, ∃ src, samples H (old.getD x.1.cmp {}) = .ok src ∧
        samples H' { old.getD x.1.cmp {} with prec := x.2.1, sgnd := x.2.2 } = .ok (channelSamples pc x.1 src))
  | [], H, hl, _ => ⟨H, [], rfl, Shape.refl H, rfl, (fun _ _ => rfl), fun _ x hx => nomatch hx⟩
  | x :: xs, H, hl, hx => by
    obtain ⟨hx1, hx2⟩ := hx x (List.mem_cons_self ..)
    have ho : old[x.1.cmp]? = some old[x.1.cmp] := List.getElem?_eq_getElem hx1
    have hgd : old.getD x.1.cmp {} = old[x.1.cmp] := getD_lt hx1
    obtain ⟨oc, hoc⟩ : ∃ oc, oc = old[x.1.cmp] := ⟨_, rfl⟩
    rw [← hoc] at ho hgd
    obtain ⟨b, ys, h1, h2, h3⟩ := hl.live oc (by rw [hoc]; exact List.getElem_mem hx1)
    have hsrc := samples_ok h1 h2 h3
    have hm := mapChannel_eq h (ch := x.2) hx2 ho hsrc
    obtain ⟨cs, hcs⟩ : ∃ cs, cs = channelSamples pc x.1 (ys.take (oc.w * oc.h)) := ⟨_, rfl⟩
    have hcl : cs.length = oc.w * oc.h := by
      rw [hcs, channelSamples_len, List.length_take]; omega
    rw [← hcs] at hm
    have hdat : ({ oc with prec := x.2.1, sgnd := x.2.2 } : Comp).data = some b := h1
    have hsh : Shape H (store H { oc with prec := x.2.1, sgnd := x.2.2 } cs) := store_shape hdat h2 (by omega)
    obtain ⟨H1, hH1⟩ : ∃ H1, H1 = store H { oc with prec := x.2.1, sgnd := x.2.2 } cs := ⟨_, rfl⟩
    have hset : H1 = H.set b (some (cs ++ ys.drop cs.length)) := by rw [hH1, store_eq hdat h2]
    rw [← hH1] at hm hsh
    obtain ⟨H', ncs, e1, e2, e3, e4, e5⟩ := mapChannels_eq h xs H1 (hl.shape hsh) (fun y hy => hx y (List.mem_cons_of_mem _ hy))
    have hblt : b < H.length := (List.getElem?_eq_some_iff.1 h2).1
    refine ⟨H', { oc with prec := x.2.1, sgnd := x.2.2 } :: ncs, ?_, hsh.trans e2, ?_, ?_, ?_⟩
    · unfold mapChannels
      rw [hm, ok_bind]
      dsimp only
      rw [e1, ok_bind]
      rfl
    · rw [List.map_cons, hgd, e3]
    · intro b' hb'
      rw [e4 b' fun y hy => hb' y (List.mem_cons_of_mem _ hy), hset, List.getElem?_set_ne]
      intro hbb
      have := hb' x (List.mem_cons_self ..)
      rw [hgd, h1, hbb] at this
      exact this rfl
    · intro hnd y hy
      rw [List.map_cons, List.nodup_cons] at hnd
      -- blocks of different components differ
      have hdiff : ∀ z ∈ xs, (old.getD z.1.cmp {}).data ≠ some b := by
        intro z hz hzb
        obtain ⟨hz1, _⟩ := hx z (List.mem_cons_of_mem _ hz)
        rw [getD_lt hz1] at hzb
        have hne : z.1.cmp ≠ x.1.cmp := by
          intro he
          exact hnd.1 (by rw [← he]; exact List.mem_map_of_mem (f := fun x => x.1.cmp) hz)
        have hxb : old[x.1.cmp].data = some b := by rw [← hoc]; exact h1
        have hp := List.pairwise_filterMap.1 hl.own
        rw [List.pairwise_iff_getElem] at hp
        rcases Nat.lt_or_gt_of_ne hne with hlt | hgt
        · exact hp _ _ hz1 hx1 hlt b hzb b hxb rfl
        · exact hp _ _ hx1 hz1 hgt b hxb b hzb rfl
      rcases List.mem_cons.1 hy with rfl | hy
      · refine ⟨ys.take (oc.w * oc.h), by rw [hgd]; exact hsrc, ?_⟩
        have hb' : H'[b]? = some (some (cs ++ ys.drop cs.length)) := by
          rw [e4 b hdiff, hset, List.getElem?_set_self hblt]
        rw [hgd]
        have := samples_ok (c := { oc with prec := y.2.1, sgnd := y.2.2 }) hdat hb' (by
          show oc.w * oc.h ≤ _
          rw [List.length_append]; omega)
        rw [this, ← hcs]
        congr 1
        show (cs ++ ys.drop cs.length).take (oc.w * oc.h) = cs
        rw [← hcl, List.take_left]
      · obtain ⟨src, g1, g2⟩ := e5 hnd.2 y hy
        refine ⟨src, ?_, g2⟩
        obtain ⟨hy1, _⟩ := hx y (List.mem_cons_of_mem _ hy)
        rw [← g1]
        rw [getD_lt hy1]
        obtain ⟨b2, zs, k1, k2, k3⟩ := hl.live old[y.1.cmp] (List.getElem_mem hy1)
        have hne : b2 ≠ b := by
          intro he
          apply hdiff y hy
          rw [getD_lt hy1, k1, he]
        have hH1b : H1[b2]? = some (some zs) := by rw [hset, List.getElem?_set_ne (Ne.symm hne)]; exact k2
        rw [samples_ok k1 k2 k3, samples_ok k1 hH1b k3]

theorem checkUse_ok {comps : List Comp} (hc : ∀ c ∈ comps, c.data ≠ none) : ∀ (ms : List Map) (i : Nat),
    (∀ k m, ms[k]? = some m → m.cmp < comps.length ∧ (m.mtyp = 0 ∨ m.pcol = i + k)) → checkUse comps i ms = .ok ()
  | [], _, _ => rfl
  | m :: ms, i, h => by
    unfold checkUse
    have h0 := h 0 m rfl
    rw [List.getElem?_eq_getElem h0.1]
    dsimp only
    rw [refuse_bind (hc _ (List.getElem_mem h0.1)), refuse_bind (by
      rintro ⟨h1, h2⟩
      rcases h0.2 with h | h
      · exact h1 h
      · omega)]
    apply checkUse_ok hc ms
    intro k m' hk
    have := h (k + 1) m' (by simpa using hk)
    refine ⟨this.1, ?_⟩
    rcases this.2 with h | h
    · exact Or.inl h
    · exact Or.inr (by omega)

theorem zip_take {pc : Pclr} (hl : pc.cmap.length = pc.nrChannels) (hc : pc.channel.length = pc.nrChannels) :
    (pc.cmap.zip pc.channel).take pc.nrChannels = pc.cmap.zip pc.channel := by
  apply List.take_of_length_le
  rw [List.length_zip]; omega

theorem mapPalette_eq {pc : Pclr} {comps : List Comp} {H : Heap} (hu : Usable comps.length pc) (hl : Loaded H comps) :
    ∃ H' ncs, mapPalette pc comps H = .ok (H', ncs) ∧ Shape H H' ∧
      ncs = (pc.cmap.zip pc.channel).map (fun x => { comps.getD x.1.cmp {} with prec := x.2.1, sgnd := x.2.2 }) ∧
      ((pc.cmap.map Map.cmp).Nodup → ∀ x ∈ pc.cmap.zip pc.channel, ∃ src, samples H (comps.getD x.1.cmp {}) = .ok src ∧
        samples H' { comps.getD x.1.cmp {} with prec := x.2.1, sgnd := x.2.2 } = .ok (channelSamples pc x.1 src)) := by
  have hch := hu.ok.channels
  have hmem : ∀ x ∈ pc.cmap.zip pc.channel, x.1.cmp < comps.length ∧ x.1.pcol < pc.nrChannels := by
    intro x hx
    have hx1 : x.1 ∈ pc.cmap := (List.of_mem_zip hx).1
    obtain ⟨i, hi, he⟩ := List.getElem_of_mem hx1
    have := hu.maps i x.1 (by rw [List.getElem?_eq_getElem hi, he])
    exact ⟨this.cmp, this.col⟩
  obtain ⟨H', ncs, e1, e2, e3, _, e5⟩ := mapChannels_eq hu.ok (pc.cmap.zip pc.channel) H hl hmem
  have hne : comps ≠ [] := by
    intro h
    have := hu.maps 0 _ (List.getElem?_eq_getElem (by rw [hu.len]; omega))
    have := this.cmp
    have h0 : comps.length = 0 := by rw [h]; rfl
    omega
  refine ⟨H', ncs, ?_, e2, e3, ?_⟩
  · unfold mapPalette
    rw [refuse_bind hne, checkUse_ok (fun c hc h => by
        obtain ⟨b, _, hb, _⟩ := hl.live c hc
        rw [h] at hb; cases hb) pc.cmap 0 (fun k m hk => by
        have := hu.maps k m hk
        refine ⟨this.cmp, ?_⟩
        rcases this.kind with h | h
        · exact Or.inl h.1
        · exact Or.inr (by omega)), ok_bind, zip_take hu.len hu.ok.channel, e1, ok_bind]
    dsimp only
    have : ncs.length = pc.nrChannels := by
      rw [e3, List.length_map, List.length_zip, hu.len, hu.ok.channel, Nat.min_self]
    rw [this, Nat.sub_self, List.replicate_zero, List.append_nil]
    rfl
  · intro hnd
    apply e5
    have : ((pc.cmap.zip pc.channel).map fun x => x.1.cmp) = pc.cmap.map Map.cmp := by
      have h2 : (pc.cmap.zip pc.channel).map Prod.fst = pc.cmap := List.map_fst_zip (by rw [hu.len, hu.ok.channel])
      conv_rhs => rw [← h2]
      rw [List.map_map]
      rfl
    rw [this]
    exact hnd

theorem freeAll_eq : ∀ (comps : List Comp) (H : Heap), Loaded H comps → ∃ H', freeAll comps H = .ok H' ∧
    (∀ c ∈ comps, Dangling H' c) ∧ (∀ b : Nat, H[b]? = some none → H'[b]? = some none)
  | [], H, _ => ⟨H, rfl, (fun _ h => nomatch h), fun _ h => h⟩
  | c :: cs, H, hl => by
    obtain ⟨b, xs, h1, h2, h3⟩ := hl.live c (List.mem_cons_self ..)
    have hown := hl.own
    rw [List.filterMap_cons, h1] at hown
    dsimp only at hown
    rw [List.nodup_cons] at hown
    have hblt : b < H.length := (List.getElem?_eq_some_iff.1 h2).1
    have hl' : Loaded (H.set b none) cs := by
      refine ⟨?_, hown.2⟩
      intro d hd
      obtain ⟨b', ys, k1, k2, k3⟩ := hl.live d (List.mem_cons_of_mem _ hd)
      refine ⟨b', ys, k1, ?_, k3⟩
      rw [List.getElem?_set_ne]
      · exact k2
      · intro he
        exact hown.1 (List.mem_filterMap.2 ⟨d, hd, by rw [k1, he]⟩)
    obtain ⟨H', e1, e2, e3⟩ := freeAll_eq cs (H.set b none) hl'
    have hb : H'[b]? = some none := e3 b (List.getElem?_set_self hblt)
    refine ⟨H', ?_, ?_, ?_⟩
    · unfold freeAll
      rw [h1]
      dsimp only
      rw [h2]
      exact e1
    · intro d hd
      rcases List.mem_cons.1 hd with rfl | hd
      · exact ⟨b, h1, hb⟩
      · exact e2 d hd
    · intro b' hb'
      apply e3
      by_cases he : b = b'
      · rw [he] at hblt ⊢; exact List.getElem?_set_self hblt
      · rw [List.getElem?_set_ne he]; exact hb'

end Jp2.Box

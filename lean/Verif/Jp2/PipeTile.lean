import Verif.Jp2.PipeComp
import Verif.Jp2.PipeCode
import Verif.Jp2.T2TileProps
import Verif.Jp2.TgtProps
import Verif.Jp2.TcdProps
/-!
# All components of a tile, coded, sent and decoded
-/
namespace Jp2.Pipe
open Tcd (Rect Band Prec TileC CompP RectOk compOf compRect resRect bandRect bandEmpty bno ressOf ressOf_get resOf tileRectOf)
open T1 (Style)
open T2 (EncCblk EncBand DecCblk DecBand Made Decodes Still Pair TreeOk Fits)

/-! ## The coded precincts -/

/-- `E` holds the coded precincts of the tile, see `codeAll`. -/
def Coded (m : Mode) (tcs : List TileC) (cxs : List CompX) (ds : List (Mem Int)) (bps : Nat → Nat → Nat → Int) (plan : Nat → Nat → Nat → Nat → Nat → Plan)
    (E : T2.EncTile) : Prop :=
  ∀ c rn k, if k < precCount tcs c rn then codeAt m tcs cxs ds bps plan c rn k = some (E c rn k) else E c rn k = []

/-! ## Trees -/

theorem tree_ok (m : Mode) {w h : Nat} (hp : w * h ≤ 2 ^ 30) : ∃ tr, tree m w h = some tr ∧ TreeOk m w h tr.1 tr.2 := by
  by_cases h0 : w * h = 0
  · refine ⟨(0, fun _ => none), ?_, ?_⟩
    · unfold tree; rw [Tgt.C31_no_leaves m w h h0]; rfl
    · unfold TreeOk; rw [if_pos h0]
  · have hw : 0 < w := Nat.pos_of_ne_zero fun e => h0 (by rw [e, Nat.zero_mul])
    have hh : 0 < h := Nat.pos_of_ne_zero fun e => h0 (by rw [e, Nat.mul_zero])
    obtain ⟨L, n, t, e, -, -⟩ := Tgt.create_eq m w h hw hh hp
    refine ⟨(n, t), ?_, ?_⟩
    · unfold tree; rw [e]; rfl
    · unfold TreeOk; rw [if_neg h0]; exact ⟨t, e, fun _ => rfl⟩

/-- How many blocks a precinct has. -/
theorem prec_counts {enc : Bool} {t : Rect} {c : CompP} (hf : ∀ i q, c.prc[i]? = some q → Tcd.PdOk i q) {rn bi k : Nat} {r : Tcd.Res} {b : Band} {p : Prec}
    (h1 : (compOf enc t c).ress[rn]? = some r) (h2 : r.bands[bi]? = some b) (h3 : b.precs[k]? = some p) :
    p.cblks.length = p.cw * p.ch ∧ p.cw * p.ch ≤ 2 ^ 30 := by
  rw [show (compOf enc t c).ress = ressOf enc c (compRect t c) 0 c.prc from rfl, ressOf_get, Nat.zero_add] at h1
  obtain ⟨pd, hpd, rfl⟩ := h1
  obtain ⟨q1, q2, -⟩ := hf _ _ hpd
  unfold resOf at h2
  simp only at h2
  rw [Tcd.range_get] at h2
  obtain ⟨hb, rfl⟩ := h2
  change (if (enc && bandEmpty (bandRect (compRect t c) rn (c.prc.length - 1 - rn) (bno rn bi))) = true then [] else _)[k]? = some p at h3
  split at h3
  · simp at h3
  · rw [Tcd.range_get] at h3
    obtain ⟨hk, rfl⟩ := h3
    have hcbg : ∀ pd, pd ≤ 15 → Tcd.cbgOf rn pd ≤ 15 := by intro pd h; unfold Tcd.cbgOf; split <;> omega
    unfold Tcd.precOf
    simp only [List.length_map, List.length_range, true_and]
    have key : ∀ (G p0 p1 : Int) (cw cbg : Nat), cbg ≤ 15 → Tcd.cwOf (max (G * 2 ^ cbg) p0) (min ((G + 1) * 2 ^ cbg) p1) (min cw cbg) ≤ 2 ^ 15 := by
      intro G p0 p1 cw cbg hc
      refine (Tcd.cwOf_le (Nat.min_le_right _ _) (le_max_left _ _) (min_le_left _ _)).trans (Nat.pow_le_pow_right (by norm_num) (by omega))
    unfold Tcd.precRect
    simp only
    exact (Nat.mul_le_mul (key _ _ _ _ _ (hcbg _ q1)) (key _ _ _ _ _ (hcbg _ q2))).trans (by norm_num)

theorem mapIM_total {α β : Type} {f : Nat → α → Option β} : ∀ {l : List α} {i0 : Nat}, (∀ i a, l[i]? = some a → ∃ b, f (i0 + i) a = some b) →
    ∃ l', mapIM f i0 l = some l'
  | [], i0, _ => ⟨[], rfl⟩
  | a :: l, i0, h => by
    obtain ⟨b, hb⟩ := h 0 a rfl
    obtain ⟨bs, hbs⟩ := mapIM_total (f := f) (l := l) (i0 := i0 + 1) fun i c hc => by
      have := h (i + 1) c hc
      rwa [show i0 + (i + 1) = i0 + 1 + i by omega] at this
    exact ⟨b :: bs, by rw [mapIM, show f i0 a = some b from hb, Option.bind_some, hbs]; rfl⟩

theorem forall2_of_get {α β : Type} {R : α → β → Prop} : ∀ {l : List α} {l' : List β}, l'.length = l.length →
    (∀ (i : Nat) (a : α), l[i]? = some a → ∃ b, l'[i]? = some b ∧ R a b) → List.Forall₂ R l l'
  | [], [], _, _ => .nil
  | [], _ :: _, h, _ => by simp at h
  | _ :: _, [], h, _ => by simp at h
  | a :: l, b :: l', h, k => by
    obtain ⟨b', e, hr⟩ := k 0 a rfl
    cases e
    exact .cons hr (forall2_of_get (by simpa using h) fun i a ha => k (i + 1) a ha)

/-- The decoder's precincts of a band, in range. -/
theorem precs_get {t : Rect} {c : CompP} {rn bi k : Nat} {r : Tcd.Res} {b : Band} (h : (compOf false t c).ress[rn]? = some r)
    (hb : r.bands[bi]? = some b) (hk : k < r.pw * r.ph) : ∃ p, b.precs[k]? = some p := by
  rw [show (compOf false t c).ress = ressOf false c (compRect t c) 0 c.prc from rfl, ressOf_get, Nat.zero_add] at h
  obtain ⟨pd, hpd, rfl⟩ := h
  unfold resOf at hb
  simp only at hb
  rw [Tcd.range_get] at hb
  obtain ⟨hbi, rfl⟩ := hb
  exact ⟨_, (Tcd.range_get _ _ _ _).2 ⟨hk, rfl⟩⟩

/-- A resolution has bands. -/
theorem bands_ne {enc : Bool} {t : Rect} {c : CompP} {rn : Nat} {r : Tcd.Res} (h : (compOf enc t c).ress[rn]? = some r) : ∃ b, r.bands[0]? = some b := by
  rw [show (compOf enc t c).ress = ressOf enc c (compRect t c) 0 c.prc from rfl, ressOf_get, Nat.zero_add] at h
  obtain ⟨pd, hpd, rfl⟩ := h
  unfold resOf
  simp only
  exact ⟨_, (Tcd.range_get _ _ _ _).2 ⟨by split <;> omega, rfl⟩⟩

theorem fits_of_le {bps : Int} {n : Nat} (h : (n : Int) ≤ bps) (h2 : bps < 999) : Fits bps n := by
  unfold Fits T2.asI32
  have : n % 2 ^ 32 = n := Nat.mod_eq_of_lt (by omega)
  refine ⟨by omega, ?_⟩
  split <;> omega

/-! ## A precinct -/

theorem pair_ok {m : Mode} {t : Rect} {c : CompP} {data : Mem Int} (hc : CompOk t c data) {sty L : Nat} {bps : Nat → Int} {plan : Nat → Nat → Plan}
    (hplan : ∀ bi j, PlanOk L (plan bi j)) (hbps : ∀ bi, 0 ≤ bps bi ∧ bps bi < 999) {rn k : Nat} {r : Tcd.Res} (hr : (compOf true t c).ress[rn]? = some r)
    (hk : k < r.pw * r.ph) {E : List EncBand} (hE : codePrec m (compOf true t c) (styleOf sty) data bps plan rn k = some E)
    (hroom : ∀ b ∈ E, ∀ x ∈ b.prec.cblks, (x.numbps : Int) ≤ b.numbps) :
    ∃ D, freshPrec m (compOf false t c) bps rn k = some D ∧ List.Forall₂ (Pair m sty L) E D := by
  obtain ⟨r', g1, gpw, gph, glen, gb⟩ := both (enc' := false) hr
  have hfresh : ∃ D, freshPrec m (compOf false t c) bps rn k = some D := by
    unfold freshPrec
    rw [g1, Option.bind_some]
    refine mapIM_total fun bi b hb => ?_
    obtain ⟨p, hp⟩ := precs_get g1 hb (by rw [gpw, gph]; exact hk)
    obtain ⟨tr, ht, -⟩ := tree_ok m (prec_counts hc.pd g1 hb hp).2
    exact ⟨_, by rw [hp, Option.bind_some, ht]; rfl⟩
  obtain ⟨D, hD⟩ := hfresh
  refine ⟨D, hD, ?_⟩
  unfold freshPrec at hD
  rw [g1, Option.bind_some] at hD
  unfold codePrec at hE
  rw [hr, Option.bind_some] at hE
  obtain ⟨le, ge⟩ := mapIM_get hE
  obtain ⟨ld, gd⟩ := mapIM_get hD
  refine forall2_of_get (by rw [le, ld, glen]) fun bi eb heb => ?_
  obtain ⟨b, hb⟩ : ∃ b, r.bands[bi]? = some b := by
    have hlt : bi < r.bands.length := by rw [← le]; exact (List.getElem?_eq_some_iff.1 heb).1
    exact ⟨_, List.getElem?_eq_getElem hlt⟩
  obtain ⟨eb', e1, e2⟩ := ge bi b hb
  rw [heb] at e1
  cases e1
  obtain ⟨b', f1, frect, fno, feq⟩ := gb bi b hb
  obtain ⟨db, d1, d2⟩ := gd bi b' f1
  refine ⟨db, d1, ?_⟩
  rw [Nat.zero_add] at e2 d2
  rw [Option.bind_eq_some_iff] at d2
  obtain ⟨p, hp, d2⟩ := d2
  rw [Option.map_eq_some_iff] at d2
  obtain ⟨tr, htr, rfl⟩ := d2
  unfold codeBand at e2
  by_cases hem : bandEmpty b.rect = true
  · rw [if_pos hem] at e2
    cases e2
    exact ⟨by simp [frect, hem], rfl, by simp⟩
  · have hem' : bandEmpty b.rect = false := by simpa using hem
    obtain rfl := feq hem'
    rw [if_neg hem, hp, Option.bind_some, htr, Option.bind_some, Option.map_eq_some_iff] at e2
    obtain ⟨ecs, e2, rfl⟩ := e2
    obtain ⟨c1, c2⟩ := prec_counts hc.pd g1 f1 hp
    obtain ⟨tr', ht', htok⟩ := tree_ok m c2
    rw [htr] at ht'
    cases ht'
    obtain ⟨l1, l2⟩ := mapIM_get e2
    refine ⟨by simp [hem'], rfl, fun _ => ⟨p.cw, p.ch, c2, ⟨hbps bi, by rw [← c1]; exact l1, ⟨htok, htok⟩, ?_⟩, ⟨rfl, by simp [c1], ⟨htok, htok⟩, ?_⟩⟩⟩
    · intro ec hec
      obtain ⟨j, hj⟩ := List.mem_iff_getElem?.1 hec
      have hjl : j < p.cblks.length := by rw [← l1]; exact (List.getElem?_eq_some_iff.1 hj).1
      obtain ⟨ec', k1, k2⟩ := l2 j _ (List.getElem?_eq_getElem hjl)
      rw [show (ecs[j]? = some ec) from hj] at k1
      cases k1
      rw [Nat.zero_add] at k2
      obtain ⟨hcor, hin⟩ := block_in hc.rect hc.pd hr hb hp (List.getElem?_eq_getElem hjl)
      have hpl := hplan bi j
      have hmade := codeBlock_made k2 hcor hc.size (fun q hq => by rw [hc.dom]; exact decide_eq_true hq) hin (by have := hpl.room; omega)
      obtain ⟨m1, m2, -⟩ := T2.C46_blocks_fit _ _ _ _ _ _ _ _ sty rfl rfl hpl.room _ hmade
      exact ⟨m1, m2.trans hpl.layers, fits_of_le (hroom _ (List.mem_of_getElem? heb) _ hec) (hbps bi).2⟩
    · intro x hx
      have hx' : x ∈ p.cblks.map fun _ => ({} : DecCblk) := hx
      rw [List.mem_map] at hx'
      obtain ⟨_, -, rfl⟩ := hx'
      exact ⟨rfl, rfl⟩

/-! ## Numbers of precincts -/

theorem precCount_some {enc : Bool} {t : Rect} {cs : List CompP} {c rn : Nat} {cp : CompP} {r : Tcd.Res} (hc : cs[c]? = some cp)
    (hr : (compOf enc t cp).ress[rn]? = some r) : precCount (cs.map (compOf enc t)) c rn = r.pw * r.ph := by
  unfold precCount
  rw [List.getElem?_map, hc, Option.map_some, Option.bind_some, hr]

theorem precCount_lt {enc : Bool} {t : Rect} {cs : List CompP} {c rn k : Nat} (h : k < precCount (cs.map (compOf enc t)) c rn) :
    ∃ cp r, cs[c]? = some cp ∧ (compOf enc t cp).ress[rn]? = some r ∧ k < r.pw * r.ph := by
  unfold precCount at h
  rw [List.getElem?_map] at h
  cases hc : cs[c]? with
  | none => rw [hc] at h; simp at h
  | some cp =>
    rw [hc, Option.map_some, Option.bind_some] at h
    cases hr : (compOf enc t cp).ress[rn]? with
    | none => rw [hr] at h; simp at h
    | some r => rw [hr] at h; exact ⟨cp, r, rfl, hr, h⟩

theorem numPrec_eq {q : Tcd.Params} {n layers : Nat} {prg : Int} (ht : RectOk (tileRectOf q n)) (hd : ∀ c ∈ q.comps, 0 < c.dx ∧ 0 < c.dy) {enc : Bool} (c rn : Nat) :
    Pi.Spec.numPrec (Pi.Spec.tileRect (piParams q layers prg) n) (piParams q layers prg).comps c rn =
      precCount (q.comps.map (compOf enc (tileRectOf q n))) c rn := by
  unfold Pi.Spec.numPrec Pi.Spec.axes precCount piParams
  simp only [List.getElem?_map]
  cases hc : q.comps[c]? with
  | none => simp
  | some cp =>
    simp only [Option.map_some, Option.bind_some]
    rw [show (compOf enc (tileRectOf q n) cp).ress = ressOf enc cp (compRect (tileRectOf q n) cp) 0 cp.prc from rfl]
    cases hp : cp.prc[rn]? with
    | none =>
      cases hr : (ressOf enc cp (compRect (tileRectOf q n) cp) 0 cp.prc)[rn]? with
      | none => rfl
      | some r =>
        rw [ressOf_get] at hr
        obtain ⟨pd, h, -⟩ := hr
        rw [hp] at h; cases h
    | some pd =>
      rw [(ressOf_get enc cp _ _ _ 0 rn).2 ⟨pd, hp, rfl⟩, Nat.zero_add]
      have hdx := hd cp (List.mem_of_getElem? hc)
      have e1 := Tcd.num_eq (lev := cp.prc.length - 1 - rn) (pd := pd.1) ht.x0 ht.x hdx.1
      have e2 := Tcd.num_eq (lev := cp.prc.length - 1 - rn) (pd := pd.2) ht.y0 ht.y hdx.2
      show _ = Tcd.pwOf _ _ _ * Tcd.pwOf _ _ _
      unfold resRect compRect
      simp only
      rw [e1, e2]
      rfl

/-! ## The component loop -/

theorem decComps_ok {D : Nat → Nat → Nat → List DecBand} {ex : Nat → Extra} {junk : Nat → Nat → Int} {t : Rect} : ∀ {cs : List CompP} {cxs : List CompX} {ds : List (Mem Int)} {c0 : Nat},
    cxs.length = cs.length → ds.length = cs.length →
    (∀ (i : Nat) (c : CompP) (cx : CompX) (d : Mem Int), cs[i]? = some c → cxs[i]? = some cx → ds[i]? = some d →
      decComp (compOf false t c) (styleOf cx.sty) (D (c0 + i)) (ex (c0 + i)) (Dwt.fresh (junk (c0 + i)) (width (compRect t c) * height (compRect t c))) = some d) →
    decComps D ex junk c0 (cs.map (compOf false t)) cxs = some ds
  | [], [], [], _, _, _, _ => rfl
  | [], _ :: _, _, _, h, _, _ => by simp at h
  | [], [], _ :: _, _, _, h, _ => by simp at h
  | _ :: _, [], _, _, h, _, _ => by simp at h
  | _ :: _, _ :: _, [], _, _, h, _ => by simp at h
  | c :: cs, cx :: cxs, d :: ds, c0, h1, h2, h => by
    have e := h 0 c cx d rfl rfl rfl
    have := decComps_ok (D := D) (ex := ex) (junk := junk) (t := t) (cs := cs) (cxs := cxs) (ds := ds) (c0 := c0 + 1) (by simpa using h1) (by simpa using h2)
      fun i c cx d a b e => by
        have := h (i + 1) c cx d a b e
        rwa [show c0 + (i + 1) = c0 + 1 + i by omega] at this
    rw [List.map_cons, decComps]
    rw [Nat.add_zero] at e
    change Option.bind (decComp _ _ _ _ (Dwt.fresh _ (width (compRect t c) * height (compRect t c)))) _ = _
    rw [e, Option.bind_some, this]
    rfl

/-! ## Out of range -/

theorem freshTile_out {m : Mode} {t : Rect} {cs : List CompP} {bps : Nat → Nat → Nat → Int} {c rn k : Nat} (h : ¬ k < precCount (cs.map (compOf false t)) c rn) :
    freshTile m (cs.map (compOf false t)) bps c rn k = [] := by
  unfold freshTile
  rw [List.getElem?_map]
  cases hc : cs[c]? with
  | none => rfl
  | some cp =>
    rw [Option.map_some, Option.bind_some]
    cases hf : freshPrec m (compOf false t cp) (bps c rn) rn k with
    | none => rfl
    | some l =>
      exfalso
      unfold freshPrec at hf
      rw [Option.bind_eq_some_iff] at hf
      obtain ⟨r, hr, hf⟩ := hf
      obtain ⟨b, hb⟩ := bands_ne hr
      obtain ⟨db, -, e⟩ := (mapIM_get hf).2 0 b hb
      rw [Option.bind_eq_some_iff] at e
      obtain ⟨p, hp, -⟩ := e
      rw [precCount_some hc hr] at h
      exact h (precs_lt hr hb hp)

theorem precCount_both {t : Rect} {cs : List CompP} (c rn : Nat) : precCount (cs.map (compOf true t)) c rn = precCount (cs.map (compOf false t)) c rn := by
  cases hc : cs[c]? with
  | none => unfold precCount; simp [hc]
  | some cp =>
    cases hr : (compOf true t cp).ress[rn]? with
    | some r =>
      obtain ⟨r', g1, gpw, gph, -⟩ := both (enc' := false) hr
      rw [precCount_some hc hr, precCount_some hc g1, gpw, gph]
    | none =>
      cases hr' : (compOf false t cp).ress[rn]? with
      | none => unfold precCount; simp [hc, hr, hr']
      | some r =>
        obtain ⟨r', g1, -⟩ := both (enc' := true) hr'
        rw [hr] at g1; cases g1

end Jp2.Pipe

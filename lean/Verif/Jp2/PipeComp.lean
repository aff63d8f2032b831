import Verif.Jp2.PipeStages
import Verif.Jp2.PipeKeep
import Verif.Jp2.T2Tile
/-!
# The blocks of a component, coded, sent and decoded
-/
namespace Jp2.Pipe
open Tcd (Rect Band Prec TileC CompP Coef RectOk compOf compRect resRect bandRect bandEmpty bno ressOf ressOf_get resOf)
open T1 (Style)
open T2 (EncCblk EncBand DecCblk DecBand Made Decodes Still passesIn)

/-! ## Lists -/

theorem mapIM_get {α β : Type} {f : Nat → α → Option β} : ∀ {l : List α} {l' : List β} {i0 : Nat}, mapIM f i0 l = some l' →
    l'.length = l.length ∧ ∀ i a, l[i]? = some a → ∃ b, l'[i]? = some b ∧ f (i0 + i) a = some b
  | [], l', i0, h => by cases h; simp
  | a :: l, l', i0, h => by
    rw [mapIM, Option.bind_eq_some_iff] at h
    obtain ⟨b, h1, h⟩ := h
    rw [Option.map_eq_some_iff] at h
    obtain ⟨bs, h2, rfl⟩ := h
    obtain ⟨k1, k2⟩ := mapIM_get h2
    refine ⟨by simp [k1], fun i c hc => ?_⟩
    cases i with
    | zero => cases hc; exact ⟨b, rfl, h1⟩
    | succ i =>
      obtain ⟨d, e1, e2⟩ := k2 i c hc
      exact ⟨d, e1, by rwa [show i0 + (i + 1) = i0 + 1 + i by omega]⟩

theorem forall2_at {α β : Type} {R : α → β → Prop} {l : List α} {l' : List β} (h : List.Forall₂ R l l') {i : Nat} {a : α} (ha : l[i]? = some a) :
    ∃ b, l'[i]? = some b ∧ R a b := by
  induction h generalizing i with
  | nil => simp at ha
  | cons hab _ ih =>
    cases i with
    | zero => cases ha; exact ⟨_, rfl, hab⟩
    | succ i => exact ih ha

/-! ## The encoder's and the decoder's structures -/

theorem both {t : Rect} {c : CompP} {enc enc' : Bool} {rn : Nat} {r : Tcd.Res} (h : (compOf enc t c).ress[rn]? = some r) :
    ∃ r', (compOf enc' t c).ress[rn]? = some r' ∧ r'.pw = r.pw ∧ r'.ph = r.ph ∧ r'.bands.length = r.bands.length ∧
      ∀ (bi : Nat) (b : Band), r.bands[bi]? = some b → ∃ b' : Band, r'.bands[bi]? = some b' ∧ b'.rect = b.rect ∧ b'.bandno = b.bandno ∧ (bandEmpty b.rect = false → b' = b) := by
  rw [show (compOf enc t c).ress = ressOf enc c (compRect t c) 0 c.prc from rfl, ressOf_get, Nat.zero_add] at h
  obtain ⟨pd, hpd, rfl⟩ := h
  refine ⟨_, (ressOf_get enc' c _ _ _ 0 rn).2 ⟨pd, hpd, rfl⟩, by rw [Nat.zero_add]; rfl, by rw [Nat.zero_add]; rfl, by simp [resOf], ?_⟩
  intro bi b hb
  rw [Nat.zero_add]
  unfold resOf at hb ⊢
  simp only at hb ⊢
  rw [Tcd.range_get] at hb
  obtain ⟨hbi, rfl⟩ := hb
  refine ⟨_, (Tcd.range_get _ _ _ _).2 ⟨hbi, rfl⟩, rfl, rfl, fun he => ?_⟩
  unfold Tcd.bandOf at he ⊢
  simp only at he ⊢
  rw [he]
  simp

/-- The number of precincts of a band. -/
theorem precs_lt {t : Rect} {c : CompP} {enc : Bool} {rn bi k : Nat} {r : Tcd.Res} {b : Band} {p : Prec} (h : (compOf enc t c).ress[rn]? = some r)
    (hb : r.bands[bi]? = some b) (hp : b.precs[k]? = some p) : k < r.pw * r.ph := by
  rw [show (compOf enc t c).ress = ressOf enc c (compRect t c) 0 c.prc from rfl, ressOf_get, Nat.zero_add] at h
  obtain ⟨pd, hpd, rfl⟩ := h
  unfold resOf at hb
  simp only at hb
  rw [Tcd.range_get] at hb
  obtain ⟨hbi, rfl⟩ := hb
  change (if (enc && bandEmpty (bandRect (compRect t c) rn (c.prc.length - 1 - rn) (bno rn bi))) = true then [] else _)[k]? = some p at hp
  split at hp
  · simp at hp
  · rw [Tcd.range_get] at hp
    exact hp.1

/-- Where a block is: inside the buffer of its component. -/
theorem block_in {enc : Bool} {t : Rect} {c : CompP} (hro : RectOk (compRect t c)) (hf : ∀ i q, c.prc[i]? = some q → Tcd.PdOk i q)
    {rn bi k j : Nat} {r : Tcd.Res} {b : Band} {p : Prec} {cb : Rect}
    (h1 : (compOf enc t c).ress[rn]? = some r) (h2 : r.bands[bi]? = some b) (h3 : b.precs[k]? = some p) (h4 : p.cblks[j]? = some cb) :
    corner (compOf enc t c) rn b cb = some ((placeY t c rn bi cb.y0).toNat * width (compRect t c) + (placeX t c rn bi cb.x0).toNat) ∧
    ∀ y < height cb, ∀ x < width cb,
      (placeY t c rn bi cb.y0).toNat * width (compRect t c) + (placeX t c rn bi cb.x0).toNat + (y * width (compRect t c) + x) <
        width (compRect t c) * height (compRect t c) := by
  have hB := blk_of h1 h2
  have hw := within hro hf h1 h2 h3 h4
  obtain ⟨⟨x0, x1⟩, y0, y1⟩ := placed hro hB hw
  refine ⟨corner_eq hB cb x0 y0, fun y hy x hx => ?_⟩
  have e1 : (placeX t c rn bi cb.x0).toNat + x < width (compRect t c) := by
    unfold width at hx ⊢; omega
  have e2 : (placeY t c rn bi cb.y0).toNat + y + 1 ≤ height (compRect t c) := by
    unfold height at hy ⊢; omega
  have e3 : ((placeY t c rn bi cb.y0).toNat + y + 1) * width (compRect t c) ≤ height (compRect t c) * width (compRect t c) := Nat.mul_le_mul_right _ e2
  have e4 : ((placeY t c rn bi cb.y0).toNat + y + 1) * width (compRect t c) =
      (placeY t c rn bi cb.y0).toNat * width (compRect t c) + y * width (compRect t c) + width (compRect t c) := by ring
  rw [Nat.mul_comm (width (compRect t c)) (height (compRect t c))]
  omega

/-- No block is larger than the code block size. -/
theorem block_small {enc : Bool} {t : Rect} {c : CompP} {rn bi k j : Nat} {r : Tcd.Res} {b : Band} {p : Prec} {cb : Rect}
    (h1 : (compOf enc t c).ress[rn]? = some r) (h2 : r.bands[bi]? = some b) (h3 : b.precs[k]? = some p) (h4 : p.cblks[j]? = some cb) :
    width cb ≤ 2 ^ c.cblkw ∧ height cb ≤ 2 ^ c.cblkh := by
  rw [show (compOf enc t c).ress = ressOf enc c (compRect t c) 0 c.prc from rfl, ressOf_get, Nat.zero_add] at h1
  obtain ⟨pd, hpd, rfl⟩ := h1
  unfold resOf at h2
  simp only at h2
  rw [Tcd.range_get] at h2
  obtain ⟨hb, rfl⟩ := h2
  change (if (enc && bandEmpty (bandRect (compRect t c) rn (c.prc.length - 1 - rn) (bno rn bi))) = true then [] else _)[k]? = some p at h3
  split at h3
  · simp at h3
  · rw [Tcd.range_get] at h3
    obtain ⟨hk, rfl⟩ := h3
    unfold Tcd.precOf at h4
    simp only at h4
    rw [Tcd.range_get] at h4
    obtain ⟨hj, rfl⟩ := h4
    have key : ∀ (A P0 P1 : Int) (cb n : Nat), cb ≤ n → (min ((A + 1) * 2 ^ cb) P1 - max (A * 2 ^ cb) P0).toNat ≤ 2 ^ n := by
      intro A P0 P1 cb n hn
      have e : (A + 1) * (2 : Int) ^ cb = A * 2 ^ cb + 2 ^ cb := by ring
      have h : (2 : Nat) ^ cb ≤ 2 ^ n := Nat.pow_le_pow_right (by norm_num) hn
      have h' : (2 : Int) ^ cb ≤ ((2 ^ n : Nat) : Int) := by exact_mod_cast h
      have a := min_le_left ((A + 1) * (2 : Int) ^ cb) P1
      have b := le_max_left (A * (2 : Int) ^ cb) P0
      rw [Int.toNat_le]
      linarith
    unfold Tcd.cblkOf width height
    simp only
    exact ⟨key _ _ _ _ _ (Nat.min_le_left ..), key _ _ _ _ _ (Nat.min_le_left ..)⟩

/-! ## A block -/

theorem shl6_range (v : Int) : -2 ^ 31 ≤ T1.shl6 v ∧ T1.shl6 v < 2 ^ 31 := by unfold T1.shl6; omega

theorem recon_shl6 {v : Int} (h : v.natAbs < 2 ^ 25) : Int.tdiv (T1.recon 0 (T1.shl6 v)) 2 = v := by
  have hs : T1.shl6 v = v * 64 := by unfold T1.shl6; omega
  rw [hs]
  unfold T1.recon
  dsimp only
  have hm : min (v * 64).natAbs (2 ^ 31 - 1) / 64 / 2 ^ 0 = v.natAbs := by omega
  rw [hm]
  split
  · have : v = 0 := by omega
    subst this
    rfl
  · rcases Int.lt_or_gt_of_ne (show v ≠ 0 by omega) with hn | hpos
    · rw [Int.sign_eq_neg_one_of_neg (by omega)]
      rw [show (-1 * ((2 * (v.natAbs : Int) + 1) * 2 ^ 0)) = -(2 * (v.natAbs : Int) + 1) by ring, Int.neg_tdiv,
        Int.tdiv_eq_ediv_of_nonneg (by omega)]
      omega
    · rw [Int.sign_eq_one_of_pos (by omega)]
      rw [show (1 * ((2 * (v.natAbs : Int) + 1) * 2 ^ 0)) = (2 * (v.natAbs : Int) + 1) by ring, Int.tdiv_eq_ediv_of_nonneg (by omega)]
      omega

/-- The samples of a block in the buffer. -/
def pxOf (data : Mem Int) (base tw : Nat) (y x : Nat) : Int := (data (base + (y * tw + x))).getD 0

theorem codeBlock_made {tc : TileC} {st : Style} {data : Mem Int} {rn base n : Nat} {b : Band} {cb : Rect} {pl : Plan} {ec : EncCblk}
    (h : codeBlock tc st data rn b cb pl = some ec) (hc : corner tc rn b cb = some base) (hn : n < 2 ^ 32) (hdom : ∀ q, q < n → (data q).isSome)
    (hin : ∀ y < height cb, ∀ x < width cb, base + (y * width tc.rect + x) < n) (hroom : pl.mem.length + 4 ≤ 2 ^ 32) :
    Made b.bandno (width cb) (height cb) st (fun y x => T1.shl6 (pxOf data base (width tc.rect) y x)) pl.mem pl.start pl.choices ec := by
  unfold codeBlock at h
  have hg := gather_eq (data := data) (base := base) (tw := width tc.rect) (px := pxOf data base (width tc.rect)) (stripes (width cb) (height cb)) (by
    intro p hp
    obtain ⟨hy, hx⟩ := stripes_mem hp
    have hlt := hin _ hy _ hx
    obtain ⟨v, hv⟩ := Option.isSome_iff_exists.1 (hdom _ hlt)
    refine ⟨by omega, ?_⟩
    unfold pxOf
    rw [hv]; rfl)
  rw [hc, Option.bind_some, hg, Option.bind_some, Option.bind_eq_some_iff] at h
  obtain ⟨co, h1, h⟩ := h
  rw [Option.map_eq_some_iff] at h
  obtain ⟨ls, h2, rfl⟩ := h
  refine ⟨fun y _ x _ => shl6_range _, hroom, ⟨co.mem, ?_, rfl⟩, h2⟩
  rw [stripes_map]
  exact h1

/-! ## A component -/

/-- What the encoder is given for each block: a buffer that is not too long, and an allocation whose last layer takes all passes. -/
structure PlanOk (L : Nat) (pl : Plan) : Prop where
  room : pl.mem.length < 2 ^ 25
  layers : pl.choices.length = L
  last : ∃ x, pl.choices.getLast? = some x ∧ x.2.1 = true

/-- A component of the tile. -/
structure CompOk (t : Rect) (c : CompP) (data : Mem Int) : Prop where
  rect : RectOk (compRect t c)
  ne : c.prc ≠ []
  pd : ∀ i q, c.prc[i]? = some q → Tcd.PdOk i q
  cblk : c.cblkw ≤ 10 ∧ c.cblkh ≤ 10
  size : width (compRect t c) * height (compRect t c) < 2 ^ 32
  dom : ∀ q, (data q).isSome = decide (q < width (compRect t c) * height (compRect t c))
  bd : ∀ q v, data q = some v → v.natAbs < 2 ^ 25

theorem empty_dims {b cb : Rect} (h : bandEmpty b = true) (hw : Within b cb) : width cb = 0 ∨ height cb = 0 := by
  obtain ⟨x0, x, x1, y0, y, y1⟩ := hw
  unfold bandEmpty at h
  unfold width height
  simp at h
  omega

theorem comp_ok {m : Mode} {t : Rect} {c : CompP} {data : Mem Int} (hc : CompOk t c data) {sty L : Nat} {bps : Nat → Nat → Int}
    {plan : Nat → Nat → Nat → Nat → Plan} (hplan : ∀ rn k bi j, PlanOk L (plan rn k bi j)) {E : Nat → Nat → List EncBand} {D D' : Nat → Nat → List DecBand}
    (hE : ∀ rn r k, (compOf true t c).ress[rn]? = some r → k < r.pw * r.ph →
      codePrec m (compOf true t c) (styleOf sty) data (bps rn) (plan rn k) rn k = some (E rn k))
    (hD : ∀ rn r k, (compOf true t c).ress[rn]? = some r → k < r.pw * r.ph → freshPrec m (compOf false t c) (bps rn) rn k = some (D rn k))
    (hdec : ∀ rn r k, (compOf true t c).ress[rn]? = some r → k < r.pw * r.ph → Decodes (E rn k) (D' rn k) ∧ List.Forall₂ Still (D rn k) (D' rn k))
    (ex : Extra) (junk : Nat → Int) :
    decComp (compOf false t c) (styleOf sty) D' ex (Dwt.fresh junk (width (compRect t c) * height (compRect t c))) = some data := by
  refine decComp_ok ?_ ?_ ?_
  · intro q
    rw [hc.dom]
    unfold Dwt.fresh
    by_cases hq : q < width (compRect t c) * height (compRect t c)
    · rw [if_pos hq, decide_eq_true hq]; rfl
    · rw [if_neg hq, decide_eq_false hq]; rfl
  · intro rn r bi b k p j cb h1 h2 h3 h4
    obtain ⟨r', g1, gpw, gph, glen, gb⟩ := both (enc' := true) h1
    obtain ⟨b', g2, grect, gno, geq⟩ := gb bi b h2
    have hk : k < r'.pw * r'.ph := by rw [gpw, gph]; exact precs_lt h1 h2 h3
    obtain ⟨hcor, hin⟩ := block_in hc.rect hc.pd h1 h2 h3 h4
    obtain ⟨hdd, hst⟩ := hdec rn r' k g1 hk
    by_cases hem : bandEmpty b.rect = true
    · -- an empty band: nothing was received, and there is nothing to write
      have hf := hD rn r' k g1 hk
      unfold freshPrec at hf
      rw [h1, Option.bind_some] at hf
      obtain ⟨db, e1, e2⟩ := (mapIM_get hf).2 bi b h2
      rw [h3, Option.bind_some, Option.map_eq_some_iff] at e2
      obtain ⟨tr, -, rfl⟩ := e2
      obtain ⟨db', e3, e4⟩ := forall2_at hst e1
      have e5 := e4.2 hem
      subst e5
      have hz := empty_dims hem (within hc.rect hc.pd h1 h2 h3 h4)
      obtain ⟨s1, s2⟩ := block_small h1 h2 h3 h4
      have hp : ∀ n, n ≤ 10 → (2 : Nat) ^ n ≤ 1024 := fun n hn => Nat.pow_le_pow_right (by norm_num) hn
      have c1 := hp _ hc.cblk.1
      have c2 := hp _ hc.cblk.2
      have hmul : width cb * height cb = 0 := by rcases hz with e | e <;> rw [e] <;> simp
      refine ⟨{}, _, [], ?_, hcor, ?_, ?_⟩
      · rw [e3, Option.bind_some, List.getElem?_map, h4]; rfl
      · unfold T2.decodeBlock T1.decodeCblk
        have : T1.sizesOk (width cb) (height cb) = true := by
          unfold T1.sizesOk
          rw [hmul]
          simp
          omega
        simp [this, hmul]
      · intro y hy x hx
        omega
    · have hem' : bandEmpty b.rect = false := by simpa using hem
      have e := geq hem'
      subst e
      have hE' := hE rn r' k g1 hk
      unfold codePrec at hE'
      rw [g1, Option.bind_some] at hE'
      obtain ⟨eb, e1, e2⟩ := (mapIM_get hE').2 bi _ g2
      rw [Nat.zero_add] at e2
      unfold codeBand at e2
      rw [if_neg (by simp [hem']), h3, Option.bind_some, Option.bind_eq_some_iff] at e2
      obtain ⟨tr, -, e2⟩ := e2
      rw [Option.map_eq_some_iff] at e2
      obtain ⟨ecs, e2, rfl⟩ := e2
      obtain ⟨ec, e3, e4⟩ := (mapIM_get e2).2 j cb h4
      rw [Nat.zero_add] at e4
      obtain ⟨hcorE, hinE⟩ := block_in hc.rect hc.pd g1 g2 h3 h4
      have hpl := hplan rn k bi j
      have hmade := codeBlock_made e4 hcorE hc.size (fun q hq => by rw [hc.dom]; exact decide_eq_true hq) hinE (by have := hpl.room; omega)
      obtain ⟨db, f1, f2⟩ := forall2_at hdd e1
      obtain ⟨dc, f3, f4⟩ := forall2_at (f2 rfl) e3
      have hall := (T2.C46_blocks_fit _ _ _ _ _ _ _ _ sty rfl rfl hpl.room ec hmade).2.2 hpl.last
      obtain ⟨Dl, k1, k2, k3⟩ := f4 _ _ _ _ _ _ _ _ hmade hall (ex rn bi k j).1 (ex rn bi k j).2
      refine ⟨dc, _, Dl, ?_, hcor, k1, ?_⟩
      · rw [f1]; exact f3
      · intro y hy x hx
        refine ⟨_, k3 y hy x hx, ?_⟩
        have hlt := hin y hy x hx
        rw [← Nat.add_assoc] at hlt
        obtain ⟨v, hv⟩ := Option.isSome_iff_exists.1 (show (data _).isSome = true by rw [hc.dom]; exact decide_eq_true hlt)
        have ev : pxOf data ((placeY t c rn bi cb.y0).toNat * width (compRect t c) + (placeX t c rn bi cb.x0).toNat) (width (compRect t c)) y x = v := by
          unfold pxOf
          rw [← Nat.add_assoc, hv]; rfl
        show data _ = some (Int.tdiv (T1.recon 0 (T1.shl6 (pxOf data _ (width (compRect t c)) y x))) 2)
        rw [ev, recon_shl6 (hc.bd _ _ hv)]
        exact hv
  · intro q hq
    rw [hc.dom, decide_eq_true_iff] at hq
    obtain ⟨W, hW⟩ : ∃ W, W = width (compRect t c) := ⟨_, rfl⟩
    rw [← hW] at hq
    have hW0 : 0 < W := by
      rcases Nat.eq_zero_or_pos W with e | e
      · rw [e, Nat.zero_mul] at hq; omega
      · exact e
    have hy : q / W < height (compRect t c) := Nat.div_lt_of_lt_mul hq
    have hx : q % W < W := Nat.mod_lt _ hW0
    obtain ⟨X, hX⟩ : ∃ X, X = q % W := ⟨_, rfl⟩
    obtain ⟨Y, hY⟩ : ∃ Y, Y = q / W := ⟨_, rfl⟩
    rw [← hY] at hy
    rw [← hX] at hx
    obtain ⟨co, k1, k2, k3⟩ := cover (enc := false) hc.rect hc.pd hc.ne (X := X) (Y := Y)
      ⟨by omega, by rw [hW] at hx; unfold width at hx; omega⟩ ⟨by omega, by unfold height at hy; omega⟩
    obtain ⟨r, b, p, cb, h1, h2, h3, h4, hu⟩ := k1
    have hB := blk_of h1 h2
    have hw := within hc.rect hc.pd h1 h2 h3 h4
    obtain ⟨⟨x0, x1⟩, y0, y1⟩ := placed hc.rect hB hw
    refine ⟨co.res, r, co.band, b, co.prec, p, co.blk, cb, _, h1, h2, h3, h4, corner_eq hB cb x0 y0, ?_⟩
    obtain ⟨u0, u1, v0, v1⟩ := hu
    refine ⟨(co.v - cb.y0).toNat, by unfold height; omega, (co.u - cb.x0).toNat, by unfold width; omega, ?_⟩
    have ex : (placeX t c co.res co.band cb.x0).toNat + (co.u - cb.x0).toNat = X := by
      unfold placeX at x0 k2 ⊢; omega
    have ey : (placeY t c co.res co.band cb.y0).toNat + (co.v - cb.y0).toNat = Y := by
      unfold placeY at y0 k3 ⊢; omega
    show q = _ * width (compRect t c) + _ + _ * width (compRect t c) + _
    rw [← hW]
    have e0 := Nat.div_add_mod q W
    rw [← hX, ← hY, ← ex, ← ey] at e0
    rw [← e0]
    ring

end Jp2.Pipe

import Verif.Jp2.PipeTile
import Verif.Jp2.PipeSpec
/-!
# Lemmas on the tile as a whole
-/
namespace Jp2.Pipe
open Tcd (Rect TileC TileS CompP RectOk compOf compRect initTile)
open T2 (EncTile EncBand)
open Pi (ParamsFit IndexFits OrderOk Letter)
open Pi.Spec (tileRect SamePrec)
open Dwt (NoThin)

theorem comps_eq {S : Setup} {enc : Bool} {T : TileS} (hf : Tcd.Fit S.q S.n) (h : initTile enc S.q S.n = .ok T) :
    T.comps = S.q.comps.map (compOf enc (Tcd.tileRectOf S.q S.n)) := by
  have e := (Tcd.initTile_out hf).ok h
  subst e
  rfl

theorem ress_length {enc : Bool} {t : Rect} {c : CompP} : (compOf enc t c).ress.length = c.prc.length := by
  have key : ∀ (l : List (Nat × Nat)) (r : Rect) (i : Nat), (Tcd.ressOf enc c r i l).length = l.length := by
    intro l
    induction l with
    | nil => intro r i; rfl
    | cons q l ih => intro r i; rw [Tcd.ressOf, List.length_cons, ih, List.length_cons]
  exact key _ _ _

theorem stages {S : Setup} {P : Nat} {TE TD : TileS} {xs : List (List Int)} (hE : initTile true S.q S.n = .ok TE) (hD : initTile false S.q S.n = .ok TD)
    (hs : Suits S P TE) (hx : Samples S P TE xs) (m : Mode) (junk : Nat → Nat → Int) :
    ∃ ds, forward m S.mct S.cxs TE.comps junk xs = some ds ∧
      List.Forall₂ (BufOk (Tcd.tileRectOf S.q S.n) (2 ^ S.mct * 2 ^ (P - 1))) S.q.comps ds ∧
      ∀ junk', inverse m S.mct S.cxs TD.comps junk' ds = some xs := by
  have hto := Tcd.tile_ok hs.fit hE
  have e1 := comps_eq hs.fit hE
  have e2 := comps_eq hs.fit hD
  have ha := hs.area
  have hth := hs.thin
  have hcnt := hx.count
  have hcol := hx.colour
  rw [e1] at ha hth hcnt hcol
  rw [e1, e2]
  refine stages_ok ?_ hx.range ?_ ?_ ?_ junk
  · have : (2 : Int) ^ (P - 1) ≤ 2 ^ 28 := pow_le_pow_right₀ (by norm_num) (by have := hs.prec; omega)
    omega
  · rw [List.forall₂_map_left_iff] at hcnt
    exact hcnt
  · intro c hc
    have hf := hs.fit.comps c hc
    have h1 := ha _ (List.mem_map_of_mem hc)
    have h2 := hth _ (List.mem_map_of_mem hc)
    rw [ress_length] at h2
    exact ⟨Tcd.compRect_ok hto hf, by intro h; have := hf.res.1; rw [h] at this; simp at this, h1.1, h1.2, h2, hs.grow c hc⟩
  · rcases hcol with h | ⟨h, a, b, c, rest, a', b', c', rest', k1, k2, p1, p2, w1, w2⟩
    · exact .inl h
    · rw [k1] at k2 hcnt ⊢
      simp only [List.map_cons, List.cons.injEq] at k2
      obtain ⟨rfl, rfl, rfl, rfl⟩ := k2
      simp only [List.map_cons] at hcnt
      cases hcnt with | cons q1 hcnt => cases hcnt with | cons q2 hcnt => cases hcnt with | cons q3 hcnt =>
      refine .inr ⟨h, ?_, _, _, _, _, rfl, q1, ?_, ?_⟩
      · unfold sameShape
        simp only [List.map_cons, Bool.and_eq_true, beq_iff_eq]
        rw [ress_length, ress_length, ress_length]
        exact ⟨⟨⟨p1, p2⟩, w1⟩, w2⟩
      · rw [q2, ← w1]; rfl
      · rw [q3, ← w2]; rfl

theorem codeAll_coded {m : Mode} {tcs : List TileC} {cxs : List CompX} {ds : List (Mem Int)} {bps : Nat → Nat → Nat → Int}
    {plan : Nat → Nat → Nat → Nat → Nat → Plan} {E : EncTile} (h : codeAll m tcs cxs ds bps plan = some E) (h33 : ∀ tc ∈ tcs, tc.ress.length ≤ 33) :
    Coded m tcs cxs ds bps plan E := by
  unfold codeAll at h
  split at h
  · rename_i hall
    cases h
    simp only [List.all_eq_true, List.mem_range] at hall
    intro c rn k
    by_cases hk : k < precCount tcs c rn
    · rw [if_pos hk]
      have hk' := hk
      unfold precCount at hk'
      cases hc : tcs[c]? with
      | none => rw [hc] at hk'; simp at hk'
      | some tc =>
        rw [hc, Option.bind_some] at hk'
        cases hr : tc.ress[rn]? with
        | none => rw [hr] at hk'; simp at hk'
        | some r =>
          have h1 := (List.getElem?_eq_some_iff.1 hc).1
          have h2 := (List.getElem?_eq_some_iff.1 hr).1
          have h3 := h33 tc (List.mem_of_getElem? hc)
          obtain ⟨v, hv⟩ := Option.isSome_iff_exists.1 (hall c h1 rn (by omega) k hk)
          beta_reduce
          rw [if_pos hk, hv]; rfl
    · beta_reduce
      rw [if_neg hk, if_neg hk]
  · cases h

/-! ## Bit planes -/

theorem planes_le {o w h : Nat} {st : T1.Style} {data : List Int} {mem : List UInt8} {start : Nat} {c : T1.Coded} {b : Nat} (hb : b ≤ 25)
    (hd : ∀ x ∈ data, ∃ v : Int, x = v * 64 ∧ v.natAbs < 2 ^ b) (he : T1.encodeCblk o w h st data mem start = some c) : c.numbps ≤ b := by
  have hp : 2 ^ b ≤ 2 ^ 25 := Nat.pow_le_pow_right (by norm_num) hb
  have hn : T1.numbpsOf ((data.map T1.magOf).foldl max 0) ≤ b := by
    obtain ⟨_, _, h3⟩ := T1.foldl_max (l := data.map T1.magOf) (a := 0)
    generalize (data.map T1.magOf).foldl max 0 = mx at *
    unfold T1.numbpsOf
    split
    · omega
    rename_i h0
    rcases h3 with h3 | h3
    · omega
    rw [List.mem_map] at h3
    obtain ⟨x, hx, rfl⟩ := h3
    obtain ⟨v, rfl, hv⟩ := hd x hx
    have hmag : T1.magOf (v * 64) = v.natAbs * 64 := by
      unfold T1.magOf
      split <;> omega
    rw [hmag] at h0 ⊢
    have h1 : 6 ≤ Nat.log2 (v.natAbs * 64) := (Nat.le_log2 h0).2 (by omega)
    have h2 : Nat.log2 (v.natAbs * 64) < b + 6 := (Nat.log2_lt h0).2 (by rw [pow_add]; omega)
    omega
  unfold T1.encodeCblk at he
  split at he
  · cases he
  dsimp only at he
  generalize T1.numbpsOf ((data.map T1.magOf).foldl max 0) = n at he hn
  split at he
  · cases he; exact Nat.zero_le _
  split at he
  · cases he; exact hn
  rw [Option.bind_eq_some_iff] at he
  obtain ⟨s, -, he⟩ := he
  rw [Option.bind_eq_some_iff] at he
  obtain ⟨e, -, he⟩ := he
  rw [Option.map_eq_some_iff] at he
  obtain ⟨ps, -, rfl⟩ := he
  exact hn

/-- A band announces as many bit planes as its coefficients need: so do its blocks. -/
theorem planes_ok {m : Mode} {t : Rect} {c : CompP} {data : Mem Int} (hc : CompOk t c data) {sty L : Nat} {bps : Nat → Int} {plan : Nat → Nat → Plan}
    (hplan : ∀ bi j, PlanOk L (plan bi j)) {rn k : Nat} {r : Tcd.Res} (hr : (compOf true t c).ress[rn]? = some r)
    {E : List EncBand} (hE : codePrec m (compOf true t c) (styleOf sty) data bps plan rn k = some E) {b : Nat} (hb : b ≤ 25)
    (hbps : ∀ bi, (b : Int) ≤ bps bi) (hd : ∀ q v, data q = some v → v.natAbs < 2 ^ b) :
    ∀ e ∈ E, ∀ x ∈ e.prec.cblks, (x.numbps : Int) ≤ e.numbps := by
  intro e he x hx
  unfold codePrec at hE
  rw [hr, Option.bind_some] at hE
  obtain ⟨le, ge⟩ := mapIM_get hE
  obtain ⟨bi, heb⟩ := List.mem_iff_getElem?.1 he
  obtain ⟨bd, hbd⟩ : ∃ b, r.bands[bi]? = some b := by
    have hlt : bi < r.bands.length := by rw [← le]; exact (List.getElem?_eq_some_iff.1 heb).1
    exact ⟨_, List.getElem?_eq_getElem hlt⟩
  obtain ⟨eb', e1, e2⟩ := ge bi bd hbd
  rw [heb] at e1
  cases e1
  rw [Nat.zero_add] at e2
  unfold codeBand at e2
  split at e2
  · cases e2
    simp at hx
  rw [Option.bind_eq_some_iff] at e2
  obtain ⟨p, hp, e2⟩ := e2
  rw [Option.bind_eq_some_iff] at e2
  obtain ⟨tr, -, e2⟩ := e2
  rw [Option.map_eq_some_iff] at e2
  obtain ⟨ecs, e2, rfl⟩ := e2
  obtain ⟨l1, l2⟩ := mapIM_get e2
  obtain ⟨j, hj⟩ := List.mem_iff_getElem?.1 (show x ∈ ecs from hx)
  have hjl : j < p.cblks.length := by rw [← l1]; exact (List.getElem?_eq_some_iff.1 hj).1
  obtain ⟨ec', k1, k2⟩ := l2 j _ (List.getElem?_eq_getElem hjl)
  rw [hj] at k1
  cases k1
  rw [Nat.zero_add] at k2
  obtain ⟨hcor, hin⟩ := block_in hc.rect hc.pd hr hbd hp (List.getElem?_eq_getElem hjl)
  have hpl := hplan bi j
  have hmade := codeBlock_made k2 hcor hc.size (fun q hq => by rw [hc.dom]; exact decide_eq_true hq) hin (by have := hpl.room; omega)
  obtain ⟨mem', h1, -⟩ := hmade.coded
  have hlt : ∀ base tw y u, (pxOf data base tw y u).natAbs < 2 ^ b := by
    intro base tw y u
    unfold pxOf
    cases hq : data (base + (y * tw + u)) with
    | none => simp
    | some v => exact hd _ _ hq
  have hp25 : 2 ^ b ≤ 2 ^ 25 := Nat.pow_le_pow_right (by norm_num) hb
  have h64 : ∀ v : Int, v.natAbs < 2 ^ b → T1.shl6 v = v * 64 := by
    intro v hv
    unfold T1.shl6
    omega
  have := planes_le hb (fun v hv => by
    obtain ⟨y, u, hy, hu, rfl⟩ := T1.mem_order hv
    exact ⟨_, h64 _ (hlt _ _ _ _), hlt _ _ _ _⟩) h1
  have hb2 := hbps bi
  show (x.numbps : Int) ≤ bps bi
  exact le_trans (by exact_mod_cast this) hb2

/-- Enough bit planes for the largest coefficient there can be. -/
theorem fits_of_roomy {S : Setup} {P fuel : Nat} {flag : Option Letter} {TE TD : TileS} {xs : List (List Int)} {plan : Nat → Nat → Nat → Nat → Nat → Plan}
    {room : Nat → List UInt8} {junk : Nat → Nat → Int} {K : Coding} {m : Mode} (hE : initTile true S.q S.n = .ok TE) (hD : initTile false S.q S.n = .ok TD)
    (hs : Suits S P TE) (hx : Samples S P TE xs) (hplan : ∀ c rn k bi j, PlanOk S.layers (plan c rn k bi j)) {b : Nat} (hb : b ≤ 25)
    (hbig : ∀ c ∈ S.q.comps, (2 : Int) ^ S.mct * 2 ^ (P - 1) * 4 ^ (c.prc.length - 1) < 2 ^ b) (hbps : ∀ c rn bi, (b : Int) ≤ S.bps c rn bi)
    (hK : encodeTile m fuel S flag plan room junk xs = some K) : K.Fits := by
  obtain ⟨ds, f1, f2, -⟩ := stages hE hD hs hx m junk
  unfold encodeTile at hK
  rw [hE] at hK
  simp only at hK
  rw [f1, Option.bind_some, Option.bind_eq_some_iff] at hK
  obtain ⟨E, c1, hK⟩ := hK
  rw [Option.bind_eq_some_iff] at hK
  obtain ⟨_, -, hK⟩ := hK
  rw [Option.bind_eq_some_iff] at hK
  obtain ⟨parts, -, hK⟩ := hK
  have eK : K.coefs = ds ∧ K.blocks = E := by
    revert hK
    cases T2.encodeTileParts S.csty S.layers (parts.zip ((List.range parts.length).map room)) 0 E with
    | error e => intro hK; cases hK
    | ok o => intro hK; cases hK; exact ⟨rfl, rfl⟩
  have hto := Tcd.tile_ok hs.fit hE
  have e1 := comps_eq hs.fit hE
  have hcoded : Coded m TE.comps S.cxs ds S.bps plan E := codeAll_coded c1 fun tc htc => by
    rw [e1, List.mem_map] at htc
    obtain ⟨c, hc, rfl⟩ := htc
    rw [ress_length]; exact (hs.fit.comps c hc).res.2
  have hp25 : 2 ^ b ≤ 2 ^ 25 := Nat.pow_le_pow_right (by norm_num) hb
  have hcast : ((2 ^ b : Nat) : Int) = 2 ^ b := by push_cast; rfl
  have hsm : ∀ (i : Nat) (c : CompP) (d : Mem Int), S.q.comps[i]? = some c → ds[i]? = some d → ∀ q v, d q = some v → v.natAbs < 2 ^ b := by
    intro i c d hc hd q v hv
    obtain ⟨d', hd', hbo⟩ := forall2_at f2 hc
    rw [hd] at hd'
    cases hd'
    have h1 := hbo.bd q v hv
    have h2 := hbig c (List.mem_of_getElem? hc)
    obtain ⟨M, hM⟩ : ∃ M, M = (2 : Int) ^ S.mct * 2 ^ (P - 1) * 4 ^ (c.prc.length - 1) := ⟨_, rfl⟩
    rw [← hM] at h1 h2
    rw [← hcast] at h2
    omega
  have hlen := f2.length_eq
  refine ⟨?_, ?_⟩
  · rw [eK.1]
    intro d hd q v hv
    obtain ⟨i, hi⟩ := List.mem_iff_getElem?.1 hd
    have hlt := (List.getElem?_eq_some_iff.1 hi).1
    have := hsm i _ d (List.getElem?_eq_getElem (by omega)) hi q v hv
    omega
  · rw [eK.2]
    intro c rn k
    have hco := hcoded c rn k
    by_cases hk : k < precCount TE.comps c rn
    · rw [if_pos hk] at hco
      rw [e1] at hk
      obtain ⟨cp, r, g1, g2, g3⟩ := precCount_lt hk
      unfold codeAt at hco
      rw [e1, List.getElem?_map, g1, Option.map_some, Option.bind_some, Option.bind_eq_some_iff] at hco
      obtain ⟨cx, hcx, hco⟩ := hco
      rw [Option.bind_eq_some_iff] at hco
      obtain ⟨d, hd, hco⟩ := hco
      have hm := List.mem_of_getElem? g1
      have hf := hs.fit.comps cp hm
      obtain ⟨d', hd', hbo⟩ := forall2_at f2 g1
      rw [hd] at hd'
      cases hd'
      refine planes_ok (L := S.layers) ⟨Tcd.compRect_ok hto hf, by intro h; have := hf.res.1; rw [h] at this; simp at this, fun i q h => hf.pd i q h, hs.cblk cp hm, ?_, hbo.dom, ?_⟩
        (fun bi j => hplan c rn k bi j) g2 hco hb (fun bi => hbps c rn bi) (hsm c cp d g1 hd)
      · exact (hs.area _ (by rw [e1]; exact List.mem_map_of_mem hm)).2
      · intro q v hv
        have := hsm c cp d g1 hd q v hv
        omega
    · rw [if_neg hk] at hco
      rw [hco]
      intro e he
      cases he

end Jp2.Pipe

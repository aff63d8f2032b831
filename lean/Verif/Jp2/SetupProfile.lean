import Verif.Jp2.SetupSafe
import Verif.Jp2.HdrMore
/-!
# What was set up, traced back to what was asked for
-/
namespace Jp2.Setup
open Jp2.Hdr (R Fail refuseIf Comp Tccp Post bind_ok ok_bind)

theorem refuse_ok {α : Type} {c : Prop} [Decidable c] {f : Unit → R α} {r : α} (h : (refuseIf c >>= f) = .ok r) : ¬ c ∧ f () = .ok r := by
  unfold refuseIf at h
  split at h
  · cases h
  · exact ⟨by assumption, h⟩

/-- How a setup came about. -/
structure Came (p : Params) (im : Image) (c : Coding) (p1 p2 : Params) (t : Tile) (ts : List Tile) : Prop where
  layers : fixLayers (deprecated p) = .ok p1
  profile : profiles p1 im = .ok p2
  grid : grid p2 im = .ok c.grid
  tiles : (List.range (c.grid.tw * c.grid.th)).mapM (tile p2 im) = .ok (t :: ts)
  some_tile : c.grid.tw * c.grid.th ≠ 0
  comps : im.comps ≠ []
  good : GoodBlocks p
  is : c = {
        enc := { rsiz := p2.rsiz, x0 := im.x0, y0 := im.y0, x1 := im.x1, y1 := im.y1, tdx := c.grid.tdx, tdy := c.grid.tdy, tx0 := c.grid.tx0,
                 ty0 := c.grid.ty0, comps := im.comps, csty := u32 p2.csty, prg := u32 p2.prg, numlayers := u32 p2.layers,
                 mct := transform p2 im, tccps := t.tccps, comment := some (p2.comment.getD defaultComment) }
        grid := c.grid
        tlm := isCinema p1.rsiz || isImf p1.rsiz
        tp := if p2.tpOn then some p2.tpFlag else none
        tiles := t :: ts }

theorem setup_inv {p : Params} {im : Image} {c : Coding} (h : setup p im = .ok c) : ∃ p1 p2 t ts, Came p im c p1 p2 t ts := by
  unfold setup at h
  obtain ⟨_, h0, h⟩ := bind_ok h
  have hg : GoodBlocks p := (checkRanges_post p).of_ok h0
  split at h
  · cases h
  rename_i hc
  obtain ⟨p1, h1, h⟩ := bind_ok h
  obtain ⟨p2, h2, h⟩ := bind_ok h
  obtain ⟨g, h3, h⟩ := bind_ok h
  obtain ⟨h4, h⟩ := refuse_ok h
  obtain ⟨ts, h5, h⟩ := bind_ok h
  cases ts with
  | nil => cases h
  | cons t ts =>
    have h := Except.ok.inj h
    subst h
    exact ⟨p1, p2, t, ts, h1, h2, h3, h5, h4, hc, hg, rfl⟩

/-- The components of a tile. -/
structure CompSet (p : Params) (i : Nat) (c : Comp) (t : Tccp) : Prop where
  numres : t.numres = u32 p.numres
  cblkw : log2 p.cblockw = .ok t.cblkw
  cblkh : log2 p.cblockh = .ok t.cblkh
  cblksty : t.cblksty = u32 p.mode
  qmfbid : t.qmfbid = if p.irreversible ≠ 0 then 0 else 1
  qntsty : t.qntsty = if p.irreversible ≠ 0 then 2 else 0
  prcs : precincts p (u32 p.numres) = .ok t.prcs
  roishift : t.roishift = if (i : Int) = p.roiComp then u32 p.roiShift else 0

theorem component_inv {p : Params} {i : Nat} {c : Comp} {t : Tccp} (h : component p i c = .ok t) : CompSet p i c t := by
  unfold component at h
  obtain ⟨sh, _, h⟩ := bind_ok h
  dsimp only at h
  obtain ⟨a, h1, h⟩ := bind_ok h
  obtain ⟨b, h2, h⟩ := bind_ok h
  split at h
  · cases h
  obtain ⟨pr, h3, h⟩ := bind_ok h
  obtain ⟨st, h4, h⟩ := bind_ok h
  have h := Except.ok.inj h
  subst h
  exact ⟨rfl, h1, h2, rfl, rfl, rfl, h3, rfl⟩

theorem components_inv {p : Params} : ∀ (cs : List Comp) (i : Nat) (ts : List Tccp), components p i cs = .ok ts → ts.length = cs.length ∧
    ∀ (j : Nat) (t : Tccp), ts[j]? = some t → ∃ c, cs[j]? = some c ∧ CompSet p (i + j) c t
  | [], i, ts, h => by
    unfold components at h
    obtain rfl := Except.ok.inj h
    exact ⟨rfl, by simp⟩
  | c :: cs, i, ts, h => by
    unfold components at h
    obtain ⟨t, h1, h⟩ := bind_ok h
    obtain ⟨ts', h2, h⟩ := bind_ok h
    obtain rfl := Except.ok.inj h
    obtain ⟨hl, hi⟩ := components_inv cs (i + 1) ts' h2
    refine ⟨by simp [hl], ?_⟩
    intro j x hx
    cases j with
    | zero => simp at hx; subst hx; exact ⟨c, by simp, component_inv h1⟩
    | succ j =>
      obtain ⟨y, hy1, hy2⟩ := hi j x (by simpa using hx)
      refine ⟨y, by simpa using hy1, ?_⟩
      have : i + (j + 1) = i + 1 + j := by omega
      rw [this]
      exact hy2

theorem mapM_inv {α β : Type} {f : α → R β} : ∀ (l : List α) (bs : List β), l.mapM f = .ok bs → List.Forall₂ (fun a b => f a = .ok b) l bs
  | [], bs, h => by
    obtain rfl := Except.ok.inj h
    exact .nil
  | a :: l, bs, h => by
    rw [List.mapM_cons] at h
    obtain ⟨b, h1, h⟩ := bind_ok h
    obtain ⟨bs', h2, h⟩ := bind_ok h
    obtain rfl := Except.ok.inj h
    exact .cons h1 (mapM_inv l bs' h2)

/-- What every tile of a setup is. -/
theorem Came.tile_is {p : Params} {im : Image} {c : Coding} {p1 p2 : Params} {t : Tile} {ts : List Tile} (h : Came p im c p1 p2 t ts) :
    (t :: ts).length = c.grid.tw * c.grid.th ∧ ∀ (k : Nat) (x : Tile), (t :: ts)[k]? = some x →
      tilePocs p2.pocs im.comps.length k p2.numpocs 0 [] = .ok x.pocs ∧ components p2 0 im.comps = .ok x.tccps := by
  have hm := mapM_inv _ _ h.tiles
  have hl : (t :: ts).length = c.grid.tw * c.grid.th := by
    have := forall₂_len hm
    rw [List.length_range] at this
    omega
  refine ⟨hl, ?_⟩
  intro k x hx
  have hk : k < c.grid.tw * c.grid.th := by
    have := (List.getElem?_eq_some_iff.1 hx).1
    omega
  obtain ⟨y, hy1, hy2⟩ := forall₂_get hm k k (by simp [hk])
  rw [hx] at hy1
  obtain rfl := Option.some.inj hy1
  unfold tile at hy2
  obtain ⟨q, h1, hy2⟩ := bind_ok hy2
  obtain ⟨cs, h2, hy2⟩ := bind_ok hy2
  have e := Except.ok.inj hy2
  rw [← e]
  exact ⟨h1, h2⟩

/-! ## Precincts of the profiles -/

theorem fill_get {l : List Int} {n k : Nat} {x : Int} (h : k < n) : (fill l n x)[k]? = some x := by
  unfold fill
  rw [List.getElem?_append_left (by simpa using h)]
  simp [h]

theorem exponent_pow {k : Nat} (h : k < 31) : exponent (2 ^ k) = .ok k := by
  unfold exponent
  have : (0 : Int) < 2 ^ k := by positivity
  rw [if_neg (by omega)]
  exact log2_pow h

theorem precinct_hi {l : List Int} {m k : Nat} (h : k < m) : precinct (fill l m 256) m k = .ok 8 := by
  unfold precinct
  rw [if_pos (by omega), fill_get h]
  exact exponent_pow (k := 8) (by omega)

theorem precinct_lo {l : List Int} {m : Nat} (h : 0 < m) : precinct (fill l m 256) m m = .ok 7 := by
  unfold precinct
  have e : ((m : Int) - 1).toNat = m - 1 := by omega
  rw [if_neg (by omega), if_neg (by omega), e, fill_get (by omega)]
  dsimp only
  have e2 : m - (m - 1) = 1 := by omega
  rw [e2, if_neg (by omega)]
  exact exponent_pow (k := 7) (by omega)

theorem mapM_eq {α β : Type} {f : α → R β} {g : α → β} : ∀ l : List α, (∀ a ∈ l, f a = .ok (g a)) → l.mapM f = .ok (l.map g)
  | [], _ => rfl
  | a :: l, h => by
    rw [List.mapM_cons, h a (by simp), ok_bind, mapM_eq l (fun x hx => h x (by simp [hx])), ok_bind]
    rfl

/-- The precincts the profiles ask for: 128 by 128 samples at the lowest resolution, 256 by 256 at every other one. -/
def ProfilePrecs (n : Nat) (l : List (Nat × Nat)) : Prop := ∀ r < n, l[r]? = some (if r = 0 then (7, 7) else (8, 8))

theorem precincts_hi {p : Params} {n m : Nat} {lw lh : List Int} (hc : p.csty % 2 = 1) (hn : n = m + 1) (hm : 0 < m)
    (hs : p.resSpec = m) (hw : p.prcw = fill lw m 256) (hh : p.prch = fill lh m 256) {l : List (Nat × Nat)} (h : precincts p n = .ok l) :
    ProfilePrecs n l := by
  unfold precincts at h
  rw [if_pos hc, hs, hw, hh] at h
  have key : ∀ r ∈ List.range n, (do
      let w ← precinct (fill lw m 256) m (n - 1 - r)
      let h ← precinct (fill lh m 256) m (n - 1 - r)
      return (w, h) : R (Nat × Nat)) = .ok (if r = 0 then (7, 7) else (8, 8)) := by
    intro r hr
    have hr : r < n := List.mem_range.1 hr
    by_cases h0 : r = 0
    · rw [if_pos h0, h0]
      have : n - 1 - 0 = m := by omega
      rw [this, precinct_lo hm, precinct_lo hm]
      rfl
    · rw [if_neg h0, precinct_hi (by omega), precinct_hi (by omega)]
      rfl
  rw [mapM_eq _ key, ok_bind] at h
  have h := Except.ok.inj h
  intro r hr
  rw [← h, List.getElem?_append_left (by simpa using hr)]
  simp [hr]

theorem precincts_one {p : Params} {lw lh : List Int} (hc : p.csty % 2 = 1) (hs : p.resSpec = 1) (hw : p.prcw = fill lw 1 128)
    (hh : p.prch = fill lh 1 128) {l : List (Nat × Nat)} (h : precincts p 1 = .ok l) : ProfilePrecs 1 l := by
  unfold precincts at h
  have key : ∀ l' : List Int, precinct (fill l' 1 128) 1 0 = .ok 7 := by
    intro l'
    unfold precinct
    rw [if_pos (by omega), fill_get (by omega)]
    exact exponent_pow (k := 7) (by omega)
  have hm : (List.range 1).mapM (fun r => (do
      let w ← precinct p.prcw p.resSpec (1 - 1 - r)
      let h ← precinct p.prch p.resSpec (1 - 1 - r)
      return (w, h) : R (Nat × Nat))) = .ok [(7, 7)] := by
    rw [hs, hw, hh]
    show List.mapM _ [0] = _
    rw [List.mapM_cons, key, ok_bind, key, ok_bind]
    rfl
  rw [if_pos hc, hm, ok_bind] at h
  have h := Except.ok.inj h
  intro r hr
  obtain rfl : r = 0 := by omega
  rw [← h]
  rfl

theorem withPrecincts_odd (c : Int) : withPrecincts c % 2 = 1 := by unfold withPrecincts; split <;> omega

theorem profilePrecincts_are {q p : Params} (hr : 1 ≤ q.numres ∧ q.numres ≤ 33) (h1 : p.csty = (profilePrecincts q).csty)
    (h2 : p.resSpec = (profilePrecincts q).resSpec) (h3 : p.prcw = (profilePrecincts q).prcw) (h4 : p.prch = (profilePrecincts q).prch)
    {l : List (Nat × Nat)} (h : precincts p (u32 q.numres) = .ok l) : ProfilePrecs (u32 q.numres) l ∧ p.csty % 2 = 1 := by
  have hn : ((u32 q.numres : Nat) : Int) = q.numres := u32_of (by omega) (by omega)
  unfold profilePrecincts at h1 h2 h3 h4
  by_cases h0 : q.numres = 1
  · rw [if_pos h0] at h1 h2 h3 h4
    have hc : p.csty % 2 = 1 := by rw [h1]; exact withPrecincts_odd _
    have e : u32 q.numres = 1 := by omega
    rw [e] at h ⊢
    exact ⟨precincts_one hc h2 h3 h4 h, hc⟩
  · rw [if_neg h0] at h1 h2 h3 h4
    have hc : p.csty % 2 = 1 := by rw [h1]; exact withPrecincts_odd _
    refine ⟨precincts_hi (m := (q.numres - 1).toNat) hc (by omega) (by omega) ?_ h3 h4 h, hc⟩
    rw [h2]
    dsimp only
    omega

end Jp2.Setup

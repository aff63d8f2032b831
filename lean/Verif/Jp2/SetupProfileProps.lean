import Verif.Jp2.SetupMoreProps
/-!
# C68: a codestream marked with a profile keeps to it
-/
namespace Jp2.Setup
open Jp2.Hdr (R Fail refuseIf Comp Tccp Post bind_ok ok_bind)

/-- What both kinds of profiles ask of every component of every tile: code-blocks of 32 by 32, no code-block style, no region of interest. -/
structure PlainBlocks (x : Tccp) : Prop where
  cblk : x.cblkw = 5 ∧ x.cblkh = 5
  cblksty : x.cblksty = 0
  roishift : x.roishift = 0

/-- The cinema profiles, of 2K (`Rsiz` 3) and 4K (`Rsiz` 4) (Table A.45 of ITU-T T.800), as far as the code minds them. -/
structure Cinema (c : Coding) : Prop where
  comps : c.enc.comps.length = 3 ∧ ∀ x ∈ c.enc.comps, x.prec = 12 ∧ x.sgnd = 0
  size : ∀ x, c.enc.comps.head? = some x → if c.enc.rsiz = 3 then x.w ≤ 2048 ∧ x.h ≤ 1080 else x.w ≤ 4096 ∧ x.h ≤ 2160
  /-- One tile, from the origin of the reference grid to the end of the image. -/
  tile : c.enc.tx0 = 0 ∧ c.enc.ty0 = 0 ∧ c.enc.tdx = c.enc.x1 ∧ c.enc.tdy = c.enc.y1 ∧ c.tiles.length = 1
  /-- Component by component, one layer, precincts given. -/
  style : c.enc.prg = 4 ∧ c.enc.numlayers = 1 ∧ c.enc.csty % 2 = 1
  resolutions : ∀ t ∈ c.tiles, ∀ x ∈ t.tccps, 1 ≤ x.numres ∧ x.numres ≤ if c.enc.rsiz = 3 then 6 else 7
  blocks : ∀ t ∈ c.tiles, ∀ x ∈ t.tccps, PlainBlocks x
  /-- The 9-7 transform, with a step size for every band. -/
  transform : ∀ t ∈ c.tiles, ∀ x ∈ t.tccps, x.qmfbid = 0 ∧ x.qntsty = 2
  /-- Precincts of 128 by 128 samples at the lowest resolution, of 256 by 256 at every other one. -/
  precincts : ∀ t ∈ c.tiles, ∀ x ∈ t.tccps, ∀ r < x.numres, x.prcs[r]? = some (if r = 0 then (7, 7) else (8, 8))
  /-- A tile-part for every component, and `TLM`. -/
  parts : c.tp = some 67 ∧ c.tlm = true
  /-- 2K: no progression order changes. 4K: first all resolutions but the highest one, then that, for the three components. -/
  changes : ∀ t ∈ c.tiles, ∀ x ∈ t.tccps, t.pocs = if c.enc.rsiz = 3 then [] else
    [{ resno0 := 0, compno0 := 0, layno1 := 1, resno1 := x.numres - 1, compno1 := 3, prg := 4 },
     { resno0 := x.numres - 1, compno0 := 0, layno1 := 1, resno1 := x.numres, compno1 := 3, prg := 4 }]

/-- What the cinema profile turns parameters into. -/
structure CinemaSet (p q : Params) : Prop where
  rsiz : q.rsiz = p.rsiz
  origin : q.tileSizeOn = false ∧ q.tx0 = 0 ∧ q.ty0 = 0
  parts : q.tpFlag = 67 ∧ q.tpOn = true
  blocks : q.cblockw = 32 ∧ q.cblockh = 32 ∧ q.mode = 0
  roi : q.roiComp = -1
  irr : q.irreversible = 1
  layers : q.layers = if 1 < p.layers then 1 else p.layers
  numres : q.numres = cinemaRes p.rsiz p.numres
  prg : q.prg = 4
  precs : ∃ s : Params, s.numres = q.numres ∧ q.csty = (profilePrecincts s).csty ∧ q.resSpec = (profilePrecincts s).resSpec ∧
    q.prcw = (profilePrecincts s).prcw ∧ q.prch = (profilePrecincts s).prch
  changes : if q.rsiz = 4 then q.pocs = pocs4k q.numres p.pocs ∧ q.numpocs = 2 else q.numpocs = 0

theorem profile_keeps (q : Params) : (profilePrecincts q).rsiz = q.rsiz ∧ (profilePrecincts q).numres = q.numres ∧
    (profilePrecincts q).pocs = q.pocs ∧ (profilePrecincts q).layers = q.layers ∧ (profilePrecincts q).tileSizeOn = q.tileSizeOn ∧
    (profilePrecincts q).tx0 = q.tx0 ∧ (profilePrecincts q).ty0 = q.ty0 ∧ (profilePrecincts q).tpFlag = q.tpFlag ∧
    (profilePrecincts q).tpOn = q.tpOn ∧ (profilePrecincts q).cblockw = q.cblockw ∧ (profilePrecincts q).cblockh = q.cblockh ∧
    (profilePrecincts q).mode = q.mode ∧ (profilePrecincts q).roiComp = q.roiComp ∧ (profilePrecincts q).irreversible = q.irreversible := by
  unfold profilePrecincts
  by_cases h : q.numres = 1
  · rw [if_pos h]
    exact ⟨rfl, rfl, rfl, rfl, rfl, rfl, rfl, rfl, rfl, rfl, rfl, rfl, rfl, rfl⟩
  · rw [if_neg h]
    exact ⟨rfl, rfl, rfl, rfl, rfl, rfl, rfl, rfl, rfl, rfl, rfl, rfl, rfl, rfl⟩

theorem setCinema_is (p : Params) : CinemaSet p (setCinema p) := by
  obtain ⟨s, hs⟩ : ∃ s : Params, s = { p with
    tileSizeOn := false, tdx := 1, tdy := 1, tpFlag := 67, tpOn := true, tx0 := 0, ty0 := 0, cblockw := 32, cblockh := 32, mode := 0,
    roiComp := -1, irreversible := 1, layers := if 1 < p.layers then 1 else p.layers, numres := cinemaRes p.rsiz p.numres } := ⟨_, rfl⟩
  obtain ⟨k1, k2, k3, k4, k5, k6, k7, k8, k9, k10, k11, k12, k13, k14⟩ := profile_keeps s
  have e : setCinema p = if (profilePrecincts s).rsiz = 4 then
      { profilePrecincts s with prg := 4, pocs := pocs4k (profilePrecincts s).numres (profilePrecincts s).pocs, numpocs := 2 }
      else { profilePrecincts s with prg := 4, numpocs := 0 } := by
    rw [hs]; rfl
  rw [e]
  split
  · rename_i h4
    refine ⟨k1.trans (by rw [hs]), ⟨?_, ?_, ?_⟩, ⟨?_, ?_⟩, ⟨?_, ?_, ?_⟩, ?_, ?_, ?_, ?_, rfl, ⟨s, ?_, rfl, rfl, rfl, rfl⟩, ?_⟩
    · exact k5.trans (by rw [hs])
    · exact k6.trans (by rw [hs])
    · exact k7.trans (by rw [hs])
    · exact k8.trans (by rw [hs])
    · exact k9.trans (by rw [hs])
    · exact k10.trans (by rw [hs])
    · exact k11.trans (by rw [hs])
    · exact k12.trans (by rw [hs])
    · exact k13.trans (by rw [hs])
    · exact k14.trans (by rw [hs])
    · exact k4.trans (by rw [hs])
    · exact k2.trans (by rw [hs])
    · exact k2.symm
    · dsimp only
      rw [if_pos h4, k3]
      refine ⟨?_, rfl⟩
      rw [hs]
  · rename_i h4
    refine ⟨k1.trans (by rw [hs]), ⟨?_, ?_, ?_⟩, ⟨?_, ?_⟩, ⟨?_, ?_, ?_⟩, ?_, ?_, ?_, ?_, rfl, ⟨s, ?_, rfl, rfl, rfl, rfl⟩, ?_⟩
    · exact k5.trans (by rw [hs])
    · exact k6.trans (by rw [hs])
    · exact k7.trans (by rw [hs])
    · exact k8.trans (by rw [hs])
    · exact k9.trans (by rw [hs])
    · exact k10.trans (by rw [hs])
    · exact k11.trans (by rw [hs])
    · exact k12.trans (by rw [hs])
    · exact k13.trans (by rw [hs])
    · exact k14.trans (by rw [hs])
    · exact k4.trans (by rw [hs])
    · exact k2.trans (by rw [hs])
    · exact k2.symm
    · dsimp only
      rw [if_neg h4]

/-- What the other profiles turn parameters into. -/
structure ImfSet (p q : Params) (im : Image) : Prop where
  rsiz : q.rsiz = p.rsiz
  parts : q.tpFlag = 67 ∧ q.tpOn = true
  numres : 1 ≤ p.numres ∧ p.numres ≤ 33 → 0 < im.x1 → 0 < im.y1 → 1 ≤ q.numres ∧ q.numres ≤ 33
  precs : p.csty = 0 → ∃ s : Params, s.numres = q.numres ∧ q.csty = (profilePrecincts s).csty ∧ q.resSpec = (profilePrecincts s).resSpec ∧
    q.prcw = (profilePrecincts s).prcw ∧ q.prch = (profilePrecincts s).prch

theorem setImf_is (p : Params) (im : Image) : ImfSet p (setImf p im) im := by
  obtain ⟨q, hq⟩ : ∃ q : Params, q = if p.cblockw = 64 ∧ p.cblockh = 64 then { p with cblockw := 32, cblockh := 32 } else p := ⟨_, rfl⟩
  obtain ⟨s, hs⟩ : ∃ s : Params, s = { q with
    tpFlag := 67, tpOn := true, prg := if q.prg = 0 then 4 else q.prg,
    irreversible := if imfSingle q.rsiz then 1 else q.irreversible, numres := imfRes q im } := ⟨_, rfl⟩
  have e : setImf p im = if s.csty = 0 then profilePrecincts s else s := by rw [hs, hq]; rfl
  have q1 : q.rsiz = p.rsiz ∧ q.csty = p.csty ∧ q.numres = p.numres := by rw [hq]; split <;> exact ⟨rfl, rfl, rfl⟩
  obtain ⟨k1, k2, k3, k4, k5, k6, k7, k8, k9, k10, k11, k12, k13, k14⟩ := profile_keeps s
  have hn : 1 ≤ p.numres ∧ p.numres ≤ 33 → 0 < im.x1 → 0 < im.y1 → 1 ≤ s.numres ∧ s.numres ≤ 33 := by
    intro h1 h2 h3
    rw [hs]
    exact imfRes_range (by rw [q1.2.2]; exact h1) h2 h3
  have hc : s.csty = p.csty := by rw [hs]; exact q1.2.1
  rw [e]
  split
  · refine ⟨?_, ⟨?_, ?_⟩, ?_, fun _ => ⟨s, k2.symm, rfl, rfl, rfl, rfl⟩⟩
    · rw [k1, hs]; exact q1.1
    · rw [k8, hs]
    · rw [k9, hs]
    · rw [k2]; exact hn
  · rename_i h0
    refine ⟨?_, ⟨?_, ?_⟩, hn, fun h => absurd (hc.trans h) h0⟩
    · rw [hs]; exact q1.1
    · rw [hs]
    · rw [hs]

theorem profiles_cinema {p q : Params} {im : Image} (h : profiles p im = .ok q) (hq : q.rsiz = 3 ∨ q.rsiz = 4) :
    q = setCinema p ∧ p.rsiz = q.rsiz ∧ cinemaCompliant im q.rsiz = true := by
  have hset : (setCinema p).rsiz = p.rsiz := (setCinema_is p).rsiz
  unfold profiles at h
  dsimp only at h
  split at h
  · split at h
    · obtain rfl := Except.ok.inj h
      dsimp only at hq
      omega
    · split at h
      · rename_i hc
        obtain rfl := Except.ok.inj h
        exact ⟨rfl, hset.symm, hc⟩
      · obtain rfl := Except.ok.inj h
        dsimp only at hq
        omega
  · rename_i hc
    have hc' : ¬ (p.rsiz = 3 ∨ p.rsiz = 4) := by
      intro hp
      apply hc
      unfold isCinema
      rcases hp with hp | hp <;> simp [hp]
    have z : ∀ q : Params, q = { p with rsiz := 0 } → ¬ (q.rsiz = 3 ∨ q.rsiz = 4) := by rintro q rfl; simp
    split at h
    · exact absurd hq (z q (Except.ok.inj h).symm)
    split at h
    · exact absurd hq (z q (Except.ok.inj h).symm)
    split at h
    · rename_i himf
      split at h
      · cases h
      split at h
      · obtain rfl := Except.ok.inj h
        exfalso
        have : (setImf p im).rsiz = p.rsiz := (setImf_is p im).rsiz
        rw [this] at hq
        exact hc' hq
      · obtain rfl := Except.ok.inj h
        dsimp only at hq
        omega
    split at h
    · split at h
      · obtain rfl := Except.ok.inj h
        exact absurd hq hc'
      · exact absurd hq (z q (Except.ok.inj h).symm)
    · obtain rfl := Except.ok.inj h
      exact absurd hq hc'

theorem u32_odd {x : Int} (h : x % 2 = 1) : u32 x % 2 = 1 := by unfold u32; omega

/-- The tiles and their components. -/
theorem came_comps {p : Params} {im : Image} {c : Coding} {p1 p2 : Params} {t0 : Tile} {ts : List Tile} (h : Came p im c p1 p2 t0 ts) :
    ∀ t ∈ c.tiles, (∃ k, k < c.tiles.length ∧ tilePocs p2.pocs im.comps.length k p2.numpocs 0 [] = .ok t.pocs) ∧
      ∀ x ∈ t.tccps, ∃ i y, CompSet p2 i y x := by
  intro t ht
  have htl : c.tiles = t0 :: ts := by rw [h.is]
  obtain ⟨k, hk, rfl⟩ := List.getElem_of_mem ht
  obtain ⟨h1, h2⟩ := h.tile_is.2 k c.tiles[k] (by rw [← htl]; simp)
  refine ⟨⟨k, hk, h1⟩, ?_⟩
  intro x hx
  obtain ⟨j, hj, rfl⟩ := List.getElem_of_mem hx
  obtain ⟨y, _, hy⟩ := (components_inv _ _ _ h2).2 j _ (List.getElem?_eq_getElem hj)
  exact ⟨_, y, hy⟩

theorem fixLayers_inv {p q : Params} (h : fixLayers p = .ok q) : q = settled p ∧ 1 ≤ q.layers := by
  have h' : (if (settled p).layers < 1 ∨ 100 < (settled p).layers then .error .panic else .ok (settled p) : R Params) = .ok q := h
  split at h'
  · cases h'
  · have := Except.ok.inj h'
    rw [← this]
    exact ⟨rfl, by omega⟩

theorem log2_32 {k : Nat} (h : log2 32 = .ok k) : k = 5 := by
  have := log2_pow (k := 5) (by omega)
  norm_num at this
  rw [this] at h
  exact (Except.ok.inj h).symm

/-- **C68.** If the header is marked with one of the cinema profiles, then all that is set up keeps to that profile. -/
theorem C68_cinema_profile (p : Params) (im : Image) (c : Coding) (hx : im.x1 < 2 ^ 32) (hy : im.y1 < 2 ^ 32) (h : setup p im = .ok c)
    (hr : c.enc.rsiz = 3 ∨ c.enc.rsiz = 4) : Cinema c := by
  obtain ⟨p1, p2, t0, ts, hc⟩ := setup_inv h
  have hrs : c.enc.rsiz = p2.rsiz := by rw [hc.is]
  rw [hrs] at hr
  obtain ⟨hp2, hsame, hcomp⟩ := profiles_cinema hc.profile hr
  obtain ⟨hl1, hlay⟩ := fixLayers_inv hc.layers
  have S := setCinema_is p1
  rw [← hp2] at S
  have hgood : 1 ≤ p1.numres ∧ p1.numres ≤ 33 := by
    obtain ⟨r, hd⟩ := deprecated_eq p
    rw [hl1, hd, settled_eq]
    exact hc.good.1
  have hn2 : 1 ≤ p2.numres ∧ p2.numres ≤ 33 := by rw [S.numres]; exact cinemaRes_range hgood
  have hnu : ((u32 p2.numres : Nat) : Int) = p2.numres := u32_of (by omega) (by omega)
  have hcomps := came_comps hc
  have hec : c.enc.comps = im.comps := by rw [hc.is]
  have hlen : im.comps.length = 3 := by
    unfold cinemaCompliant at hcomp
    simp only [Bool.and_eq_true] at hcomp
    simpa using hcomp.1.1
  have hgrid : c.grid = ⟨im.x1, im.y1, 0, 0, 1, 1⟩ := by
    have := hc.grid
    unfold grid at this
    rw [S.origin.1, S.origin.2.1, S.origin.2.2] at this
    have this := Except.ok.inj this
    rw [← this]
    have u0 : u32 0 = 0 := rfl
    rw [u0]
    have e1 : (im.x1 + 2 ^ 32 - 0) % 2 ^ 32 = im.x1 := by omega
    have e2 : (im.y1 + 2 ^ 32 - 0) % 2 ^ 32 = im.y1 := by omega
    rw [e1, e2]
  have htl : c.tiles.length = 1 := by
    have e : c.tiles = t0 :: ts := by rw [hc.is]
    rw [e, hc.tile_is.1, hgrid]
    rfl
  have hcsty : p2.csty % 2 = 1 := by
    obtain ⟨s, _, h1, _⟩ := S.precs
    rw [h1]
    unfold profilePrecincts
    by_cases hs : s.numres = 1
    · rw [if_pos hs]; exact withPrecincts_odd _
    · rw [if_neg hs]; exact withPrecincts_odd _
  refine ⟨?_, ?_, ?_, ?_, ?_, ?_, ?_, ?_, ?_, ?_⟩
  · rw [hec]
    refine ⟨hlen, ?_⟩
    intro x hx'
    unfold cinemaCompliant at hcomp
    simp only [Bool.and_eq_true, List.all_eq_true] at hcomp
    have := hcomp.1.2 x hx'
    simpa using this
  · intro x hx'
    rw [hec] at hx'
    rw [hrs]
    unfold cinemaCompliant at hcomp
    simp only [Bool.and_eq_true, hx'] at hcomp
    rcases hr with hr | hr
    · rw [hr, if_pos rfl] at hcomp
      rw [if_pos hr]
      simpa using hcomp.2
    · rw [hr, if_neg (by omega), if_pos rfl] at hcomp
      rw [if_neg (by omega)]
      simpa using hcomp.2
  · refine ⟨?_, ?_, ?_, ?_, htl⟩
    all_goals
      rw [hc.is]
      dsimp only
      rw [hgrid]
  · have e1 : c.enc.prg = u32 p2.prg := by rw [hc.is]
    have e2 : c.enc.numlayers = u32 p2.layers := by rw [hc.is]
    have e3 : c.enc.csty = u32 p2.csty := by rw [hc.is]
    rw [e1, e2, e3, S.prg]
    refine ⟨rfl, ?_, u32_odd hcsty⟩
    have : p2.layers = 1 := by rw [S.layers]; split <;> omega
    rw [this]
    rfl
  · intro t ht x hx'
    obtain ⟨i, y, hs⟩ := (hcomps t ht).2 x hx'
    rw [hs.numres, hrs]
    refine ⟨by omega, ?_⟩
    have : p2.numres = cinemaRes p2.rsiz p1.numres := by rw [← hsame]; exact S.numres
    rcases hr with hr | hr
    · rw [hr] at this ⊢
      rw [if_pos rfl]
      unfold cinemaRes at this
      rw [if_pos rfl] at this
      split at this <;> omega
    · rw [hr] at this ⊢
      rw [if_neg (by omega)]
      unfold cinemaRes at this
      rw [if_neg (by omega), if_pos rfl] at this
      split at this
      · omega
      · split at this <;> omega
  · intro t ht x hx'
    obtain ⟨i, y, hs⟩ := (hcomps t ht).2 x hx'
    have h1 := hs.cblkw
    have h2 := hs.cblkh
    rw [S.blocks.1] at h1
    rw [S.blocks.2.1] at h2
    refine ⟨⟨log2_32 h1, log2_32 h2⟩, ?_, ?_⟩
    · rw [hs.cblksty, S.blocks.2.2]; rfl
    · rw [hs.roishift, S.roi, if_neg (by omega)]
  · intro t ht x hx'
    obtain ⟨i, y, hs⟩ := (hcomps t ht).2 x hx'
    rw [hs.qmfbid, hs.qntsty, S.irr]
    exact ⟨rfl, rfl⟩
  · intro t ht x hx'
    obtain ⟨i, y, hs⟩ := (hcomps t ht).2 x hx'
    obtain ⟨s, s1, s2, s3, s4, s5⟩ := S.precs
    rw [hs.numres]
    have := hs.prcs
    rw [← s1] at this ⊢
    exact (profilePrecincts_are (by rw [s1]; exact hn2) s2 s3 s4 s5 this).1
  · have e1 : c.tp = if p2.tpOn then some p2.tpFlag else none := by rw [hc.is]
    have e2 : c.tlm = (isCinema p1.rsiz || isImf p1.rsiz) := by rw [hc.is]
    rw [e1, e2, S.parts.1, S.parts.2, hsame]
    refine ⟨rfl, ?_⟩
    rcases hr with hr | hr <;> rw [hr] <;> decide
  · intro t ht x hx'
    obtain ⟨⟨k, hk, hpoc⟩, hcs⟩ := hcomps t ht
    obtain ⟨i, y, hs⟩ := hcs x hx'
    rw [htl] at hk
    obtain rfl : k = 0 := by omega
    have hch := S.changes
    rw [hrs]
    rcases hr with hr | hr
    · rw [if_pos hr]
      rw [if_neg (by omega)] at hch
      rw [hch] at hpoc
      exact (Except.ok.inj hpoc).symm
    · rw [if_neg (by omega)]
      rw [if_pos hr] at hch
      rw [hch.1, hch.2] at hpoc
      have := (tilePocs_is 2 0 [] t.pocs (by simp) hpoc).1
      have e1 : u32 (p2.numres - 1) = u32 p2.numres - 1 := by
        have : ((u32 (p2.numres - 1) : Nat) : Int) = p2.numres - 1 := u32_of (by omega) (by omega)
        omega
      rw [this, hlen, hs.numres]
      unfold pocs4k
      simp [carried, e1]

/-- Whether what is set up keeps `Rsiz`, and something else. -/
def keeps (p : Params) (im : Image) (rsiz : Nat) (f : Coding → Bool) : Bool :=
  match setup p im with
  | .ok c => c.enc.rsiz == rsiz && f c
  | .error _ => false

theorem keeps_spec {p : Params} {im : Image} {rsiz : Nat} {f : Coding → Bool} (h : keeps p im rsiz f = true) :
    ∃ c, setup p im = .ok c ∧ c.enc.rsiz = rsiz ∧ f c = true := by
  unfold keeps at h
  split at h
  · rename_i c hc
    simp only [Bool.and_eq_true, beq_iff_eq] at h
    exact ⟨c, hc, h⟩
  · cases h

example : (∃ c, setup { rsiz := 3 } cinemaImage = .ok c ∧ c.enc.rsiz = 3 ∧ (c.tiles.length == 1) = true) ∧
    ∃ c, setup { cinema := 3 } cinemaImage = .ok c ∧ c.enc.rsiz = 4 ∧ (c.tiles.length == 1) = true :=
  ⟨keeps_spec (by decide +kernel), keeps_spec (by decide +kernel)⟩

/-- **False of the code.** The profiles of ISO/IEC 15444-1 also want the image at the origin, all components sampled alike, and for 4K at
least one decomposition. The code keeps the mark of the profile without. -/
theorem C68_cinema_not_checked :
    (∃ c, setup { rsiz := 3 } { cinemaImage with x0 := 100, y0 := 50 } = .ok c ∧ c.enc.rsiz = 3 ∧ (c.enc.x0 == 100) = true) ∧
    (∃ c, setup { rsiz := 3 } { cinemaImage with comps := cinemaImage.comps.map fun x => { x with dx := 3 } } = .ok c ∧ c.enc.rsiz = 3 ∧
      (c.enc.comps.all fun x => x.dx == 3) = true) ∧
    ∃ c, setup { rsiz := 4, numres := 1 } cinemaImage = .ok c ∧ c.enc.rsiz = 4 ∧ (c.enc.tccps.all fun x => x.numres == 1) = true :=
  ⟨keeps_spec (by decide +kernel), keeps_spec (by decide +kernel), keeps_spec (by decide +kernel)⟩

/-! ## Interoperable master format -/

/-- The subsampling of the components: none in the first one, none vertically, and horizontally the others alike, by 1 or 2. -/
def Sampled (l : List Comp) : Prop :=
  (∀ x ∈ l, x.dy = 1) ∧ (∀ x, l[0]? = some x → x.dx = 1) ∧ (∀ x, l[1]? = some x → x.dx = 1 ∨ x.dx = 2) ∧
  ∀ x y, l[1]? = some x → l[2]? = some y → y.dx = x.dx

/-- The number of decompositions allowed in tiles `w` wide, for profiles of the families 4 to 9: 2K, 4K, 8K, and these with the 5-3 transform. -/
def maxLevels (family w : Nat) : Nat :=
  if family ≤ 6 then family + 1
  else min (family - 2) (if 8192 ≤ w then 7 else if 4096 ≤ w then 6 else if 2048 ≤ w then 5 else 4)

/-- The profiles for interoperable master formats, `Rsiz` 0x400 to 0x99B: the family is `Rsiz / 256`, and the last two hexadecimal
digits are the sublevel and the main level. -/
structure Imf (c : Coding) : Prop where
  family : 4 ≤ c.enc.rsiz / 256 ∧ c.enc.rsiz / 256 ≤ 9
  levels : c.enc.rsiz % 16 ≤ 11 ∧ (0 < c.enc.rsiz % 16 → c.enc.rsiz / 16 % 16 ≤ max 1 (c.enc.rsiz % 16 - 2))
  comps : c.enc.comps.length ≤ 3 ∧ ∀ x ∈ c.enc.comps, (8 ≤ x.prec ∧ x.prec ≤ 16) ∧ x.sgnd = 0
  sampled : Sampled c.enc.comps
  size : ∀ x, c.enc.comps.head? = some x →
    if c.enc.rsiz / 256 % 3 = 1 then x.w ≤ 2048 ∧ x.h ≤ 1556
    else if c.enc.rsiz / 256 % 3 = 2 then x.w ≤ 4096 ∧ x.h ≤ 3112
    else x.w ≤ 8192 ∧ x.h ≤ 6224
  origin : c.enc.x0 = 0 ∧ c.enc.y0 = 0 ∧ c.enc.tx0 = 0 ∧ c.enc.ty0 = 0
  /-- One tile; with the 5-3 transform, or tiles of 1024 by 1024. -/
  tiles : c.tiles.length = 1 ∨ (7 ≤ c.enc.rsiz / 256 ∧ c.enc.tdx = 1024 ∧ c.enc.tdy = 1024)
  style : c.enc.prg = 4 ∧ c.enc.numlayers = 1
  blocks : ∀ t ∈ c.tiles, ∀ x ∈ t.tccps, PlainBlocks x
  transform : ∀ t ∈ c.tiles, ∀ x ∈ t.tccps, x.qmfbid = if c.enc.rsiz / 256 ≤ 6 then 0 else 1
  resolutions : ∀ t ∈ c.tiles, ∀ x ∈ t.tccps, c.enc.rsiz / 256 ≤ 6 ∨ 1024 ≤ c.enc.tdx →
    2 ≤ x.numres ∧ x.numres ≤ maxLevels (c.enc.rsiz / 256) c.enc.tdx + 1
  parts : c.tp = some 67 ∧ c.tlm = true
  changes : ∀ t ∈ c.tiles, t.pocs = []

theorem profiles_imf {p q : Params} {im : Image} (h : profiles p im = .ok q) (hq : isImf q.rsiz = true) :
    q = setImf p im ∧ p.rsiz = q.rsiz ∧ imfCompliant q im = true := by
  have hq' : 0x400 ≤ q.rsiz ∧ q.rsiz ≤ 0x99B := by
    unfold isImf at hq
    simpa using hq
  have hset : (setCinema p).rsiz = p.rsiz := (setCinema_is p).rsiz
  unfold profiles at h
  dsimp only at h
  split at h
  · rename_i hc
    have hc' : 3 ≤ p.rsiz ∧ p.rsiz ≤ 6 := by
      unfold isCinema at hc
      simpa using hc
    exfalso
    split at h
    · obtain rfl := Except.ok.inj h
      dsimp only at hq'
      omega
    · split at h
      · obtain rfl := Except.ok.inj h
        omega
      · obtain rfl := Except.ok.inj h
        dsimp only at hq'
        omega
  · have z : ∀ q : Params, q = { p with rsiz := 0 } → ¬ (0x400 ≤ q.rsiz ∧ q.rsiz ≤ 0x99B) := by rintro q rfl; simp
    split at h
    · exact absurd hq' (z q (Except.ok.inj h).symm)
    split at h
    · exact absurd hq' (z q (Except.ok.inj h).symm)
    split at h
    · split at h
      · cases h
      split at h
      · rename_i hcomp
        obtain rfl := Except.ok.inj h
        exact ⟨rfl, (setImf_is p im).rsiz.symm, hcomp⟩
      · obtain rfl := Except.ok.inj h
        dsimp only at hq'
        omega
    · rename_i hn
      split at h
      · split at h
        · obtain rfl := Except.ok.inj h
          exact absurd hq hn
        · exact absurd hq' (z q (Except.ok.inj h).symm)
      · obtain rfl := Except.ok.inj h
        exact absurd hq hn

theorem sampling_dy : ∀ (l : List Comp) (i prev : Nat), imfSampling i prev l = true → ∀ x ∈ l, x.dy = 1
  | [], _, _, _ => by simp
  | c :: cs, i, prev, h => by
    unfold imfSampling at h
    simp only [Bool.and_eq_true, beq_iff_eq] at h
    intro x hx
    rcases List.mem_cons.1 hx with rfl | hx
    · exact h.1.2
    · exact sampling_dy cs _ _ h.2 x hx

theorem sampling_spec {l : List Comp} (h : imfSampling 0 0 l = true) : Sampled l := by
  refine ⟨sampling_dy l 0 0 h, ?_, ?_, ?_⟩
  · intro x hx
    match l with
    | [] => simp at hx
    | a :: _ =>
      simp at hx
      subst hx
      unfold imfSampling at h
      simp at h
      exact h.1.1
  · intro x hx
    match l with
    | [] => simp at hx
    | [_] => simp at hx
    | a :: b :: _ =>
      simp at hx
      subst hx
      unfold imfSampling at h
      simp only [Bool.and_eq_true] at h
      have h := h.2
      unfold imfSampling at h
      simp at h
      exact h.1.1
  · intro x y hx hy
    match l with
    | [] => simp at hx
    | [_] => simp at hx
    | [_, _] => simp at hy
    | a :: b :: c :: _ =>
      simp at hx hy
      subst hx hy
      unfold imfSampling at h
      simp only [Bool.and_eq_true] at h
      have h := h.2
      unfold imfSampling at h
      simp only [Bool.and_eq_true] at h
      have h := h.2
      unfold imfSampling at h
      simp at h
      exact h.1.1

theorem within_spec {m n : Int} (h : within m n = true) : 1 ≤ n ∧ n ≤ m := by
  unfold within at h
  simpa using h

/-- **C68.** If the header is marked with one of the profiles for interoperable master formats, then all that is set up keeps to that profile; as far
as precincts go, if none were asked for. -/
theorem C68_imf_profile (p : Params) (im : Image) (c : Coding) (hx : im.x1 < 2 ^ 32) (hy : im.y1 < 2 ^ 32) (hx0 : 0 < im.x1) (hy0 : 0 < im.y1)
    (h : setup p im = .ok c) (hr : 0x400 ≤ c.enc.rsiz ∧ c.enc.rsiz ≤ 0x99B) :
    Imf c ∧ (p.csty = 0 → c.enc.csty % 2 = 1 ∧
      ∀ t ∈ c.tiles, ∀ x ∈ t.tccps, ∀ r < x.numres, x.prcs[r]? = some (if r = 0 then (7, 7) else (8, 8))) := by
  obtain ⟨p1, p2, t0, ts, hc⟩ := setup_inv h
  have hrs : c.enc.rsiz = p2.rsiz := by rw [hc.is]
  have himf : isImf p2.rsiz = true := by unfold isImf; simp; omega
  obtain ⟨hp2, hsame, hcomp⟩ := profiles_imf hc.profile himf
  obtain ⟨hl1, hlay⟩ := fixLayers_inv hc.layers
  have S := setImf_is p1 im
  rw [← hp2] at S
  have hp1 : 1 ≤ p1.numres ∧ p1.numres ≤ 33 ∧ p1.csty = p.csty := by
    obtain ⟨r, hd⟩ := deprecated_eq p
    rw [hl1, hd, settled_eq]
    exact ⟨hc.good.1.1, hc.good.1.2, rfl⟩
  have hn2 : 1 ≤ p2.numres ∧ p2.numres ≤ 33 := S.numres ⟨hp1.1, hp1.2.1⟩ hx0 hy0
  have hnu : ((u32 p2.numres : Nat) : Int) = p2.numres := u32_of (by omega) (by omega)
  have hcomps := came_comps hc
  have hec : c.enc.comps = im.comps := by rw [hc.is]
  obtain ⟨r, hrr⟩ : ∃ r, r = p2.rsiz := ⟨_, rfl⟩
  rw [hrs, ← hrr] at hr
  unfold imfCompliant at hcomp
  simp only [Bool.and_eq_true, decide_eq_true_eq, beq_iff_eq] at hcomp
  obtain ⟨⟨⟨⟨⟨⟨⟨⟨⟨⟨⟨⟨⟨⟨⟨⟨⟨⟨⟨m1, m2⟩, m3⟩, m4⟩, m5⟩, m6⟩, m7⟩, m8⟩, m9⟩, m10⟩, m11⟩, m12⟩, m13⟩, m14⟩, m15⟩, m16⟩, m17⟩, m18⟩, m19⟩, m20⟩ := hcomp
  rw [← hrr] at m1 m10 m17
  obtain ⟨f, hf⟩ : ∃ f, f = r / 256 := ⟨_, rfl⟩
  have hf49 : 4 ≤ f ∧ f ≤ 9 := by omega
  have hsingle : imfSingle r = decide (f ≤ 6) := by
    unfold imfSingle
    rw [← hf]
    obtain h | h | h | h | h | h : f = 4 ∨ f = 5 ∨ f = 6 ∨ f = 7 ∨ f = 8 ∨ f = 9 := by omega
    all_goals rw [h]; rfl
  have u0 : u32 0 = 0 := rfl
  -- the grid
  have hgrid : c.grid.tx0 = 0 ∧ c.grid.ty0 = 0 ∧ c.grid.tdx = xtsiz p2 im ∧
      (c.grid.tw * c.grid.th = 1 ∨ (7 ≤ f ∧ c.grid.tdx = 1024 ∧ c.grid.tdy = 1024)) := by
    have hg := hc.grid
    unfold grid at hg
    rw [m5, m6, u0] at hg
    unfold xtsiz
    cases hts : p2.tileSizeOn with
    | false =>
      rw [hts] at hg
      have hg := Except.ok.inj hg
      rw [← hg]
      refine ⟨rfl, rfl, ?_, Or.inl rfl⟩
      show (im.x1 + 2 ^ 32 - 0) % 2 ^ 32 = im.x1
      omega
    | true =>
      rw [hts] at hg
      obtain ⟨w0, hg⟩ := refuse_ok hg
      obtain ⟨h0, hg⟩ := refuse_ok hg
      rw [across_spec (by omega) hx (by omega) (u32_lt _), ok_bind, across_spec (by omega) hy (by omega) (u32_lt _), ok_bind] at hg
      split at hg
      · cases hg
      obtain ⟨_, hg⟩ := refuse_ok hg
      have hg := Except.ok.inj hg
      rw [← hg]
      refine ⟨rfl, rfl, rfl, ?_⟩
      dsimp only
      unfold imfTiles at m7
      rw [hts, ← hrr, hsingle] at m7
      have one : ∀ a d : Nat, 0 < a → a ≤ d → Hdr.cdiv (a - 0) d = 1 := by
        intro a d h1 h2
        unfold Hdr.cdiv
        rw [Nat.div_eq_iff (by omega)]
        omega
      by_cases h6 : f ≤ 6
      · simp [h6] at m7
        left
        rw [one _ _ hx0 (by omega), one _ _ hy0 (by omega)]
      · have hn5 : ¬ (r / 256 = 5) ∧ ¬ (r / 256 = 6) := by omega
        have e5 : (r / 256 * 256 == 0x500) = false := by simp; omega
        have e6 : (r / 256 * 256 == 0x600) = false := by simp; omega
        rw [e5, e6] at m7
        simp [h6] at m7
        rcases m7 with m7 | m7
        · left
          rw [one _ _ hx0 m7.1, one _ _ hy0 m7.2]
        · right
          rw [m7.1, m7.2]
          exact ⟨by omega, rfl, rfl⟩
  have htl : c.tiles.length = c.grid.tw * c.grid.th := by
    have e : c.tiles = t0 :: ts := by rw [hc.is]
    rw [e, hc.tile_is.1]
  have g1 : c.enc.tx0 = c.grid.tx0 := by rw [hc.is]
  have g2 : c.enc.ty0 = c.grid.ty0 := by rw [hc.is]
  have g3 : c.enc.tdx = c.grid.tdx := by rw [hc.is]
  have g4 : c.enc.tdy = c.grid.tdy := by rw [hc.is]
  have g5 : c.enc.x0 = im.x0 := by rw [hc.is]
  have g6 : c.enc.y0 = im.y0 := by rw [hc.is]
  refine ⟨⟨?_, ?_, ?_, ?_, ?_, ?_, ?_, ?_, ?_, ?_, ?_, ?_, ?_⟩, ?_⟩
  · rw [hrs, ← hrr]; omega
  · rw [hrs, ← hrr]
    split at m1
    · cases m1
    · rename_i m hm
      have hm' : r / 16 % 16 ≤ m := by simpa using m1
      have hlt : r % 16 < 12 := by
        have := (List.getElem?_eq_some_iff.1 hm).1
        exact this
      refine ⟨by omega, fun hpos => ?_⟩
      have key : ∀ k < 12, 0 < k → maxSub[k]? = some (max 1 (k - 2)) := by decide
      rw [key _ hlt hpos] at hm
      have := Option.some.inj hm
      omega
  · rw [hec]
    refine ⟨m2, ?_⟩
    intro x hx'
    have := List.all_eq_true.1 m8 x hx'
    simpa [and_assoc] using this
  · rw [hec]; exact sampling_spec m9
  · intro x hx'
    rw [hec] at hx'
    rw [hx'] at m10
    dsimp only at m10
    rw [hrs, ← hrr, ← hf]
    unfold imfSize at m10
    rw [← hf] at m10
    obtain h | h | h | h | h | h : f = 4 ∨ f = 5 ∨ f = 6 ∨ f = 7 ∨ f = 8 ∨ f = 9 := by omega
    all_goals
      subst h
      simp at m10 ⊢
      omega
  · rw [g1, g2, g5, g6]
    exact ⟨m3, m4, hgrid.1, hgrid.2.1⟩
  · rw [htl, hrs, ← hrr, ← hf, g3, g4]
    exact hgrid.2.2.2
  · have e1 : c.enc.prg = u32 p2.prg := by rw [hc.is]
    have e2 : c.enc.numlayers = u32 p2.layers := by rw [hc.is]
    rw [e1, e2, m14, m18]
    exact ⟨rfl, rfl⟩
  · intro t ht x hx'
    obtain ⟨i, y, hs⟩ := (hcomps t ht).2 x hx'
    have h1 := hs.cblkw
    have h2 := hs.cblkh
    rw [m12] at h1
    rw [m13] at h2
    refine ⟨⟨log2_32 h1, log2_32 h2⟩, ?_, ?_⟩
    · rw [hs.cblksty, m16]; rfl
    · rw [hs.roishift, m11, if_neg (by omega)]
  · intro t ht x hx'
    obtain ⟨i, y, hs⟩ := (hcomps t ht).2 x hx'
    rw [hs.qmfbid, hrs, ← hrr, ← hf]
    rw [hsingle] at m17
    by_cases h6 : f ≤ 6
    · simp [h6] at m17
      rw [m17, if_pos h6]
      rfl
    · simp [h6] at m17
      rw [m17, if_neg h6]
      rfl
  · intro t ht x hx' hw
    obtain ⟨i, y, hs⟩ := (hcomps t ht).2 x hx'
    rw [hs.numres]
    rw [hrs, ← hrr, ← hf, g3, hgrid.2.2.1] at hw ⊢
    unfold imfLevels at m19
    rw [← hrr, ← hf] at m19
    dsimp only at m19
    unfold maxLevels
    obtain ⟨w, hwx⟩ : ∃ w, w = xtsiz p2 im := ⟨_, rfl⟩
    rw [← hwx] at hw m19 ⊢
    have key : ∀ m : Int, within m (p2.numres - 1) = true → 2 ≤ u32 p2.numres ∧ (u32 p2.numres : Int) ≤ m + 1 := by
      intro m hm
      have := within_spec hm
      omega
    obtain h | h | h | h | h | h : f = 4 ∨ f = 5 ∨ f = 6 ∨ f = 7 ∨ f = 8 ∨ f = 9 := by omega
    · subst h
      have := key 5 m19
      rw [if_pos (by omega)]
      omega
    · subst h
      have := key 6 m19
      rw [if_pos (by omega)]
      omega
    · subst h
      have := key 7 m19
      rw [if_pos (by omega)]
      omega
    · subst h
      rw [if_neg (by omega)]
      have m19 : (if 2048 ≤ w then within 5 (p2.numres - 1) else !decide (1024 ≤ w) || within 4 (p2.numres - 1)) = true := m19
      have h1 : 1024 ≤ w := by omega
      by_cases c1 : 2048 ≤ w
      · rw [if_pos c1] at m19
        have := key 5 m19
        have : 5 ≤ (if 8192 ≤ w then 7 else if 4096 ≤ w then 6 else if 2048 ≤ w then 5 else 4) := by
          split
          · omega
          · split
            · omega
            · omega
        omega
      · rw [if_neg c1] at m19
        simp only [h1, decide_true, Bool.not_true, Bool.false_or] at m19
        have := key 4 m19
        rw [if_neg (by omega), if_neg (by omega), if_neg (by omega)]
        omega
    · subst h
      rw [if_neg (by omega)]
      have m19 : (if 4096 ≤ w then within 6 (p2.numres - 1) else if 2048 ≤ w then within 5 (p2.numres - 1) else
        !decide (1024 ≤ w) || within 4 (p2.numres - 1)) = true := m19
      have h1 : 1024 ≤ w := by omega
      by_cases c0 : 4096 ≤ w
      · rw [if_pos c0] at m19
        have := key 6 m19
        have : 6 ≤ (if 8192 ≤ w then 7 else if 4096 ≤ w then 6 else if 2048 ≤ w then 5 else 4) := by
          split <;> omega
        omega
      rw [if_neg c0] at m19
      rw [if_neg (by omega), if_neg c0]
      by_cases c1 : 2048 ≤ w
      · rw [if_pos c1] at m19 ⊢
        have := key 5 m19
        omega
      · rw [if_neg c1] at m19 ⊢
        simp only [h1, decide_true, Bool.not_true, Bool.false_or] at m19
        have := key 4 m19
        omega
    · subst h
      rw [if_neg (by omega)]
      have m19 : (if 8192 ≤ w then within 7 (p2.numres - 1) else if 4096 ≤ w then within 6 (p2.numres - 1) else
        if 2048 ≤ w then within 5 (p2.numres - 1) else !decide (1024 ≤ w) || within 4 (p2.numres - 1)) = true := m19
      have h1 : 1024 ≤ w := by omega
      by_cases c2 : 8192 ≤ w
      · rw [if_pos c2] at m19 ⊢
        have := key 7 m19
        omega
      rw [if_neg c2] at m19 ⊢
      by_cases c0 : 4096 ≤ w
      · rw [if_pos c0] at m19 ⊢
        have := key 6 m19
        omega
      rw [if_neg c0] at m19 ⊢
      by_cases c1 : 2048 ≤ w
      · rw [if_pos c1] at m19 ⊢
        have := key 5 m19
        omega
      · rw [if_neg c1] at m19 ⊢
        simp only [h1, decide_true, Bool.not_true, Bool.false_or] at m19
        have := key 4 m19
        omega
  · have e1 : c.tp = if p2.tpOn then some p2.tpFlag else none := by rw [hc.is]
    have e2 : c.tlm = (isCinema p1.rsiz || isImf p1.rsiz) := by rw [hc.is]
    rw [e1, e2, S.parts.1, S.parts.2, hsame, himf]
    exact ⟨rfl, by simp⟩
  · intro t ht
    obtain ⟨⟨k, hk, hpoc⟩, _⟩ := hcomps t ht
    rw [m15] at hpoc
    exact (Except.ok.inj hpoc).symm
  · intro hc0
    obtain ⟨s, s1, s2, s3, s4, s5⟩ := S.precs (hp1.2.2.trans hc0)
    refine ⟨?_, ?_⟩
    · have e3 : c.enc.csty = u32 p2.csty := by rw [hc.is]
      rw [e3]
      apply u32_odd
      rw [s2]
      unfold profilePrecincts
      by_cases hs : s.numres = 1
      · rw [if_pos hs]; exact withPrecincts_odd _
      · rw [if_neg hs]; exact withPrecincts_odd _
    · intro t ht x hx'
      obtain ⟨i, y, hs⟩ := (hcomps t ht).2 x hx'
      rw [hs.numres]
      have := hs.prcs
      rw [← s1] at this ⊢
      exact (profilePrecincts_are (by rw [s1]; exact hn2) s2 s3 s4 s5 this).1

example : (∃ c, setup { rsiz := 0x424 } cinemaImage = .ok c ∧ c.enc.rsiz = 0x424 ∧ (c.tiles.length == 1) = true) ∧
    ∃ c, setup { rsiz := 0x711, tileSizeOn := true, tdx := 1024, tdy := 1024 } cinemaImage = .ok c ∧ c.enc.rsiz = 0x711 ∧
      (c.tiles.length == 4) = true :=
  ⟨keeps_spec (by decide +kernel), keeps_spec (by decide +kernel)⟩

/-- **False of the code.** With a coding style asked for (here, `SOP` markers) the mark of the profile is kept although the precincts are not those of
the profile; and tiles of 2048 by 2048, which the 4K profile with the 5-3 transform allows, lose the mark. -/
theorem C68_imf_not_checked :
    (∃ c, setup { rsiz := 0x424, csty := 2 } cinemaImage = .ok c ∧ c.enc.rsiz = 0x424 ∧ (c.enc.csty % 2 == 0) = true) ∧
    ∃ c, setup { rsiz := 0x811, tileSizeOn := true, tdx := 2048, tdy := 2048, numres := 5 } ⟨0, 0, 4096, 2160, List.replicate 3 { prec := 12, sgnd := 0, dx := 1, dy := 1, w := 4096, h := 2160 }⟩ = .ok c ∧
      c.enc.rsiz = 0 ∧ (c.tiles.length == 4) = true :=
  ⟨keeps_spec (by decide +kernel), keeps_spec (by decide +kernel)⟩

end Jp2.Setup

import Verif.Jp2.SetupLemmas
import Verif.Jp2.HdrProps
/-!
# C68: the encoder is set up as asked
-/
namespace Jp2.Setup
open Jp2.Hdr (R Fail User Comp Tccp Dec Enc cdiv levelShift Writable SharedStyle Suits SameTccp ok_bind refuse_bind writeHeader readHeader be)

theorem transform_asked {p : Params} {im : Image} (hf : Fits p im) : ((transform p im : Nat) : Int) =
    if ((im.comps.take 3).map fun c => (c.dx, c.dy)).Pairwise (· = ·) ∨ im.comps.length < 3 then p.mct else 0 := by
  have hm : ((u32 p.mct : Nat) : Int) = p.mct := by rcases hf.mct with h | h <;> exact u32_of (by omega) (by omega)
  unfold transform
  split
  · rename_i a b c l hl
    have hpw : ((im.comps.take 3).map fun c => (c.dx, c.dy)).Pairwise (· = ·) ↔
        ¬ (a.dx ≠ b.dx ∨ a.dx ≠ c.dx ∨ a.dy ≠ b.dy ∨ a.dy ≠ c.dy) := by
      rw [hl]
      simp
      omega
    have hlen : ¬ im.comps.length < 3 := by rw [hl]; simp
    simp only [hpw]
    by_cases h1 : p.mct = 1
    · have h1' : u32 p.mct = 1 := by omega
      rw [h1', h1]
      by_cases hd : (a.dx ≠ b.dx ∨ a.dx ≠ c.dx ∨ a.dy ≠ b.dy ∨ a.dy ≠ c.dy)
      · rw [if_pos ⟨rfl, hd⟩, if_neg (by tauto)]
        rfl
      · rw [if_neg (by tauto), if_pos (by tauto)]
        rfl
    · have h0 : p.mct = 0 := by rcases hf.mct with h | h <;> omega
      have h0' : u32 p.mct = 0 := by omega
      rw [if_neg (by omega), h0', h0]
      split <;> rfl
  · rename_i h
    rw [if_pos, hm]
    right
    match hc : im.comps with
    | [] => simp
    | [_] => simp
    | [_, _] => simp
    | a :: b :: c :: l => exact absurd hc (by intro hc'; exact h a b c l hc')

/-- The header set up can be written. -/
theorem enc_writable {p : Params} {im : Image} {ts : List Tccp} {g : Grid} (hf : Fits p im) (hts : components p 0 im.comps = .ok ts)
    (hg : GridAsked p im g) (e : Enc)
    (he : e = { rsiz := p.rsiz, x0 := im.x0, y0 := im.y0, x1 := im.x1, y1 := im.y1, tdx := g.tdx, tdy := g.tdy, tx0 := g.tx0,
                ty0 := g.ty0, comps := im.comps, csty := u32 p.csty, prg := u32 p.prg,
                numlayers := u32 (if p.layers = 0 then 1 else p.layers), mct := transform p im,
                tccps := ts, comment := some (p.comment.getD defaultComment) }) : Writable e ∧ SharedStyle e := by
  obtain ⟨ts', hts', hlen, hm⟩ := components_spec hf im.comps 0 (fun _ h => h)
  obtain rfl : ts' = ts := by rw [hts'] at hts; exact Except.ok.inj hts
  have hmem : ∀ t ∈ ts', ∃ j c, im.comps[j]? = some c ∧ Made p j c t := by
    intro t ht
    obtain ⟨j, hj, rfl⟩ := List.getElem_of_mem ht
    have hj' : j < im.comps.length := by omega
    obtain ⟨t', h1, h2⟩ := hm j im.comps[j] (by simp [hj'])
    rw [List.getElem?_eq_getElem hj] at h1
    obtain rfl := Option.some.inj h1
    exact ⟨j, im.comps[j], by simp [hj'], by simpa using h2⟩
  obtain ⟨g1, g2, g3, g4, g5, g6, g7, g8⟩ := hg.limits
  have hcs := hf.csty
  have hprg := hf.prg
  have hla := hf.layers
  have hmct := transform_asked hf
  have hprof := hf.profile
  subst he
  refine ⟨⟨?_, hf.image_x, hf.image_y, ⟨g1, g2, g3⟩, ⟨g4, g5, g6⟩, ?_, hf.comps_len, ?_, ?_, ?_, ?_, ?_, hlen, ?_, ?_, ?_, ?_, ?_, ?_, ?_, ?_⟩, ?_⟩
  · dsimp only; omega
  · dsimp only; rw [← hg.number.1, ← hg.number.2]; exact g8
  · intro c hc
    obtain ⟨⟨p1, p2⟩, h⟩ := hf.comps c hc
    exact ⟨⟨p1, by split at p2 <;> omega⟩, h⟩
  · have : ((u32 p.csty : Nat) : Int) = p.csty := u32_of (by omega) (by omega)
    dsimp only; omega
  · have : ((u32 p.prg : Nat) : Int) = p.prg := u32_of (by omega) (by omega)
    dsimp only; omega
  · have : ((u32 (if p.layers = 0 then 1 else p.layers) : Nat) : Int) = if p.layers = 0 then 1 else p.layers :=
      u32_of (by split <;> omega) (by split <;> omega)
    have h1 : (1 : Int) ≤ if p.layers = 0 then 1 else p.layers := by split <;> omega
    have h2 : (if p.layers = 0 then 1 else p.layers) ≤ (100 : Int) := by split <;> omega
    dsimp only
    omega
  · dsimp only
    have := hf.mct
    split at hmct <;> omega
  · intro t ht; obtain ⟨_, _, _, h⟩ := hmem t ht; exact h.prcs_len
  · intro t ht; obtain ⟨_, _, _, h⟩ := hmem t ht; exact h.style
  · intro t ht; obtain ⟨_, _, _, h⟩ := hmem t ht; exact h.quant
  · intro t ht
    obtain ⟨j, _, _, h⟩ := hmem t ht
    have := h.asked.roishift
    have := hf.roi
    split at * <;> omega
  · intro t ht
    obtain ⟨_, _, _, h⟩ := hmem t ht
    have h1 : ((u32 p.csty : Nat) : Int) = p.csty := u32_of (by omega) (by omega)
    have h2 : ((u32 (p.csty % 2) : Nat) : Int) = p.csty % 2 := u32_of (by omega) (by omega)
    rw [h.csty]
    dsimp only
    omega
  · intro n hn; simp at hn
  · exact ⟨fun _ => rfl, by dsimp only; omega⟩
  · intro c hc
    obtain rfl := Option.some.inj hc
    cases hcm : p.comment with
    | none => decide
    | some x => exact hf.comment x hcm
  · intro a ha b hb
    obtain ⟨_, _, _, h1⟩ := hmem a ha
    obtain ⟨_, _, _, h2⟩ := hmem b hb
    have e1 : a.numres = b.numres := by have := h1.asked.numres; have := h2.asked.numres; omega
    have inj : ∀ x y : Nat, (2 : Int) ^ x = 2 ^ y → x = y := fun x y h => Nat.pow_right_injective (le_refl 2) (by exact_mod_cast h)
    refine ⟨e1, inj _ _ (by rw [h1.asked.cblkw, h2.asked.cblkw]), inj _ _ (by rw [h1.asked.cblkh, h2.asked.cblkh]), ?_, ?_, ?_⟩
    · have := h1.asked.cblksty; have := h2.asked.cblksty; omega
    · rw [h1.asked.qmfbid, h2.asked.qmfbid]
    · have : a.prcs = b.prcs := by have := h1.prcs.symm.trans h2.prcs; exact Except.ok.inj this
      rw [this, e1]

/-- **C68.** Whatever is asked for that makes sense is set up, passes the checks at the start of compression, and a decoder
that reads the main header written from it knows all that was asked for: image, tile grid, components, coding style, progression,
layers, resolutions, code-blocks, precincts, quantization, region of interest. All tiles are coded like that. -/
theorem C68_header_as_asked (p : Params) (im : Image) (hf : Fits p im) (u : User) (junk rest : List UInt8)
    (hred : (u.reduce : Int) < p.numres)
    (hsize : u.dump = true ∨ u.ihdrW = 0 ∨ u.ihdrH = 0 ∨ (u.ihdrW = im.x1 - im.x0 ∧ u.ihdrH = im.y1 - im.y0)) :
    ∃ c h d, setup p im = .ok c ∧ validate c = .ok () ∧ writeHeader c.enc junk = .ok h ∧
      readHeader u (h ++ be 2 0xFF90 ++ rest) = .ok (d, rest) ∧ AsAsked p im d ∧
      c.tiles.length = cdiv (im.x1 - p.tx0.toNat) (askedTile p im).1.toNat * cdiv (im.y1 - p.ty0.toNat) (askedTile p im).2.toNat ∧
      (∀ t ∈ c.tiles, t.pocs = [] ∧ t.tccps = c.enc.tccps) ∧ c.tlm = false ∧ c.tp = if p.tpOn then some p.tpFlag else none := by
  obtain ⟨c, ts, hc, hts, hg, htlm, htp, htiles, henc⟩ := setup_spec hf
  obtain ⟨hw, hsh⟩ := enc_writable hf hts hg _ henc
  obtain ⟨ts', hts', hlen, hm⟩ := components_spec hf im.comps 0 (fun _ h => h)
  obtain rfl : ts' = ts := by rw [hts'] at hts; exact Except.ok.inj hts
  have htcc : c.enc.tccps = ts' := by rw [henc]
  have hnum : ∀ t ∈ ts', (t.numres : Int) = p.numres := by
    intro t ht
    obtain ⟨j, hj, rfl⟩ := List.getElem_of_mem ht
    obtain ⟨t', h1, h2⟩ := hm j im.comps[j] (by simp)
    rw [List.getElem?_eq_getElem hj] at h1
    obtain rfl := Option.some.inj h1
    exact h2.asked.numres
  have hs : Suits u c.enc := by
    refine ⟨?_, ?_⟩
    · intro t ht
      have := hnum t (by rw [← htcc]; exact ht)
      omega
    · rw [henc]; exact hsize
  obtain ⟨h, d, hwr, hrd, same⟩ := Hdr.C52_header_read_back u c.enc junk rest hw hsh hs
  have hlim := hf.comps_len
  have hr := hf.res
  have hst := hf.res_tile
  refine ⟨c, h, d, hc, ?_, hwr, hrd, ?_, ?_, ?_, htlm, htp⟩
  · unfold validate
    rw [htcc]
    obtain ⟨t, l, rfl⟩ : ∃ t l, ts' = t :: l := by
      cases ts' with
      | nil => simp at hlen; omega
      | cons t l => exact ⟨t, l, rfl⟩
    have hn := hnum t (by simp)
    have e : (p.numres - 1).toNat = t.numres - 1 := by omega
    rw [e] at hst
    have e1 : c.enc.tdx = c.grid.tdx := by rw [henc]
    have e2 : c.enc.tdy = c.grid.tdy := by rw [henc]
    have h1 : (2 ^ (t.numres - 1) : Nat) ≤ c.enc.tdx := by
      rw [e1]; have := hst.1; rw [← hg.size.1] at this; exact_mod_cast this
    have h2 : (2 ^ (t.numres - 1) : Nat) ≤ c.enc.tdy := by
      rw [e2]; have := hst.2; rw [← hg.size.2] at this; exact_mod_cast this
    dsimp only
    rw [refuse_bind (by omega), refuse_bind (by omega)]
    unfold Hdr.refuseIf
    rw [if_neg (by omega)]
  · have hcs : ((u32 p.csty : Nat) : Int) = p.csty := u32_of (by have := hf.csty; omega) (by have := hf.csty; omega)
    have hprg : ((u32 p.prg : Nat) : Int) = p.prg := u32_of (by have := hf.prg; omega) (by have := hf.prg; omega)
    have hla : ((u32 (if p.layers = 0 then 1 else p.layers) : Nat) : Int) = if p.layers = 0 then 1 else p.layers :=
      u32_of (by have := hf.layers; split <;> omega) (by have := hf.layers; split <;> omega)
    have hdl : d.tcp.tccps.length = im.comps.length := by
      have := forall₂_len same.tccps
      rw [htcc] at this
      omega
    refine ⟨?_, ?_, ?_, ?_, ?_, ?_, ?_, ?_, ?_, same.pocs, hdl, ?_⟩
    · rw [same.rsiz, henc]
    · have := same.image
      rw [henc] at this
      exact this
    · have := same.tiles
      rw [henc] at this
      rw [this.2.2.1, this.2.2.2]
      exact hg.origin
    · have := same.tiles
      rw [henc] at this
      rw [this.1, this.2.1]
      exact hg.size
    · have := same.comps
      rw [henc] at this
      exact this
    · rw [same.csty, henc]; exact hcs
    · rw [same.prg, henc]; exact hprg
    · rw [same.layers, henc]; exact hla
    · rw [same.mct, henc]; exact transform_asked hf
    · intro i x t hx ht
      obtain ⟨w, hw1, hw2⟩ := hm i x hx
      rw [Nat.zero_add] at hw2
      obtain ⟨t', h1, h2⟩ := forall₂_get same.tccps i w (by rw [htcc]; exact hw1)
      rw [h1] at ht
      obtain rfl := Option.some.inj ht
      have a := hw2.asked
      refine ⟨by rw [h2.numres]; exact a.numres, by rw [h2.cblkw]; exact a.cblkw, by rw [h2.cblkh]; exact a.cblkh,
        by rw [h2.cblksty]; exact a.cblksty, by rw [h2.qmfbid]; exact a.qmfbid, ?_, by rw [h2.qntsty]; exact a.qntsty,
        by rw [h2.numgbits]; exact a.numgbits, ?_, by rw [h2.roishift]; exact a.roishift, ?_⟩
      · intro r hr'
        have hrn : r < w.numres := by have := a.numres; omega
        obtain ⟨pw, ph, hp1, hp2⟩ := a.precincts r hr'
        refine ⟨pw, ph, ?_, hp2⟩
        rw [h2.prcs r hrn]
        unfold Hdr.precinctOf
        have h2' : ((u32 (p.csty % 2) : Nat) : Int) = p.csty % 2 := u32_of (by omega) (by omega)
        have h3 := hw2.csty
        split
        · exact hp1
        · rw [if_neg (by omega)] at hp2
          rw [hp2.1, hp2.2]
      · intro b hb
        rw [h2.numres] at hb ⊢
        obtain ⟨s, hs1, hs2⟩ := a.steps b hb
        refine ⟨s, ?_, hs2⟩
        rw [h2.steps b hb]
        unfold Hdr.stepOf
        have hq := a.qntsty
        by_cases hi : p.irreversible = 0
        · rw [if_pos hi] at hq
          rw [if_pos hq, hs1]
          unfold StepFor at hs2
          dsimp only at hs2
          rw [if_neg (by simp [hi])] at hs2
          rw [hs2]
          rfl
        · rw [if_neg hi] at hq
          rw [if_neg (by omega), if_neg (by omega)]
          exact hs1
      · have hsft := same.shift
        rw [henc] at hsft
        have h4 := congrArg (fun l => l[i]?) hsft
        simp only [List.getElem?_map, h1, hx, Option.map_some] at h4
        exact Option.some.inj h4
  · rw [htiles, List.length_replicate, hg.number.1, hg.number.2]
    have h1 := hg.size
    have h2 := hg.origin
    have e1 : p.tx0.toNat = c.grid.tx0 := by omega
    have e2 : p.ty0.toNat = c.grid.ty0 := by omega
    have e3 : (askedTile p im).1.toNat = c.grid.tdx := by omega
    have e4 : (askedTile p im).2.toNat = c.grid.tdy := by omega
    rw [e1, e2, e3, e4]
  · intro t ht
    rw [htiles] at ht
    rw [List.eq_of_mem_replicate ht, htcc]
    exact ⟨rfl, rfl⟩

/-- Three components of 8 bits, 600 by 400 samples, in tiles of 256 by 256, four resolutions, precincts of 128 by 64 at the highest one,
of 64 by 64 at the next and of half that at every further one, the 9-7 transform. -/
def sample : Params :=
  { tileSizeOn := true, tdx := 256, tdy := 256, csty := 1, prg := 2, layers := 0, numres := 4, irreversible := 1, mct := 1, resSpec := 2,
    prcw := [128, 64] ++ List.replicate 31 0, prch := [64, 64] ++ List.replicate 31 0, roiComp := 1, roiShift := 3 }

def sampleImage : Image := ⟨0, 0, 600, 400, List.replicate 3 { prec := 8, sgnd := 0, dx := 1, dy := 1, w := 600, h := 400 }⟩

theorem sample_fits : Fits sample sampleImage where
  image_x := by decide
  image_y := by decide
  origin_x := by decide
  origin_y := by decide
  tiles := by decide
  comps_len := by decide
  comps := by decide
  res := by decide
  res_tile := by decide
  cblk := ⟨6, 6, by decide⟩
  layers := by decide
  csty := by decide
  prg := by decide
  mode := by decide
  mct := by decide
  roi := by decide
  prec_spec := by decide
  prec_size := by
    intro _ k hk l hl
    have hk' : k < 4 := by have : ((k : Int)) < 4 := hk; omega
    obtain rfl | rfl | rfl | rfl : k = 0 ∨ k = 1 ∨ k = 2 ∨ k = 3 := by omega
    all_goals (rcases hl with rfl | rfl <;> decide)
  profile := by decide
  changes := by decide
  alloc := by decide
  comment := by decide

example : Fits sample sampleImage ∧ (({} : User).reduce : Int) < sample.numres ∧ ({} : User).ihdrW = 0 :=
  ⟨sample_fits, by decide, by decide⟩

/-! ## Not so: precincts that get too small -/

/-- Whether what is set up for `p` and `im` is accepted and written, but the header is refused by the decoder. -/
def selfRefused (p : Params) (im : Image) : Bool :=
  match setup p im with
  | .error _ => false
  | .ok c =>
    match validate c, writeHeader c.enc [] with
    | .ok (), .ok h =>
      match readHeader {} (h ++ be 2 0xFF90) with
      | .error .refused => true
      | _ => false
    | _, _ => false

theorem selfRefused_spec {p : Params} {im : Image} (h : selfRefused p im = true) : ∃ c h, setup p im = .ok c ∧ validate c = .ok () ∧
    writeHeader c.enc [] = .ok h ∧ readHeader {} (h ++ be 2 0xFF90) = .error .refused := by
  unfold selfRefused at h
  split at h
  · cases h
  · rename_i c hc
    split at h
    · rename_i hd h1 h2
      split at h
      · rename_i h3
        exact ⟨c, hd, hc, h1, h2, h3⟩
      · cases h
    · cases h

/-- **False of the code.** Where precincts are asked for that have to be halved down to one sample, the encoder sets up and writes a header
that its own decoder refuses: precincts of 8 by 8 samples with five resolutions. -/
theorem C68_small_precincts_refused : ∃ c h,
    setup { csty := 1, resSpec := 1, prcw := 8 :: List.replicate 32 0, prch := 8 :: List.replicate 32 0, numres := 5 }
      ⟨0, 0, 64, 64, [{ prec := 8, sgnd := 0, dx := 1, dy := 1, w := 64, h := 64 }]⟩ = .ok c ∧ validate c = .ok () ∧
    writeHeader c.enc [] = .ok h ∧ readHeader {} (h ++ be 2 0xFF90) = .error .refused :=
  selfRefused_spec (by decide +kernel)

end Jp2.Setup

import Verif.Jp2.PlainSpec
import Verif.Jp2.PlainLemmas
import Verif.Jp2.ExtraProps
import Verif.Jp2.SetupProps
/-!
# C74: what the user asks for is coded without loss
-/
namespace Jp2.Setup
open Jp2.Hdr (User Tccp Writable SharedStyle)
open Jp2.Cut (CompI)

theorem withGuard_mem {g : Option Nat} {ts : List Tccp} {t : Tccp} (h : t ∈ ts.map (withGuard g)) : ∃ t0 ∈ ts, t = withGuard g t0 := by
  rw [List.mem_map] at h
  obtain ⟨t0, h1, h2⟩ := h
  exact ⟨t0, h1, h2.symm⟩

/-- Other guard bits do no harm to the header. -/
theorem guard_writable {e : Hdr.Enc} (hw : Writable e) (hs : SharedStyle e) {g : Option Nat} (hg : ∀ n, g = some n → n ≤ 7) :
    Writable { e with tccps := e.tccps.map (withGuard g) } ∧ SharedStyle { e with tccps := e.tccps.map (withGuard g) } := by
  refine ⟨⟨hw.rsiz, hw.image_x, hw.image_y, hw.tile_x, hw.tile_y, hw.count, hw.comps_len, hw.comps, hw.csty, hw.prg, hw.layers, hw.mct, ?_, ?_, ?_, ?_, ?_, ?_, hw.tlm,
    hw.profile, hw.comment⟩, ?_⟩
  · simp only [List.length_map]; exact hw.tccps
  · intro t ht
    obtain ⟨t0, h0, rfl⟩ := withGuard_mem ht
    exact hw.prcs_len t0 h0
  · intro t ht
    obtain ⟨t0, h0, rfl⟩ := withGuard_mem ht
    have s := hw.style t0 h0
    exact ⟨s.numres, s.reduce, s.cblkw, s.cblkh, s.cblk, s.cblksty, s.qmfbid, s.prcs⟩
  · intro t ht
    obtain ⟨t0, h0, rfl⟩ := withGuard_mem ht
    have q := hw.quant t0 h0
    refine ⟨q.qntsty, ?_, q.steps_len, q.steps⟩
    show g.getD t0.numgbits ≤ 7
    cases g with
    | none => exact q.numgbits
    | some n => exact hg n rfl
  · intro t ht
    obtain ⟨t0, h0, rfl⟩ := withGuard_mem ht
    exact hw.roi t0 h0
  · intro t ht
    obtain ⟨t0, h0, rfl⟩ := withGuard_mem ht
    exact hw.prt t0 h0
  · intro a ha b hb
    obtain ⟨a0, h0, rfl⟩ := withGuard_mem ha
    obtain ⟨b0, h1, rfl⟩ := withGuard_mem hb
    exact hs a0 h0 b0 h1

theorem lastGuard_le {l : List Opt} (hl : ∀ o ∈ l, o.Valid) : ∀ a : Option Nat, (∀ n, a = some n → n ≤ 7) → ∀ n, lastGuard a l = some n → n ≤ 7 := by
  induction l with
  | nil => intro a ha n hn; exact ha n hn
  | cons o l ih =>
    intro a ha
    have hl' : ∀ o ∈ l, o.Valid := fun x hx => hl x (by simp [hx])
    cases o with
    | plt b => exact ih hl' a ha
    | tlm b => exact ih hl' a ha
    | guard k =>
      have hk : (Opt.guard k).Valid := hl _ (by simp)
      exact ih hl' (some k) (fun n hn => by cases hn; exact hk)

/-- As many guard bits as resolutions, and one more with the component transform, are enough for the growth of the low band. -/
theorem guard_enough {P R M g : Nat} (hP : 5 ≤ P) (hR : 1 ≤ R ∧ R ≤ 6) (hM : M ≤ 1) (hg : R + M ≤ g) :
    (9 : Int) ^ (R - 1) * (2 * (2 ^ M * 2 ^ (P - 1)) + 3) < 4 ^ (R - 1) * (2 ^ (P + g - 1 + 1) + 3) := by
  obtain ⟨Q, rfl⟩ : ∃ Q, P = Q + 5 := ⟨P - 5, by omega⟩
  have h1 : (2 : Int) ^ (Q + 5 + (R + M)) ≤ 2 ^ (Q + 5 + g - 1 + 1) := pow_le_pow_right₀ (by norm_num) (by omega)
  have h4 : (0 : Int) < 4 ^ (R - 1) := by positivity
  have h2 := mul_le_mul_of_nonneg_left (add_le_add_left h1 3) (le_of_lt h4)
  refine lt_of_lt_of_le ?_ h2
  have hq : (1 : Int) ≤ 2 ^ Q := one_le_pow₀ (by norm_num)
  rw [show Q + 5 - 1 = Q + 4 by omega]
  obtain ⟨r1, r2⟩ := hR
  rw [pow_add, pow_add (2 : Int) (Q + 5), pow_add]
  generalize (2 : Int) ^ Q = q at *
  rcases (by omega : M = 0 ∨ M = 1) with rfl | rfl <;>
  · interval_cases R <;> norm_num <;> omega

/-- **C74.** For a plain image, with options that make sense and leave as many guard bits as there are resolutions, one more with the component
transform (two if there is no such option): everything is set up; and if the encoder then comes to its end without an error, the decoder takes the
codestream and hands over the image, sample for sample. This holds for every image of that kind, whatever both find in memory, wherever the
rate allocation puts the passes as long as all are sent, with packet lengths or without (`plt`), whether the decoder is strict or not. If there
are tiles, samples have to be without sign (see C71). -/
theorem C74_plain_lossless (m : Mode) (sz : Nat × Nat) (hsz : (0 < sz.1 ∧ sz.1 ≤ 512) ∧ 0 < sz.2 ∧ sz.2 ≤ 512) (p : Params) (im : Image) (P : Nat)
    (hp : Plain p im P) (l : List Opt) (hl : ∀ o ∈ l, o.Valid) (hg : p.numres + p.mct ≤ ((lastGuard none l).getD 2 : Nat))
    (htile : p.tileSizeOn = true → ∀ c ∈ im.comps, c.sgnd = 0) (u : User) (hu : u.reduce = 0)
    (huw : u.dump = true ∨ u.ihdrW = 0 ∨ u.ihdrH = 0 ∨ (u.ihdrW = im.x1 ∧ u.ihdrH = im.y1))
    (size : Nat) (hsize : size < 2 ^ 32) (plt : Option Nat)
    (plan : Codec.Plans) (hplan : ∀ n c rn k bi j, Pipe.PlanOk (if p.layers = 0 then 1 else p.layers).toNat (plan n c rn k bi j)) :
    ∃ c r, setup p im = .ok c ∧ extra (l.map Opt.text) ⟨c, false⟩ = .ok r ∧ validate r.coding = .ok () ∧ r.coding.tp = none ∧ r.coding.tlm = lastTlm false l ∧
      ∃ F, ∀ fuel, F ≤ fuel → ∀ (cs : List CompI) (X : Codec.EncEnv) (junk old f : List UInt8), Samples im P cs →
        Codec.encode m fuel sz plan X { flag := none, tlm := r.coding.tlm, plt := plt, size := size } r.coding.enc junk old cs = .ok f →
        ∀ (D : Codec.DecEnv) (strict : Bool), ∃ out, Codec.decode m fuel sz D u strict f = .ok out ∧ List.Forall₂ Codec.Same cs out := by
  have hf := hp.fits
  obtain ⟨c, ts, hc, hts, hgrid, htlm, htp, htiles, henc⟩ := setup_spec hf
  obtain ⟨hw, hsh⟩ := enc_writable hf hts hgrid _ henc
  obtain ⟨ts', hts', hlen, hm⟩ := components_spec hf im.comps 0 (fun _ h => h)
  obtain rfl : ts' = ts := by rw [hts'] at hts; exact Except.ok.inj hts
  obtain ⟨z1, z2, z3, z4⟩ := hp.corner
  have hmem : ∀ t ∈ ts', ∃ j x, im.comps[j]? = some x ∧ Made p j x t := by
    intro t ht
    obtain ⟨j, hj, rfl⟩ := List.getElem_of_mem ht
    have hj' : j < im.comps.length := by omega
    obtain ⟨t', h1, h2⟩ := hm j im.comps[j] (by simp [hj'])
    rw [List.getElem?_eq_getElem hj] at h1
    obtain rfl := Option.some.inj h1
    exact ⟨j, im.comps[j], by simp [hj'], by simpa using h2⟩
  have hr := hf.res
  obtain ⟨R, hR⟩ : ∃ R : Nat, (R : Int) = p.numres := ⟨p.numres.toNat, by omega⟩
  have hR1 : 1 ≤ R ∧ R ≤ 6 := by have := hp.res; omega
  have hRt : (p.numres - 1).toNat = R - 1 := by omega
  have hE := C73_options_set l hl c false
  have hguard := lastGuard_le hl none (fun n hn => by cases hn)
  obtain ⟨hw', hsh'⟩ := guard_writable hw hsh hguard
  have htc : c.enc.tccps = ts' := by rw [henc]
  have hmct0 := transform_asked hf
  have hmctEq : ((transform p im : Nat) : Int) = p.mct := by
    rw [hmct0]
    have hpw : ((im.comps.take 3).map fun c => (c.dx, c.dy)).Pairwise (· = ·) := by
      rw [List.pairwise_map]
      refine List.pairwise_of_forall_mem_list ?_
      intro a ha b hb
      have h1 := hp.comps a (List.mem_of_mem_take ha)
      have h2 := hp.comps b (List.mem_of_mem_take hb)
      rw [h1.2.1, h1.2.2, h2.2.1, h2.2.2]
    rw [if_pos (Or.inl hpw)]
  have hgx := hgrid.size
  have ho := hgrid.origin
  have hplain : Codec.PlainE { c.enc with tccps := c.enc.tccps.map (withGuard (lastGuard none l)) } P R := by
    have hstep : ∀ t ∈ c.enc.tccps.map (withGuard (lastGuard none l)), ∃ t0 j x, t = withGuard (lastGuard none l) t0 ∧ im.comps[j]? = some x ∧ Made p j x t0 := by
      intro t ht
      obtain ⟨t0, h0, rfl⟩ := withGuard_mem ht
      rw [htc] at h0
      obtain ⟨j, x, h1, h2⟩ := hmem t0 h0
      exact ⟨t0, j, x, rfl, h1, h2⟩
    have hdiv : ∀ (a : Nat) (b : Int), (a : Int) = b → (2 : Int) ^ (R - 1) ∣ b → 2 ^ (R - 1) ∣ a := by
      intro a b h1 h2
      rw [← h1] at h2
      exact_mod_cast h2
    refine ⟨?_, ?_, ?_, ⟨by have := hp.prec; omega, hp.prec.2⟩, hR1, ?_, ?_, ?_, ?_, ?_, ?_, ?_, ?_, ?_, ?_, ?_⟩
    · rw [henc]
      exact ⟨z1, z2, by dsimp only; omega, by dsimp only; omega⟩
    · rw [henc]; exact hp.large
    · rw [henc]; exact hp.comps
    · intro t ht
      obtain ⟨t0, j, x, rfl, -, hmade⟩ := hstep t ht
      have := hmade.asked.numres
      show t0.numres = R
      omega
    · intro t ht
      obtain ⟨t0, j, x, rfl, -, hmade⟩ := hstep t ht
      refine ⟨?_, ?_, ?_⟩
      · show t0.qmfbid = 1
        rw [hmade.asked.qmfbid, if_pos hp.reversible]
      · show t0.qntsty = 0
        rw [hmade.asked.qntsty, if_pos hp.reversible]
      · show t0.roishift = 0
        have := hmade.asked.roishift
        rw [hp.roi] at this
        split at this <;> omega
    · intro t ht i hi
      obtain ⟨t0, j, x, rfl, -, hmade⟩ := hstep t ht
      obtain ⟨w, h, h1, h2⟩ := hmade.asked.precincts i (by omega)
      rw [if_neg (by have := hp.precincts; omega)] at h2
      rw [h2.1, h2.2] at h1
      exact h1
    · intro t ht
      obtain ⟨t0, j, x, rfl, -, hmade⟩ := hstep t ht
      show 8 ≤ t0.cblkw + t0.cblkh
      have hb := hp.blocks
      rw [← hmade.asked.cblkw, ← hmade.asked.cblkh, ← pow_add] at hb
      by_contra hc
      have : (2 : Int) ^ (t0.cblkw + t0.cblkh) ≤ 2 ^ 7 := pow_le_pow_right₀ (by norm_num) (by omega)
      omega
    · intro t ht
      obtain ⟨t0, j, x, rfl, -, hmade⟩ := hstep t ht
      show t0.cblksty < 64
      have := hmade.asked.cblksty
      have := hp.mode
      omega
    · intro t ht i s hi hs
      obtain ⟨t0, j, x, rfl, hx, hmade⟩ := hstep t ht
      have hn := hmade.asked.numres
      obtain ⟨s', h1, h2⟩ := hmade.asked.steps i (by show i < 3 * t0.numres - 2; have : i < 3 * (t0.numres - 1) + 1 := hi; omega)
      have hs : t0.steps[i]? = some s := hs
      rw [hs] at h1
      obtain rfl := Option.some.inj h1
      unfold StepFor at h2
      dsimp only at h2
      rw [if_neg (by simp [hp.reversible])] at h2
      rw [h2]
      have := (hp.comps x (List.mem_of_getElem? hx)).1
      have := hp.prec
      dsimp only
      omega
    · rw [henc]
      have := hf.layers
      have hla : ((u32 (if p.layers = 0 then 1 else p.layers) : Nat) : Int) = if p.layers = 0 then 1 else p.layers := u32_of (by split <;> omega) (by split <;> omega)
      have : (if p.layers = 0 then 1 else p.layers) ≤ 100 := by split <;> omega
      dsimp only
      omega
    · rw [henc]
      have := hf.prg
      have hprg : ((u32 p.prg : Nat) : Int) = p.prg := u32_of (by omega) (by omega)
      have := hp.order
      dsimp only
      omega
    · rw [henc]
      dsimp only
      unfold askedTile at hgx
      split at hgx
      · rename_i ht
        have := hp.tiles ht
        rw [hRt] at this
        exact Or.inl (hdiv _ _ hgx.1 this.1)
      · right
        have := hgx.1
        dsimp only at this
        omega
    · rw [henc]
      dsimp only
      unfold askedTile at hgx
      split at hgx
      · rename_i ht
        have := hp.tiles ht
        rw [hRt] at this
        exact Or.inl (hdiv _ _ hgx.2 this.2)
      · right
        have := hgx.2
        dsimp only at this
        omega
    · rw [henc]
      dsimp only
      intro h
      exact hp.colour (by omega)
  have hsuits := hplain.suits (m := m) hw' hsz
  have hnum : ∀ t ∈ c.enc.tccps.map (withGuard (lastGuard none l)), t.numres = R := hplain.numres
  obtain ⟨F, hF⟩ := Codec.C72_planes_by_band m sz { flag := none, tlm := lastTlm c.tlm l, plt := plt, size := size } _ P u hw' hsh' hsuits hu
    ⟨fun t ht => by rw [hu, hnum t ht]; omega, by rw [henc]; dsimp only; rw [z1, z2, Nat.sub_zero, Nat.sub_zero]; exact huw⟩
    (fun _ => by rw [henc]; dsimp only; have := hf.profile; omega) hsize plan
    (by
      have e : c.enc.numlayers = (if p.layers = 0 then 1 else p.layers).toNat := by
        rw [henc]
        have := hf.layers
        have hla : ((u32 (if p.layers = 0 then 1 else p.layers) : Nat) : Int) = if p.layers = 0 then 1 else p.layers := u32_of (by split <;> omega) (by split <;> omega)
        dsimp only
        omega
      dsimp only
      rw [e]
      exact hplan)
    (P + ((lastGuard none l).getD 2) - 1)
    (by
      have : (lastGuard none l).getD 2 ≤ 7 := by
        cases h : lastGuard none l with
        | none => decide
        | some n => exact hguard n h
      have := hp.prec
      omega)
    (by
      intro t ht
      rw [hnum t ht]
      have hM : transform p im ≤ 1 := by rcases hf.mct with h | h <;> omega
      have e : c.enc.mct = transform p im := by rw [henc]
      dsimp only
      rw [e]
      exact guard_enough hp.prec.1 hR1 hM (by omega))
    (by
      intro t ht i s hi hs
      obtain ⟨t0, h0, rfl⟩ := withGuard_mem ht
      rw [htc] at h0
      obtain ⟨j, x, hx, hmade⟩ := hmem t0 h0
      have hi : i < 3 * (t0.numres - 1) + 1 := hi
      have hn := hmade.asked.numres
      obtain ⟨s', h1, h2⟩ := hmade.asked.steps i (by omega)
      have hs : t0.steps[i]? = some s := hs
      rw [hs] at h1
      obtain rfl := Option.some.inj h1
      unfold StepFor at h2
      dsimp only at h2
      rw [if_neg (by simp [hp.reversible])] at h2
      have hpr := (hp.comps x (List.mem_of_getElem? hx)).1
      have e2 : (withGuard (lastGuard none l) t0).numgbits = (lastGuard none l).getD 2 := by
        show (lastGuard none l).getD t0.numgbits = _
        rw [hmade.asked.numgbits]
      rw [e2, h2]
      have hgain : [0, 1, 1, 2].getD (if i = 0 then 0 else (i - 1) % 3 + 1) 0 = (if i = 0 then 0 else [1, 1, 2].getD ((i - 1) % 3) 0) := by
        by_cases hi0 : i = 0
        · rw [if_pos hi0, if_pos hi0]; rfl
        · rw [if_neg hi0, if_neg hi0]; rfl
      dsimp only
      rw [hgain, hpr]
      have := hp.prec
      omega)
  refine ⟨c, _, hc, hE, ?_, ?_, ?_, F, fun fuel hfu cs X junk old f hs hf' D strict => ?_⟩
  · unfold validate
    dsimp only
    cases hts2 : c.enc.tccps.map (withGuard (lastGuard none l)) with
    | nil =>
      have := congrArg List.length hts2
      rw [htc] at this
      simp at this
      have h1 := hf.comps_len
      rw [this] at hlen
      simp at hlen
      omega
    | cons t rest =>
      have hn := hnum t (by rw [hts2]; simp)
      have hst := hf.res_tile
      rw [hRt] at hst
      have e1 : c.enc.tdx = c.grid.tdx := by rw [henc]
      have e2 : c.enc.tdy = c.grid.tdy := by rw [henc]
      have h1 : (2 ^ (R - 1) : Nat) ≤ c.enc.tdx := by rw [e1]; have := hst.1; rw [← hgrid.size.1] at this; exact_mod_cast this
      have h2 : (2 ^ (R - 1) : Nat) ≤ c.enc.tdy := by rw [e2]; have := hst.2; rw [← hgrid.size.2] at this; exact_mod_cast this
      dsimp only
      rw [hn, Hdr.refuse_bind (by omega), Hdr.refuse_bind (by omega)]
      unfold Hdr.refuseIf
      rw [if_neg (by omega)]
  · dsimp only
    rw [htp, hp.parts]
    rfl
  · dsimp only
    rw [htlm]
  · refine hF fuel hfu cs X junk old f ?_ ?_ hf' D strict
    · have hcomp : ∀ x ∈ cs, x.prec = P ∧ x.dx = 1 ∧ x.dy = 1 := by
        intro x hx
        have h1 : (x.prec, x.sgnd, x.dx, x.dy) ∈ cs.map (fun c => (c.prec, c.sgnd, c.dx, c.dy)) := List.mem_map.2 ⟨x, hx, rfl⟩
        rw [hs.same, List.mem_map] at h1
        obtain ⟨k, hk, e⟩ := h1
        have := hp.comps k hk
        simp only [Prod.mk.injEq] at e
        omega
      have hx1 := hf.image_x
      have hy1 := hf.image_y
      refine ⟨?_, ?_, ?_, ?_⟩
      · rw [henc]; exact hs.same
      · intro x hx
        rw [hs.size x hx, (hcomp x hx).2.1, (hcomp x hx).2.2, henc]
        dsimp only
        unfold Hdr.cdiv
        rw [z1, z2]
        simp
      · intro x hx h0
        have := hs.size x hx
        rw [h0, List.length_nil] at this
        have := Nat.mul_pos (show 0 < im.x1 by omega) (show 0 < im.y1 by omega)
        omega
      · intro x hx v hv
        have := hs.range x hx v hv
        rw [(hcomp x hx).1]
        exact this
    · by_cases ht : p.tileSizeOn = true
      · right
        refine ⟨?_, ?_⟩
        · intro x hx
          left
          have h1 : (x.prec, x.sgnd, x.dx, x.dy) ∈ cs.map (fun c => (c.prec, c.sgnd, c.dx, c.dy)) := List.mem_map.2 ⟨x, hx, rfl⟩
          rw [hs.same, List.mem_map] at h1
          obtain ⟨k, hk, e⟩ := h1
          have h2 := hp.comps k hk
          have h3 := htile ht k hk
          simp only [Prod.mk.injEq] at e
          have h4 := hp.prec
          refine ⟨by omega, by omega, fun v hv => ?_⟩
          have := hs.range x hx v hv
          rw [if_neg (by omega)] at this
          rw [show x.prec = P by omega]
          exact this
        · intro q hq
          obtain ⟨q1, q2, -⟩ := hplain.comp hq
          unfold Cut.Aligned
          rw [q1, q2]
          have e1 : (Codec.params sz (Codec.encPar { c.enc with tccps := c.enc.tccps.map (withGuard (lastGuard none l)) })).x0 = 0 := by
            show c.enc.x0 = 0
            rw [henc]; exact z1
          have e2 : (Codec.params sz (Codec.encPar { c.enc with tccps := c.enc.tccps.map (withGuard (lastGuard none l)) })).y0 = 0 := by
            show c.enc.y0 = 0
            rw [henc]; exact z2
          have e3 := hplain.large
          change c.enc.x1 ≤ _ ∧ c.enc.y1 ≤ _ at e3
          have e4 : (Codec.params sz (Codec.encPar { c.enc with tccps := c.enc.tccps.map (withGuard (lastGuard none l)) })).x1 = c.enc.x1 := rfl
          have e5 : (Codec.params sz (Codec.encPar { c.enc with tccps := c.enc.tccps.map (withGuard (lastGuard none l)) })).y1 = c.enc.y1 := rfl
          rw [e1, e2, e4, e5]
          unfold Tcd.cdiv
          simp
          have := mul_le_mul (show (c.enc.x1 : Int) ≤ 2 ^ 15 by exact_mod_cast e3.1) (show (c.enc.y1 : Int) ≤ 2 ^ 15 by exact_mod_cast e3.2) (by positivity) (by positivity)
          exact lt_of_le_of_lt this (by norm_num)
      · left
        have hgx' := hgx
        unfold askedTile at hgx'
        rw [if_neg ht] at hgx'
        have e1 : c.enc.x1 = im.x1 ∧ c.enc.y1 = im.y1 ∧ c.enc.tx0 = 0 ∧ c.enc.ty0 = 0 ∧ c.enc.tdx = im.x1 ∧ c.enc.tdy = im.y1 := by
          rw [henc]
          have g1 := hgx'.1
          have g2 := hgx'.2
          dsimp only at g1 g2 ⊢
          omega
        obtain ⟨e1, e2, e3, e4, e5, e6⟩ := e1
        have hx1 := hf.image_x
        have hy1 := hf.image_y
        show Hdr.cdiv (c.enc.x1 - c.enc.tx0) c.enc.tdx * Hdr.cdiv (c.enc.y1 - c.enc.ty0) c.enc.tdy = 1
        rw [e1, e2, e3, e4, e5, e6, Nat.sub_zero, Nat.sub_zero, cdiv_self (by omega), cdiv_self (by omega)]

/-! ## The conditions are met -/

/-- Three components of eight bits, 12 by 3 samples, in tiles of eight by eight; the component transform, two resolutions, two layers. -/
def plainP : Params := { tileSizeOn := true, tdx := 8, tdy := 8, numres := 2, mct := 1, layers := 2 }

def plainIm : Image := ⟨0, 0, 12, 3, List.replicate 3 { prec := 8, sgnd := 0, dx := 1, dy := 1, w := 12, h := 3 }⟩

theorem plain_fits : Fits plainP plainIm where
  image_x := by decide
  image_y := by decide
  origin_x := by decide
  origin_y := by decide
  tiles := by decide
  comps_len := by decide
  comps := by decide
  res := by decide
  res_tile := by decide
  cblk := ⟨6, 6, by decide⟩
  layers := by decide
  csty := by decide
  prg := by decide
  mode := by decide
  mct := by decide
  roi := by decide
  prec_spec := by decide
  prec_size := fun h => absurd h (by decide)
  profile := by decide
  changes := by decide
  alloc := by decide
  comment := by decide

def plainCs : List CompI := [0, 77, 149].map fun k => ⟨8, 0, 1, 1, (List.range 36).map fun i => ((i * 41 + i * i * k) % 256 : Nat)⟩

/-- The codestream, with three guard bits and tile-part lengths. -/
def plainFile : Hdr.R (List UInt8) := do
  let c ← setup plainP plainIm
  let r ← extra ([Opt.guard 3, .tlm true].map Opt.text) ⟨c, false⟩
  Codec.encode .checked 400 (32, 48) Codec.exPlan ⟨fun _ _ => List.replicate 984 0, fun _ _ _ => 7, fun _ => []⟩
    { flag := none, tlm := r.coding.tlm, size := 1000 } r.coding.enc [] [] plainCs

-- two tiles, three guard bits: as many as resolutions and one more
example : Plain plainP plainIm 8 ∧ (∀ o ∈ [Opt.guard 3, .tlm true], o.Valid) ∧ plainP.numres + plainP.mct ≤ ((lastGuard none [Opt.guard 3, .tlm true]).getD 2 : Nat) ∧
    (∀ c ∈ plainIm.comps, c.sgnd = 0) ∧ Samples plainIm 8 plainCs := by
  refine ⟨⟨plain_fits, by decide, by decide, by decide, by decide, by decide, by decide, by decide, by decide, by decide, by decide, by decide, by decide, by decide, by decide⟩,
    fun o ho => ?_, by decide, by decide, ⟨by decide, by decide, by decide +kernel⟩⟩
  simp at ho
  rcases ho with rfl | rfl <;> simp [Opt.Valid]

example (u : User) (hu : u.reduce = 0) (huw : u.ihdrW = 0) := C74_plain_lossless .checked (32, 48) (by decide) plainP plainIm 8
  ⟨plain_fits, by decide, by decide, by decide, by decide, by decide, by decide, by decide, by decide, by decide, by decide, by decide, by decide, by decide, by decide⟩
  [Opt.guard 3, .tlm true] (fun o ho => by simp at ho; rcases ho with rfl | rfl <;> simp [Opt.Valid]) (by decide) (by decide) u hu (Or.inr (Or.inl huw)) 1000 (by decide) none
  Codec.exPlan Codec.ex_plan

-- it is written, and read back
example : plainFile.map List.length = .ok 396 := by decide +kernel

example : (plainFile.bind fun f => Codec.decode .checked 400 (32, 48) Codec.exD {} true f).map (fun l => l.map (·.data)) =
    .ok (plainCs.map fun c => some (c.data.map some)) := by decide +kernel

/-! ## Not so: the guard bits there are if no option asks for others -/

/-- Five by five samples, three components of eight bits; the component transform, two resolutions. -/
def sharpP : Params := { numres := 2, mct := 1, layers := 2 }

def sharpIm : Image := ⟨0, 0, 5, 5, List.replicate 3 { prec := 8, sgnd := 0, dx := 1, dy := 1, w := 5, h := 5 }⟩

theorem sharp_plain : Plain sharpP sharpIm 8 := by
  refine ⟨⟨by decide, by decide, by decide, by decide, by decide, by decide, by decide, by decide, by decide, ⟨6, 6, by decide⟩, by decide, by decide, by decide, by decide,
    by decide, by decide, by decide, fun h => absurd h (by decide), by decide, by decide, by decide, by decide⟩,
    by decide, by decide, by decide, by decide, by decide, by decide, by decide, by decide, by decide, by decide, by decide, by decide, by decide, by decide⟩

/-- Black and white, where one is what the other is not. -/
def sharpOf (k : Int) : List Int := [-1, 1, 1, 1, -1].flatMap fun (a : Int) => [-1, 1, 1, 1, -1].map fun (b : Int) => if a * b = k then 255 else 0

def sharpCs : List CompI := [⟨8, 0, 1, 1, sharpOf 1⟩, ⟨8, 0, 1, 1, sharpOf (-1)⟩, ⟨8, 0, 1, 1, sharpOf 1⟩]

/-- The codestream. -/
def sharpFile (l : List Opt) : Hdr.R (List UInt8) := do
  let c ← setup sharpP sharpIm
  let r ← extra (l.map Opt.text) ⟨c, false⟩
  Codec.encode .checked 400 (32, 48) Codec.exPlan ⟨fun _ _ => List.replicate 984 0, fun _ _ _ => 7, fun _ => []⟩
    { flag := none, tlm := r.coding.tlm, size := 1000 } r.coding.enc [] [] sharpCs

/-- **False of the code.** Without an option the encoder has two guard bits, and that is not enough: a plain image coded reversibly with all passes
sent is written without an error and read without an error, and the samples are others. With three guard bits they are the same. -/
theorem C74_default_guard_bits_lose : Plain sharpP sharpIm 8 ∧ Samples sharpIm 8 sharpCs ∧
    (∀ n c rn k bi j, Pipe.PlanOk 2 (Codec.exPlan n c rn k bi j)) ∧
    (∃ f out, sharpFile [] = .ok f ∧ Codec.decode .checked 400 (32, 48) Codec.exD {} true f = .ok out ∧ ¬ List.Forall₂ Codec.Same sharpCs out) ∧
    ((sharpFile [Opt.guard 3]).bind fun f => Codec.decode .checked 400 (32, 48) Codec.exD {} true f).map (fun l => l.map (·.data)) =
      .ok (sharpCs.map fun c => some (c.data.map some)) := by
  refine ⟨sharp_plain, ⟨by decide, by decide, by decide +kernel⟩, Codec.ex_plan, ?_, by decide +kernel⟩
  have h : (match (sharpFile []).bind fun f => Codec.decode .checked 400 (32, 48) Codec.exD {} true f with
      | .ok (o :: _) => (o.data.bind fun l => l[0]?) == some (some 238) && decide (0 < o.w * o.h)
      | _ => false) = true := by decide +kernel
  cases hf : sharpFile [] with
  | error e => rw [hf] at h; cases h
  | ok f =>
    rw [hf] at h
    change (match Codec.decode .checked 400 (32, 48) Codec.exD {} true f with
      | .ok (o :: _) => (o.data.bind fun l => l[0]?) == some (some 238) && decide (0 < o.w * o.h)
      | _ => false) = true at h
    cases hd : Codec.decode .checked 400 (32, 48) Codec.exD {} true f with
    | error e => rw [hd] at h; cases h
    | ok out =>
      refine ⟨f, out, rfl, hd, fun hsame => ?_⟩
      rw [hd] at h
      cases hsame with
      | cons h1 h2 =>
        rename_i o os
        simp only [Bool.and_eq_true, beq_iff_eq, decide_eq_true_eq] at h
        have hdat := h1.data
        cases ho : o.data with
        | none => rw [ho] at h; cases h.1
        | some dl =>
          rw [ho] at h hdat
          have e1 : dl[0]? = some (some 238) := h.1
          have e2 := Option.some.inj hdat
          have e3 := congrArg (fun l => l[0]?) e2
          simp only [List.getElem?_take, if_pos h.2, e1] at e3
          revert e3
          decide

end Jp2.Setup

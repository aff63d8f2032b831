import Verif.Jp2.CodecLemmas
/-!
# An image that meets the conditions of C72

Three components of eight bits, 10 × 3 samples at (2, 0), in two tiles of eight by eight from (0, 0) on; the component transform, one
decomposition level, two layers, a tile-part for each of them.
-/
namespace Jp2.Codec
open Jp2.Hdr (Enc Tccp Writable SharedStyle StyleOk User)
open Jp2.Tcd (CompP compOf compRect TileS)
open Jp2.Cut (CompI)
open Jp2.Pi (ParamsFit)
open Jp2.Pi.Spec (tileRect)
open Jp2.Pipe (CompX piParams)

def exTccp : Tccp :=
  { numres := 2, cblkw := 6, cblkh := 6, qmfbid := 1, prcs := List.replicate 33 (15, 15), numgbits := 2, steps := List.replicate 97 (10, 0) }

def exE : Enc :=
  { rsiz := 0, x0 := 2, y0 := 0, x1 := 12, y1 := 3, tdx := 8, tdy := 8, tx0 := 0, ty0 := 0,
    comps := List.replicate 3 { prec := 8, sgnd := 0, dx := 1, dy := 1 },
    csty := 2, prg := 0, numlayers := 2, mct := 1, tccps := List.replicate 3 exTccp }

def exCs : List CompI := [0, 77, 149].map fun k => ⟨8, 0, 1, 1, (List.range 30).map fun i => ((i * 41 + i * i * k) % 256 : Nat)⟩

/-- Four passes, then the rest. -/
def exPlan : Nat → Nat → Nat → Nat → Nat → Nat → Pipe.Plan := fun _ => Pipe.exPlan Pipe.exTwo

/-- What the encoder finds: buffers with zeros, sevens. -/
def exX : EncEnv :=
  ⟨fun n i => List.replicate (if i = 0 then 984 else if n = 0 then 867 else 879) 0, fun _ _ _ => 7, fun _ => []⟩

def exC : Tp.Cfg := { flag := some .lay, size := 1000 }

/-- What the decoder finds. -/
def exD : DecEnv := ⟨fun _ _ _ _ _ _ => (255, 255), fun _ _ _ => 9, fun _ _ _ => 8, fun _ _ => []⟩

theorem ex_tccp (t : Tccp) (ht : t ∈ exE.tccps) : t = exTccp := (List.mem_replicate.1 (show t ∈ List.replicate 3 exTccp from ht)).2

theorem ex_style (t : Tccp) (ht : t ∈ exE.tccps) : StyleOk {} t := by
  rw [ex_tccp t ht]
  refine ⟨by decide, by decide, by decide, by decide, by decide, by decide, by decide, fun r q hq hr => ?_⟩
  have hq : (List.replicate 33 (15, 15))[r]? = some q := hq
  rw [List.getElem?_replicate] at hq
  split at hq
  · cases hq; simp
  · cases hq

theorem ex_writable : Writable exE ∧ SharedStyle exE ∧ Hdr.Suits {} exE := by
  refine ⟨⟨by decide, by decide, by decide, by decide, by decide, by decide, by decide, by decide, by decide, by decide, by decide,
    by decide, rfl, by decide, ex_style, ?_, by decide, by decide, ?_, by decide, ?_⟩, ?_, ⟨by decide, by decide⟩⟩
  · intro t ht
    rw [ex_tccp t ht]
    exact ⟨by decide, by decide, rfl, by decide⟩
  · intro n hn; cases hn
  · intro c hc; cases hc
  · unfold SharedStyle; decide

def exP : Tcd.Params := ⟨2, 0, 12, 3, 0, 0, 8, 8, 2, List.replicate 3 ⟨1, 1, [(15, 15), (15, 15)], 6, 6⟩, 32, 48⟩

theorem ex_params : params (32, 48) (encPar exE) = exP := rfl

theorem ex_comp {c : CompP} (hc : c ∈ (params (32, 48) (encPar exE)).comps) : c = ⟨1, 1, [(15, 15), (15, 15)], 6, 6⟩ := by
  have hc' : c ∈ List.replicate 3 (⟨1, 1, [(15, 15), (15, 15)], 6, 6⟩ : CompP) := hc
  exact (List.mem_replicate.1 hc').2

theorem ex_small : Tcd.Small (params (32, 48) (encPar exE)) := by
  refine ⟨by decide, by decide, fun c hc pd hpd => ?_, fun c hc pd hpd => ?_⟩ <;>
  · try rw [ex_comp hc]
    rw [ex_comp hc] at hpd
    have : pd = (15, 15) := by simpa using hpd
    subst this
    decide

theorem ex_bps (c rn bi : Nat) : 11 ≤ planes exE.tccps c rn bi ∧ planes exE.tccps c rn bi < 999 := by
  unfold planes
  split
  · omega
  · rename_i t ht
    rw [ex_tccp t (List.mem_of_getElem? ht)]
    by_cases h : rn < exTccp.numres ∧ bi < (if rn = 0 then 1 else 3)
    · rw [if_pos h]
      split
      · omega
      · rename_i s hs
        have hs : (List.replicate 97 (10, 0))[bandNo rn bi]? = some s := hs
        rw [List.getElem?_replicate] at hs
        split at hs
        · cases hs
          decide
        · cases hs
    · rw [if_neg h]; omega

theorem ex_rect (n : Nat) (hn : n < 2) :
    compRect (Tcd.tileRectOf exP n) ⟨1, 1, [(15, 15), (15, 15)], 6, 6⟩ = ⟨2, 0, 8, 3⟩ ∨ compRect (Tcd.tileRectOf exP n) ⟨1, 1, [(15, 15), (15, 15)], 6, 6⟩ = ⟨8, 0, 12, 3⟩ := by
  match n, hn with
  | 0, _ => exact Or.inl (by decide +kernel)
  | 1, _ => exact Or.inr (by decide +kernel)

theorem ex_tile (n : Nat) (hn : n < 2) (T : TileS) (hT : Tcd.initTile true (params (32, 48) (encPar exE)) n = .ok T) :
    Pipe.Suits (setup (32, 48) (encPar exE) n) 8 T := by
  have hf := (fit_of (sz := (32, 48)) ex_writable.1 (by decide)).2.1 n hn
  have hT2 : ∀ tc ∈ T.comps, (tc.rect = ⟨2, 0, 8, 3⟩ ∨ tc.rect = ⟨8, 0, 12, 3⟩) ∧ tc.ress.length = 2 := by
    intro tc htc
    rw [(Tcd.initTile_out hf).ok hT] at htc
    rw [show (Tcd.tileOf true (params (32, 48) (encPar exE)) n).comps = (params (32, 48) (encPar exE)).comps.map (compOf true (Tcd.tileRectOf (params (32, 48) (encPar exE)) n)) from rfl,
      List.mem_map] at htc
    obtain ⟨c, hc, rfl⟩ := htc
    rw [ex_comp hc, Pipe.ress_length]
    exact ⟨ex_rect n hn, rfl⟩
  refine ⟨hf, ?_, by omega, ?_, ?_, ?_, fun c rn bi => ?_, ?_⟩
  · intro c hc; rw [ex_comp hc]; decide
  · intro c hc; rw [ex_comp hc]; show (2 : Int) ^ 1 * 2 ^ 7 * 4 ^ 1 ≤ 2 ^ 30 - 2; norm_num
  · intro tc htc; rcases (hT2 tc htc).1 with h | h <;> rw [h] <;> decide
  · intro tc htc
    rw [(hT2 tc htc).2]
    intro k hk
    have : k = 0 := by omega
    subst this
    rcases (hT2 tc htc).1 with h | h <;> rw [h] <;> decide
  · have := ex_bps c rn bi
    exact ⟨by show 0 ≤ planes exE.tccps c rn bi; omega, this.2⟩
  · intro x hx
    have hx' : x ∈ List.replicate 3 (⟨8, false, 0⟩ : CompX) := hx
    rw [(List.mem_replicate.1 hx').2]; rfl

theorem ex_prec (n : Nat) (hn : n < 2) (c r : Nat) :
    Pi.Spec.numPrec (tileRect (piParams exP 2 0) n) (piParams exP 2 0).comps c r = if c < 3 ∧ r < 2 then 1 else 0 := by
  match c, r with
  | 0, 0 | 0, 1 | 1, 0 | 1, 1 | 2, 0 | 2, 1 =>
    match n, hn with
    | 0, _ => decide +kernel
    | 1, _ => decide +kernel
  | 0, r + 2 | 1, r + 2 | 2, r + 2 => simp [Pi.Spec.numPrec, Pi.Spec.axes, exP, piParams]
  | c + 3, r => simp [Pi.Spec.numPrec, Pi.Spec.axes, exP, piParams]

theorem ex_sends (n : Nat) (hn : n < 2) : Pipe.Sends (setup (32, 48) (encPar exE) n) (some .lay) := by
  have hc : ∀ cp ∈ (piParams exP 2 0).comps, cp = ⟨1, 1, [(15, 15), (15, 15)]⟩ := by
    intro cp h
    have h' : cp ∈ List.map (fun c : CompP => (⟨c.dx, c.dy, c.prc⟩ : Pi.CompParams)) (List.replicate 3 ⟨1, 1, [(15, 15), (15, 15)], 6, 6⟩) := h
    simp at h'
    exact h'
  have hcs : ∀ cp ∈ (piParams exP 2 0).comps, Pi.CompFit cp := by
    intro cp h
    rw [hc cp h]
    exact ⟨by decide, by decide, by decide, by decide⟩
  have hi : ParamsFit (piParams exP 2 0) n := by
    match n, hn with
    | 0, _ => exact ⟨by decide, by decide, by decide, by decide, by decide, by decide, by decide, by decide, by decide, hcs, by decide, by decide⟩
    | 1, _ => exact ⟨by decide, by decide, by decide, by decide, by decide, by decide, by decide, by decide, by decide, hcs, by decide, by decide⟩
  refine ⟨hi, ⟨⟨0, 0, ?_⟩, 2, ?_, ?_⟩, (by show 0 < 2 ∧ 2 ≤ 999; decide), ⟨(by show (0 : Int) ≤ 0; decide), (by show (0 : Int) ≤ 4; decide), (fun h => by rcases h with h | h <;> cases h), (fun h => by rcases h with h | h <;> cases h)⟩,
    Or.inr ⟨.lay, rfl, Or.inl ⟨rfl, rfl⟩, fun _ => ?_⟩⟩
  · show Pi.Spec.numPrec (tileRect (piParams exP 2 0) n) (piParams exP 2 0).comps 0 0 ≠ 0
    rw [ex_prec n hn]; decide
  · intro cp h; rw [hc cp h]; decide
  · intro c r
    show (2 + 1) * (2 * (3 * Pi.Spec.numPrec (tileRect (piParams exP 2 0) n) (piParams exP 2 0).comps c r)) < 2 ^ 32
    rw [ex_prec n hn]
    split <;> omega
  · refine ⟨1, fun c cp r hcp hr => ?_⟩
    have h1 := (List.getElem?_eq_some_iff.mp hcp).1
    have h2 := hc cp (List.mem_of_getElem? hcp)
    rw [h2] at hr
    show Pi.Spec.numPrec (tileRect (piParams exP 2 0) n) (piParams exP 2 0).comps c r = 1
    rw [ex_prec n hn, if_pos ⟨h1, hr⟩]

theorem ex_starts (n : Nat) (hn : n < 2) : Starts (setup (32, 48) (encPar exE) n) (some .lay) := by
  refine ⟨⟨0, 0, 0, 0⟩, ⟨Nat.le_refl 0, (by show 0 < 2; decide), Nat.le_refl 0, (by show 0 < 33; decide), Nat.le_refl 0, (by show 0 < 3; decide), ?_⟩, fun f hf => by cases hf; rfl⟩
  show 0 < Pi.Spec.numPrec (tileRect (piParams exP 2 0) n) (piParams exP 2 0).comps 0 0
  rw [ex_prec n hn]
  decide

theorem ex_suits : Suits .checked (32, 48) exC.flag exE 8 := by
  refine ⟨fun t ht => ?_, ex_small, by decide, fun c hc => ?_, Or.inr ⟨_, _, _, [], rfl, by decide⟩, ex_tile, ex_sends, ex_starts, fun n hn i hi => ?_⟩
  · rw [ex_tccp t ht]
    refine ⟨rfl, rfl, rfl, fun _ i hi => ?_⟩
    show (List.replicate 33 (15, 15))[i]? = some (15, 15)
    rw [List.getElem?_replicate, if_pos (by have : i < 2 := hi; omega)]
  · have hc : c ∈ List.replicate 3 ({ prec := 8, sgnd := 0, dx := 1, dy := 1 } : Hdr.Comp) := hc
    rw [(List.mem_replicate.1 hc).2]
  · have hn : n < 2 := hn
    refine ⟨2, ?_, by decide, by decide⟩
    match n, hn with
    | 0, _ =>
      have : (Pi.tileInfo .checked (piParams exP 2 0) 0).map (fun i => Tp.counts (some .lay) ⟨piParams exP 2 0, i⟩) = some (.ok [2]) := by decide +kernel
      have hi : Pi.tileInfo .checked (piParams exP 2 0) 0 = some i := hi
      rw [hi] at this
      exact Option.some.inj this
    | 1, _ =>
      have : (Pi.tileInfo .checked (piParams exP 2 0) 1).map (fun i => Tp.counts (some .lay) ⟨piParams exP 2 0, i⟩) = some (.ok [2]) := by decide +kernel
      have hi : Pi.tileInfo .checked (piParams exP 2 0) 1 = some i := hi
      rw [hi] at this
      exact Option.some.inj this

theorem ex_image : Image exE exCs ∧ CanCut (32, 48) exE exCs := by
  refine ⟨⟨by decide, by decide, by decide, by decide +kernel⟩, Or.inr ⟨?_, fun p hp => ?_⟩⟩
  · intro c hc
    left
    revert c
    decide +kernel
  · rw [ex_comp hp]
    exact ⟨by decide, by decide⟩

theorem ex_plan (n c rn k bi j : Nat) : Pipe.PlanOk exE.numlayers (exPlan n c rn k bi j) := Pipe.ex_plan Pipe.exTwo ⟨_, rfl, rfl⟩ c rn k bi j

theorem ex_roomy : (∀ t ∈ exE.tccps, (2 : Int) ^ exE.mct * 2 ^ (8 - 1) * 4 ^ (t.numres - 1) < 2 ^ 11) ∧
    ∀ t ∈ exE.tccps, ∀ (i : Nat) (s : Nat × Nat), i < 3 * (t.numres - 1) + 1 → t.steps[i]? = some s → 11 + 1 ≤ s.1 + t.numgbits := by
  refine ⟨fun t ht => by rw [ex_tccp t ht]; decide, fun t ht i s _ hs => ?_⟩
  rw [ex_tccp t ht] at hs ⊢
  have hs : (List.replicate 97 (10, 0))[i]? = some s := hs
  rw [List.getElem?_replicate] at hs
  split at hs
  · cases hs; decide
  · cases hs

/-- The codestream. -/
def exFile : Hdr.R (List UInt8) := encode .checked 400 (32, 48) exPlan exX exC exE [] [] exCs

theorem ex_length : exFile.map List.length = .ok 498 := by decide +kernel

theorem ex_back : (exFile.bind fun f => decode .checked 400 (32, 48) exD {} true f).map (fun l => l.map (·.data)) = .ok (exCs.map fun c => some (c.data.map some)) := by
  decide +kernel

end Jp2.Codec

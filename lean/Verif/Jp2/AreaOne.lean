import Verif.Jp2.AreaProps
/-!
# C69: one tile; resolution factors; examples
-/
namespace Jp2.Area
open Jp2.Hdr (R Fail refuseIf)
open Jp2.Tcd (asI32 cdiv CompFit CompP tileRectOf)

/-- Without the checks the sizes are the same. -/
theorem tileDims_of {b : Box} {r : Nat} {c c' : Comp} (h : dims b { c with factor := r } = .ok c') (hx : 0 < c.dx ∧ c.dx ≤ 255)
    (hy : 0 < c.dy ∧ c.dy ≤ 255) (hr : r ≤ 32) : tileDims r b c = .ok c' := by
  unfold dims at h
  obtain ⟨u, hu, h⟩ := Hdr.bind_ok h
  have hb := refuse_inv hu
  have hb' : b.x0 < 2 ^ 31 ∧ b.y0 < 2 ^ 31 ∧ b.x1 < 2 ^ 31 ∧ b.y1 < 2 ^ 31 := by clear h; omega
  obtain ⟨qx, X0, x1, x2, x6, x7, x9, x8, xs⟩ := axis_step (α := Comp) (b0 := b.x0) (b1 := b.x1) (d := c.dx) (r := r) hb'.1 hb'.2.2.1 hx.1 hx.2 hr
  obtain ⟨qy, Y0, y1, y2, y6, y7, y9, y8, ys⟩ := axis_step (α := Comp) (b0 := b.y0) (b1 := b.y1) (d := c.dy) (r := r) hb'.2.1 hb'.2.2.2 hy.1 hy.2 hr
  unfold tileDims
  simp only at h
  rw [x1, y1, x2, y2] at h ⊢
  rw [opt_some, ok_bind, opt_some, ok_bind, opt_some, ok_bind, opt_some, ok_bind, xs] at h ⊢
  obtain ⟨u, hu, h⟩ := Hdr.bind_ok h
  rw [ys] at h ⊢
  obtain ⟨u, hu, h⟩ := Hdr.bind_ok h
  exact h

theorem tileSide_ok {q g td i0 i1 : Nat} (h : g + (q + 1) * td < 2 ^ 32) (htd : 0 < td) :
    tileSide q g td i0 i1 = (max (g + q * td) i0, min (g + (q + 1) * td) i1) := by
  have hq : q + 1 ≤ (q + 1) * td := Nat.le_mul_of_pos_right _ htd
  have hq2 : q * td ≤ (q + 1) * td := Nat.mul_le_mul_right _ (by omega)
  unfold tileSide
  simp only
  rw [Nat.mod_eq_of_lt (a := q * td) (by omega), Nat.mod_eq_of_lt (a := q + 1) (by omega), Nat.mod_eq_of_lt (a := (q + 1) * td) (by omega),
    Nat.mod_eq_of_lt (a := q * td + g) (by omega), Nat.mod_eq_of_lt (a := (q + 1) * td + g) (by omega)]
  congr 1
  · split <;> omega
  · split <;> omega

/-- The box of a tile. -/
def tileBox (p : Tcd.Params) (n : Nat) : Box :=
  ⟨max (p.cpTx0 + n % p.tw * p.tdx) p.x0, max (p.cpTy0 + n / p.tw * p.tdy) p.y0, min (p.cpTx0 + (n % p.tw + 1) * p.tdx) p.x1,
    min (p.cpTy0 + (n / p.tw + 1) * p.tdy) p.y1⟩

theorem tileBox_has {p : Tcd.Params} {n x y : Nat} : (tileBox p n).has x y ↔ InTile p n x y := by
  unfold Box.has tileBox InTile
  simp only
  omega

/-- **C69.** Decoding one tile gives exactly its samples: a tile of the codestream whose right and lower side on the tile grid fit
in 32 bits, with any choice of components; the image gets the box of the tile (those points of the image that lie in it), and
each component asked for has the samples of the full image in that box. -/
theorem C69_tile (d : Dec) (hk : Known d) (cs : List Comp) (hf : Fresh d cs) (n : Nat) (hn : n < d.p.tw * d.th) (hall : d.p.tw * d.th < 2 ^ 32)
    (hx : d.p.cpTx0 + (n % d.p.tw + 1) * d.p.tdx < 2 ^ 32) (hy : d.p.cpTy0 + (n / d.p.tw + 1) * d.p.tdy < 2 ^ 32)
    (sel : List Nat) (hsel : setComponents d.p.comps.length [] sel = .ok ()) (P : Nat → Int → Int → Int) (kept : Nat → List Int)
    (hs : ∀ b : Box, (∀ x y, b.has x y ↔ InTile d.p n x y) → ∀ (i : Nat) (c : CompP), d.p.comps[i]? = some c → (sel = [] ∨ i ∈ sel) →
      HasSample b c.dx c.dy d.reduce) :
    ∃ b out, getTile d sel P kept cs n = .ok (b, out) ∧ (∀ x y, b.has x y ↔ InTile d.p n x y) ∧
      out.length = (if sel = [] then d.p.comps.length else sel.length) ∧
      ∀ (k : Nat) (c : Comp), out[k]? = some c → ∃ i q, asked sel k = some i ∧ d.p.comps[i]? = some q ∧ c.dx = q.dx ∧ c.dy = q.dy ∧
        Holds (P i) b q.dx q.dy d.reduce c := by
  obtain ⟨b, hb0⟩ : ∃ b, b = tileBox d.p n := ⟨_, rfl⟩
  obtain ⟨p1, p2, p3, p4, p5, p6⟩ := hk.pos
  have hbin : ∀ x y, b.has x y ↔ InTile d.p n x y := by rw [hb0]; exact fun x y => tileBox_has
  have hs' : ∀ (i : Nat) (c : CompP), d.p.comps[i]? = some c → usedBy sel i = true → HasSample b c.dx c.dy d.reduce := by
    intro i c hc hu
    refine hs b hbin i c hc ?_
    unfold usedBy at hu
    simpa using hu
  have hselr : ∀ i ∈ sel, i < d.p.comps.length := by
    rw [C69_components] at hsel
    split at hsel
    · rename_i h; exact h.2
    · exact absurd hsel (by simp)
  have sm1 := hk.small.x1
  have sm2 := hk.small.y1
  obtain ⟨iu, cu, hcu, huu⟩ := used_some hk hselr
  obtain ⟨⟨u, hu⟩, v, hv⟩ := hs' iu cu hcu huu
  have bx : b.x0 < b.x1 := by omega
  have by' : b.y0 < b.y1 := by omega
  have bl : b.x1 ≤ d.p.x1 ∧ b.y1 ≤ d.p.y1 := by rw [hb0]; exact ⟨min_le_right _ _, min_le_right _ _⟩
  have hb : b.x0 ≤ b.x1 ∧ b.x1 < 2 ^ 31 ∧ b.y0 ≤ b.y1 ∧ b.y1 < 2 ^ 31 := by omega
  have hbh : b.has b.x0 b.y0 := ⟨⟨le_rfl, bx⟩, le_rfl, by'⟩
  have hin := (hbin _ _).1 hbh
  -- the sizes
  have each : ∀ c0 ∈ cs, ∃ c', dims b { c0 with factor := d.reduce } = .ok c' ∧ tileDims d.reduce b c0 = .ok c' := by
    intro c0 h0
    obtain ⟨i, hi⟩ := mem_getE h0
    obtain ⟨q, hq⟩ := getE' hf.len hi
    obtain ⟨e1, e2⟩ := hf.step i q c0 hq hi
    obtain ⟨cf, hr⟩ := hk.comp (List.mem_of_getElem? hq)
    have f1 := cf.dx
    have f2 := cf.dy
    rw [← e1] at f1
    rw [← e2] at f2
    rcases dims_cases (b := b) (c := { c0 with factor := d.reduce }) f1 f2 hr (by omega) with ⟨⟨c', h1⟩, -⟩ | ⟨-, h2⟩
    · exact ⟨c', h1, tileDims_of h1 f1 f2 hr⟩
    · exfalso
      apply h2
      have hp := Tcd.p2pos d.reduce
      exact ⟨Tcd.cdiv_mono hp (Tcd.cdiv_mono (by simp only; omega) (by omega)), Tcd.cdiv_mono hp (Tcd.cdiv_mono (by simp only; omega) (by omega))⟩
  obtain ⟨cs', hcs, hcs2⟩ : ∃ cs', allDims b (cs.map fun c => { c with factor := d.reduce }) = .ok cs' ∧ cs.mapM (tileDims d.reduce b) = .ok cs' := by
    unfold allDims
    clear hf hs' hs
    induction cs with
    | nil => exact ⟨[], rfl, rfl⟩
    | cons c0 cs ih =>
      obtain ⟨c', k1, k2⟩ := each c0 (by simp)
      obtain ⟨cs', k3, k4⟩ := ih (fun c hc => each c (by simp [hc]))
      refine ⟨c' :: cs', ?_, ?_⟩
      · rw [List.map_cons, List.mapM_cons, k1, ok_bind, k3, ok_bind]; rfl
      · rw [List.mapM_cons, k2, ok_bind, k4, ok_bind]; rfl
  have harea : tileArea d cs n = .ok (b, cs') := by
    unfold tileArea
    rw [Hdr.refuse_bind (by rw [hf.len]; omega), Hdr.refuse_bind (by rw [Nat.mod_eq_of_lt hall]; omega)]
    simp only
    rw [tileSide_ok hx p3, tileSide_ok hy p4, ← hf.len, List.take_length]
    have : (⟨(max (d.p.cpTx0 + n % d.p.tw * d.p.tdx) d.p.x0, min (d.p.cpTx0 + (n % d.p.tw + 1) * d.p.tdx) d.p.x1).1,
      (max (d.p.cpTy0 + n / d.p.tw * d.p.tdy) d.p.y0, min (d.p.cpTy0 + (n / d.p.tw + 1) * d.p.tdy) d.p.y1).1,
      (max (d.p.cpTx0 + n % d.p.tw * d.p.tdx) d.p.x0, min (d.p.cpTx0 + (n % d.p.tw + 1) * d.p.tdx) d.p.x1).2,
      (max (d.p.cpTy0 + n / d.p.tw * d.p.tdy) d.p.y0, min (d.p.cpTy0 + (n / d.p.tw + 1) * d.p.tdy) d.p.y1).2⟩ : Box) = b := hb0.symm
    rw [this, hcs2, ok_bind]
    rfl
  have hR := ready_of hk hf hcs hs'
  obtain ⟨hfit, T, hTT⟩ := inTile_ready hk hn hin
  obtain ⟨ss, s1, s2, s3⟩ := decodeTile_ok (used := usedBy sel) (P := P) (kept := kept) hfit hk.red hTT (inTile_meets hin hbh) hb
  obtain ⟨cs2, u1, u2⟩ := tile_step hR (hR.start (P := P)) s2 s3
  have hcomp : ∀ (i : Nat) (q : CompP) (c : Comp), d.p.comps[i]? = some q → cs2[i]? = some c → usedBy sel i = true →
      c.dx = q.dx ∧ c.dy = q.dy ∧ Holds (P i) b q.dx q.dy d.reduce c := by
    intro i q c hq hc hu
    obtain ⟨c0, h0⟩ := getE' u2.len hc
    obtain ⟨w1, w2, X0, Y0, hD⟩ := hR.dest i c0 h0 hu
    obtain ⟨e1, e2⟩ := hR.step i q c0 hq h0
    obtain ⟨cf, -⟩ := hk.comp (List.mem_of_getElem? hq)
    have f1 : 0 < c0.dx := by rw [e1]; exact cf.dx.1
    have f2 : 0 < c0.dy := by rw [e2]; exact cf.dy.1
    have hsame := u2.same i c0 c h0 hc
    refine ⟨by rw [hsame]; exact e1, by rw [hsame]; exact e2, ?_⟩
    rw [← e1, ← e2]
    refine filled_holds hD f1 f2 ⟨w1, w2⟩ hsame (u2.yes i c0 c h0 hc hu X0 Y0 hD) ?_
    intro u v hu' hv'
    right
    have n2 := (hbin _ _).1 (⟨hu', hv'⟩ : b.has (u * (c0.dx * 2 ^ d.reduce)) (v * (c0.dy * 2 ^ d.reduce)))
    refine ⟨q, hq, ?_⟩
    rw [e1] at hu' n2
    rw [e2] at hv' n2
    unfold Here
    have g1 : (u : Int) * 2 ^ d.reduce * q.dx = ((u * (q.dx * 2 ^ d.reduce) : Nat) : Int) := by push_cast; ring
    have g2 : (v : Int) * 2 ^ d.reduce * q.dy = ((v * (q.dy * 2 ^ d.reduce) : Nat) : Int) := by push_cast; ring
    rw [g1, g2]
    refine ⟨tileRect_has.2 n2, ?_, ?_⟩ <;> omega
  have hdec : allDecoded (usedBy sel) 0 cs2 = true := by
    apply allDecoded_ok
    intro i c hc hu
    rw [Nat.zero_add] at hu
    obtain ⟨q, hq⟩ := getE' (u2.len.trans hR.len) hc
    obtain ⟨-, -, a, e, buf, hbuf, -⟩ := hcomp i q c hq hc hu
    rw [hbuf]; simp
  obtain ⟨out, o1, o2, o3⟩ := handOver_ok (sel := sel) (cs := cs2) (by rw [u2.len, hR.len]; exact hselr) (fun i c hc hu => u2.no i c hc hu)
  refine ⟨b, out, ?_, hbin, by rw [o2, u2.len, hR.len], ?_⟩
  · unfold getTile
    rw [harea, ok_bind]
    simp only
    rw [s1, ok_bind, u1, ok_bind, Hdr.refuse_bind (by rw [hdec]; simp), o1, ok_bind]
    rfl
  · intro k c hc
    obtain ⟨i, a1, a2, a3⟩ := o3 k c hc
    obtain ⟨q, hq⟩ := getE' (u2.len.trans hR.len) a3
    obtain ⟨e1, e2, e3⟩ := hcomp i q c hq a3 a2
    exact ⟨i, q, a1, hq, e1, e2, e3⟩

/-- **C69.** A resolution factor is accepted exactly if every component has more resolutions than that; then it holds for the decoder
and for every component of the image. -/
theorem C69_factor (d : Dec) (old : List Nat) (hl : old.length = d.p.comps.length) (f : Nat) :
    (setReduce d old f).2.2 = decide (∀ c ∈ d.p.comps, f < c.prc.length) ∧
    ((∀ c ∈ d.p.comps, f < c.prc.length) → setReduce d old f = ({ d with reduce := f }, List.replicate d.p.comps.length f, true)) := by
  have key : ∀ (l : List CompP) (old : List Nat), old.length = l.length →
      (setFactors f ((l.map (·.prc.length)).zip old)).2 = decide (∀ c ∈ l, f < c.prc.length) ∧
      ((∀ c ∈ l, f < c.prc.length) → setFactors f ((l.map (·.prc.length)).zip old) = (List.replicate l.length f, true)) := by
    intro l
    induction l with
    | nil => intro old _; exact ⟨by simp [setFactors], fun _ => by simp [setFactors]⟩
    | cons c l ih =>
      intro old hl
      rcases old with _ | ⟨o, old⟩
      · simp at hl
      obtain ⟨k1, k2⟩ := ih old (by simpa using hl)
      rw [List.map_cons, List.zip_cons_cons]
      unfold setFactors
      by_cases hc : c.prc.length ≤ f
      · rw [if_pos hc]
        refine ⟨?_, ?_⟩
        · simp only
          rw [eq_comm, decide_eq_false_iff_not]
          intro h
          have := h c (by simp)
          omega
        · intro h
          have := h c (by simp)
          omega
      · rw [if_neg hc]
        refine ⟨?_, ?_⟩
        · simp only
          rw [k1]
          simp only [List.mem_cons, forall_eq_or_imp]
          rw [decide_eq_decide]
          constructor
          · intro h; exact ⟨by omega, h⟩
          · intro h; exact h.2
        · intro h
          rw [k2 fun c hc => h c (by simp [hc])]
          rfl
  obtain ⟨k1, k2⟩ := key d.p.comps old hl
  refine ⟨k1, fun h => ?_⟩
  unfold setReduce
  simp only
  rw [k2 h]

/-! ## A concrete case: an image of 3 × 2 tiles, reduced by one resolution; see `Tcd.exParams` -/

/-- The decoder of the example. -/
def exD : Dec := ⟨Tcd.exParams, 2, 1⟩

/-- Its image. -/
def exC : List Comp := [{ dx := 1, dy := 1 }, { dx := 2, dy := 1 }]

theorem exKnown : Known exD := ⟨⟨by decide, by decide, by decide, by decide⟩, Tcd.exSmall, Tcd.exFit, by decide⟩

theorem exFresh : Fresh exD exC := by
  refine ⟨rfl, ?_, ?_⟩
  · rintro (_ | _ | i) c c0 h1 h2 <;> simp [exD, Tcd.exParams, exC] at h1 h2
    · subst h1; subst h2; exact ⟨rfl, rfl⟩
    · subst h1; subst h2; exact ⟨rfl, rfl⟩
  · intro c hc
    simp only [exC, List.mem_cons, List.not_mem_nil, or_false] at hc
    rcases hc with rfl | rfl <;> rfl

theorem exI (x : Int) (h : 0 ≤ x ∧ x < 100) : I32 x := ⟨by omega, by omega⟩

theorem exArea : setArea exD exC 5 4 14 12 = .ok (⟨0, 2, 0, 2⟩, ⟨5, 4, 14, 12⟩,
    [{ dx := 1, dy := 1, factor := 1, x0 := 5, y0 := 4, w := 4, h := 4 }, { dx := 2, dy := 1, factor := 1, x0 := 3, y0 := 4, w := 2, h := 4 }]) := by
  decide +kernel

theorem exWanted (n : Nat) : n ∈ [4, 0, 3, 1] ↔ n < 3 * 2 ∧ Tp.wanted 3 (some ⟨0, 2, 0, 2⟩) n = true := by
  constructor
  · intro h
    simp only [List.mem_cons, List.not_mem_nil, or_false] at h
    rcases h with rfl | rfl | rfl | rfl <;> decide
  · rintro ⟨h, h'⟩
    have : n = 0 ∨ n = 1 ∨ n = 2 ∨ n = 3 ∨ n = 4 ∨ n = 5 := by omega
    rcases this with rfl | rfl | rfl | rfl | rfl | rfl <;> revert h' <;> decide

/-- The hypotheses of `C69_exact` can be met: an area across four tiles, which come in another order than usual, second
component only. -/
example (P : Nat → Int → Int → Int) (kept : Nat → Nat → List Int) : ∃ out, decode exD ⟨5, 4, 14, 12⟩ [1] P kept [4, 0, 3, 1]
    [{ dx := 1, dy := 1, factor := 1, x0 := 5, y0 := 4, w := 4, h := 4 }, { dx := 2, dy := 1, factor := 1, x0 := 3, y0 := 4, w := 2, h := 4 }] =
      .ok out ∧ out.length = 1 ∧ ∀ (k : Nat) (c : Comp), out[k]? = some c → ∃ i q, asked [1] k = some i ∧ Tcd.exParams.comps[i]? = some q ∧
        c.dx = q.dx ∧ c.dy = q.dy ∧ Holds (P i) ⟨5, 4, 14, 12⟩ q.dx q.dy 1 c := by
  refine C69_exact exD exKnown exC exFresh 5 4 14 12 (exI _ (by omega)) (exI _ (by omega)) (exI _ (by omega)) (exI _ (by omega)) _ _ _ exArea [1] (by decide +kernel) P kept
    [4, 0, 3, 1] exWanted ?_
  intro i c hc hi
  simp only [List.cons_ne_nil, List.mem_cons, List.not_mem_nil, or_false, false_or] at hi
  subst hi
  simp only [exD, Tcd.exParams, List.getElem?_cons_succ, List.getElem?_cons_zero, Option.some.injEq] at hc
  subst hc
  exact ⟨⟨2, by decide⟩, 2, by decide⟩

/-- The second component: positions 2 and 3 across, 2 to 5 down. -/
example : (decode exD ⟨5, 4, 14, 12⟩ [1] (fun i u v => 100 * i + 10 * u + v) (fun _ _ => [7, 7]) [4, 0, 3, 1]
    [{ dx := 1, dy := 1, factor := 1, x0 := 5, y0 := 4, w := 4, h := 4 }, { dx := 2, dy := 1, factor := 1, x0 := 3, y0 := 4, w := 2, h := 4 }]) =
    .ok [{ dx := 2, dy := 1, factor := 1, x0 := 3, y0 := 4, w := 2, h := 4, data := some ([122, 132, 123, 133, 124, 134, 125, 135].map some) }] := by
  decide +kernel

/-- Of the six tiles, four have a point of the area. -/
example : Tp.wanted 3 (some ⟨0, 2, 0, 2⟩) 4 = true ↔ ∃ x y, InTile Tcd.exParams 4 x y ∧ Box.has ⟨5, 4, 14, 12⟩ x y :=
  C69_tiles_needed exD exKnown exC 5 4 14 12 (exI _ (by omega)) (exI _ (by omega)) (exI _ (by omega)) (exI _ (by omega)) _ _ _ exArea
    (by decide) (by decide) 4 (by decide)

/-- An area that begins beyond the image is refused, as is one that ends before it begins. -/
example : setArea exD exC 21 4 30 12 = .error .refused := by decide +kernel
example : setArea exD exC 14 4 5 12 = .error .refused := by decide +kernel
/-- An area is clipped to the image. -/
example : (match setArea exD exC 0 0 99 10 with | .ok (_, b, _) => b == ⟨3, 2, 20, 10⟩ | _ => false) = true := by decide +kernel

/-- The hypotheses of `C69_tile` can be met. -/
example (P : Nat → Int → Int → Int) (kept : Nat → List Int) : ∃ b out, getTile exD [1, 0] P kept exC 4 = .ok (b, out) ∧
    (∀ x y, b.has x y ↔ InTile Tcd.exParams 4 x y) ∧ out.length = 2 ∧ ∀ (k : Nat) (c : Comp), out[k]? = some c → ∃ i q, asked [1, 0] k = some i ∧
      Tcd.exParams.comps[i]? = some q ∧ c.dx = q.dx ∧ c.dy = q.dy ∧ Holds (P i) b q.dx q.dy 1 c := by
  refine C69_tile exD exKnown exC exFresh 4 (by decide) (by decide) (by decide) (by decide) [1, 0] (by decide +kernel) P kept ?_
  intro b hb i c hc hi
  have h1 : b.has 12 12 := (hb _ _).2 (by unfold InTile exD Tcd.exParams; decide)
  have hc' : (c.dx = 1 ∨ c.dx = 2) ∧ c.dy = 1 := by
    rcases i with _ | _ | i <;> simp [exD, Tcd.exParams] at hc
    · subst hc; exact ⟨Or.inl rfl, rfl⟩
    · subst hc; exact ⟨Or.inr rfl, rfl⟩
  obtain ⟨⟨a1, a2⟩, a3, a4⟩ := h1
  refine ⟨?_, 6, ?_⟩
  · rcases hc'.1 with e | e
    · exact ⟨6, by rw [e]; show b.x0 ≤ 12; omega, by rw [e]; show 12 < b.x1; omega⟩
    · exact ⟨3, by rw [e]; show b.x0 ≤ 12; omega, by rw [e]; show 12 < b.x1; omega⟩
  · rw [hc'.2]
    exact ⟨a3, a4⟩

/-! ## Where it goes wrong -/

/-- A codestream with one tile as large as can be, its corner at (1, 1), for an image of 2 × 2. -/
def hugeP : Tcd.Params :=
  { x0 := 1, y0 := 1, x1 := 3, y1 := 3, cpTx0 := 1, cpTy0 := 1, tdx := 2 ^ 32 - 1, tdy := 2 ^ 32 - 1, tw := 1, comps := [⟨1, 1, [(15, 15)], 6, 6⟩],
    szPrec := 96, szBlk := 120 }

theorem hugeKnown : Known ⟨hugeP, 1, 0⟩ := by
  refine ⟨⟨by decide, by decide, by decide, by decide⟩, ⟨by decide, by decide, by decide, by decide⟩, ?_, by decide⟩
  intro n hn
  have : n = 0 := by
    change n < 1 * 1 at hn
    omega
  subst this
  refine ⟨by decide, by decide, by decide, by decide, by decide, by decide, by decide, by decide, by decide, by decide, ?_, by decide, by decide⟩
  intro c hc
  simp only [hugeP, List.mem_cons, List.not_mem_nil, or_false] at hc
  subst hc
  refine ⟨by decide, by decide, by decide, ?_⟩
  intro r q hq
  rcases r with _ | r <;> simp at hq
  subst hq; decide

/-- **C69.** Without the limit `C69_tile` is false of the code: the far side of a tile that reaches `2^32` wraps around, and the tile is
refused, although the same samples can be had as an area (four zeros). -/
theorem C69_tile_wraps : Known ⟨hugeP, 1, 0⟩ ∧ InTile hugeP 0 1 1 ∧
    (∀ P kept, getTile ⟨hugeP, 1, 0⟩ [] P kept [{ dx := 1, dy := 1 }] 0 = .error .refused) ∧
    (match setArea ⟨hugeP, 1, 0⟩ [{ dx := 1, dy := 1 }] 0 0 0 0 with
      | .ok (_, b, cs) => (match decode ⟨hugeP, 1, 0⟩ b [] (fun _ u v => 10 * u + v) (fun _ _ => []) [0] cs with
        | .ok [c] => c.data == some ([11, 21, 12, 22].map some)
        | _ => false)
      | _ => false) = true := by
  refine ⟨hugeKnown, by unfold InTile hugeP; decide, ?_, by decide +kernel⟩
  intro P kept
  have h : tileArea ⟨hugeP, 1, 0⟩ [{ dx := 1, dy := 1 }] 0 = .ok (⟨1, 1, 0, 0⟩, [{ dx := 1, dy := 1, x0 := 1, y0 := 1, w := 2 ^ 32 - 1, h := 2 ^ 32 - 1 }]) := by decide +kernel
  have h2 : (match Tcd.initTile false hugeP 0 with
      | .ok t => wholeTile ⟨hugeP, 1, 0⟩ ⟨1, 1, 0, 0⟩ (usedBy []) 0 (hugeP.comps.zip t.comps) == .ok false &&
          (match hugeP.comps.zip t.comps with | [(c, t)] => srcRect ⟨hugeP, 1, 0⟩ ⟨1, 1, 0, 0⟩ false c t == .error .refused | _ => false)
      | _ => false) = true := by decide +kernel
  unfold getTile decodeTile
  rw [h, ok_bind]
  simp only
  revert h2
  cases Tcd.initTile false hugeP 0 with
  | error e => simp
  | ok t =>
    simp only [Bool.and_eq_true, beq_iff_eq]
    rintro ⟨h3, h4⟩
    simp only [tcd, ok_bind]
    rw [h3, ok_bind]
    revert h4
    generalize hugeP.comps.zip t.comps = l
    rcases l with _ | ⟨⟨c, t⟩, _ | ⟨y, l⟩⟩
    · simp
    · simp only [beq_iff_eq]
      intro h4
      unfold compSrcs compSrc
      rw [h4]
      rfl
    · simp

/-- **C69.** A resolution factor that is refused is not without effect: the decoder keeps it, and decoding the image after that reads
outside the resolutions of a component (here the factor is the number of resolutions of the second component). -/
theorem C69_refused_factor_sticks :
    (setReduce ⟨Tcd.exParams, 2, 0⟩ [0, 0] 2).2 = ([2, 0], false) ∧
    (match setArea (setReduce ⟨Tcd.exParams, 2, 0⟩ [0, 0] 2).1 exC 0 0 0 0 with
      | .ok (_, b, cs) => decode (setReduce ⟨Tcd.exParams, 2, 0⟩ [0, 0] 2).1 b [] (fun _ u v => u + v) (fun _ _ => []) [0, 1, 2, 3, 4, 5] cs == .error .oob
      | _ => false) = true := by
  constructor <;> decide +kernel

/-- An image of 4 × 2 from (0, 1) in one tile, two resolutions. -/
def rowsP : Tcd.Params :=
  { x0 := 0, y0 := 1, x1 := 4, y1 := 3, cpTx0 := 0, cpTy0 := 0, tdx := 4, tdy := 4, tw := 1, comps := [⟨1, 1, [(15, 15), (15, 15)], 6, 6⟩],
    szPrec := 96, szBlk := 120 }

/-- **C69.** An area without any sample of a component: without columns decoding it is refused, without rows it can
succeed with an image of height 0 that has samples. -/
theorem C69_empty_area :
    (match setArea ⟨rowsP, 1, 1⟩ [{ dx := 1, dy := 1 }] 1 1 2 3 with
      | .ok (_, b, cs) => decode ⟨rowsP, 1, 1⟩ b [] (fun _ u v => 10 * u + v) (fun _ _ => []) [0] cs == .error .refused
      | _ => false) = true ∧
    (match setArea ⟨rowsP, 1, 1⟩ [{ dx := 1, dy := 1 }] 0 1 4 2 with
      | .ok (_, b, cs) => decode ⟨rowsP, 1, 1⟩ b [] (fun _ u v => 10 * u + v) (fun _ _ => []) [0] cs ==
          .ok [{ dx := 1, dy := 1, factor := 1, x0 := 0, y0 := 1, w := 2, h := 0, data := some [some 1, some 11] }]
      | _ => false) = true := by
  constructor <;> decide +kernel

example : (setReduce ⟨Tcd.exParams, 2, 0⟩ [0, 0] 1) = (⟨Tcd.exParams, 2, 1⟩, [1, 1], true) :=
  (C69_factor ⟨Tcd.exParams, 2, 0⟩ [0, 0] rfl 1).2 (by decide)
example : setComponents 3 [] [2, 0] = .ok () ∧ setComponents 3 [] [2, 2] = .error .refused ∧ setComponents 3 [] [3] = .error .refused := by decide +kernel

end Jp2.Area

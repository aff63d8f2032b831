import Verif.Jp2.AreaSet
import Verif.Jp2.AreaSpec
/-!
# From the tiles to the image
-/
namespace Jp2.Area
open Jp2.Hdr (R Fail refuseIf)
open Jp2.Setup (u32)
open Jp2.Tcd (asI32 Rect cdiv RectOk CompFit CompP TileC compRect compOf tileRectOf)

theorem le_red {b X d r u : Nat} (hd : 0 < d) (h : (X : Int) = cdiv (cdiv b d) (2 ^ r)) : X ≤ u ↔ b ≤ u * (d * 2 ^ r) := by
  have hp := Tcd.p2pos r
  have e : ((X : Int) ≤ u) ↔ (b : Int) ≤ ((u * (d * 2 ^ r) : Nat) : Int) := by
    rw [h, Tcd.cdiv_cdiv (by omega) hp, Tcd.cdiv_le (by positivity)]
    push_cast; rfl
  omega

theorem lt_red {b X d r u : Nat} (hd : 0 < d) (h : (X : Int) = cdiv (cdiv b d) (2 ^ r)) : u < X ↔ u * (d * 2 ^ r) < b := by
  have := le_red (u := u) hd h
  omega

theorem Dest.covers {b : Box} {r : Nat} {c : Comp} {X0 Y0 : Nat} (h : Dest b r c X0 Y0) (hx : 0 < c.dx) (hy : 0 < c.dy) :
    Covers X0 c.w b.x0 b.x1 (c.dx * 2 ^ r) ∧ Covers Y0 c.h b.y0 b.y1 (c.dy * 2 ^ r) :=
  ⟨fun _ => and_congr (le_red hx h.x0) (lt_red hx h.x1), fun _ => and_congr (le_red hy h.y0) (lt_red hy h.y1)⟩

theorem Dest.pos {b : Box} {r : Nat} {c : Comp} {X0 Y0 : Nat} (h : Dest b r c X0 Y0) (hx : 0 < c.dx) (hy : 0 < c.dy)
    (hs : HasSample b c.dx c.dy r) : 0 < c.w ∧ 0 < c.h := by
  obtain ⟨c1, c2⟩ := h.covers hx hy
  obtain ⟨⟨u, hu⟩, v, hv⟩ := hs
  have := (c1 u).2 hu
  have := (c2 v).2 hv
  omega

/-- Where the plane is there for all of the area the component is complete. -/
theorem filled_holds {P : Int → Int → Int} {b : Box} {r : Nat} {c c0 : Comp} {X0 Y0 : Nat} {S : Int → Int → Prop} (h : Dest b r c0 X0 Y0)
    (hx : 0 < c0.dx) (hy : 0 < c0.dy) (hw : 0 < c0.w ∧ 0 < c0.h) (e : c = { c0 with data := c.data }) (hf : Filled P X0 Y0 c S)
    (hS : ∀ u v : Nat, b.x0 ≤ u * (c0.dx * 2 ^ r) ∧ u * (c0.dx * 2 ^ r) < b.x1 → b.y0 ≤ v * (c0.dy * 2 ^ r) ∧ v * (c0.dy * 2 ^ r) < b.y1 → S u v) :
    Holds P b c0.dx c0.dy r c := by
  have ew : c.w = c0.w := by rw [e]
  have eh : c.h = c0.h := by rw [e]
  obtain ⟨c1, c2⟩ := h.covers hx hy
  have inS : ∀ i j : Nat, i < c.w → j < c.h → S ((X0 : Int) + i) ((Y0 : Int) + j) := by
    intro i j hi hj
    have := hS (X0 + i) (Y0 + j) ((c1 _).1 (by omega)) ((c2 _).1 (by omega))
    push_cast at this
    exact this
  obtain ⟨buf, hb⟩ : ∃ buf, c.data = some buf := by
    cases hd : c.data with
    | none => exact absurd hd (hf.some 0 0 (by omega) (by omega) (inS 0 0 (by omega) (by omega)))
    | some buf => exact ⟨buf, rfl⟩
  obtain ⟨l, v⟩ := hf.vals buf hb
  refine ⟨X0, Y0, buf, hb, l, by rw [ew]; exact c1, by rw [eh]; exact c2, ?_⟩
  intro i j hi hj
  have := v i j hi hj (inS i j hi hj)
  push_cast
  exact this

theorem wanted_some {tw : Nat} {w : Tp.Window} {i : Nat} :
    Tp.wanted tw (some w) i = true ↔ ((w.x0 ≤ i % tw ∧ i % tw < w.x1) ∧ w.y0 ≤ i / tw ∧ i / tw < w.y1) := by
  unfold Tp.wanted
  simp only [Bool.and_eq_true, decide_eq_true_eq]
  tauto

theorem tile_lt {tw th n : Nat} (h : n < tw * th) : n % tw < tw ∧ n / tw < th := by
  have : 0 < tw := by rcases Nat.eq_zero_or_pos tw with h0 | h0; · rw [h0, Nat.zero_mul] at h; omega
                      exact h0
  exact ⟨Nat.mod_lt _ this, Nat.div_lt_of_lt_mul h⟩

/-- The tiles in the window are those that have a point of the area. -/
theorem needed {d : Dec} {w : Tp.Window} {b : Box} (hk : Known d) (hw : WinOk d w b) (hx : d.p.x0 ≤ b.x0 ∧ b.x0 < b.x1 ∧ b.x1 ≤ d.p.x1)
    (hy : d.p.y0 ≤ b.y0 ∧ b.y0 < b.y1 ∧ b.y1 ≤ d.p.y1) {n : Nat} (hn : n < d.p.tw * d.th) :
    Tp.wanted d.p.tw (some w) n = true ↔ ∃ x y, InTile d.p n x y ∧ b.has x y := by
  obtain ⟨n1, n2⟩ := tile_lt hn
  obtain ⟨p1, p2, p3, p4, -, -⟩ := hk.pos
  have gx := hk.grid.x
  have gy := hk.grid.y
  rw [wanted_some, hw.x0 _ n1, hw.x1 _ n1, hw.y0 _ n2, hw.y1 _ n2]
  have e1 : (n % d.p.tw + 1) * d.p.tdx = n % d.p.tw * d.p.tdx + d.p.tdx := by rw [Nat.add_mul]; omega
  have e2 : (n / d.p.tw + 1) * d.p.tdy = n / d.p.tw * d.p.tdy + d.p.tdy := by rw [Nat.add_mul]; omega
  unfold InTile Box.has
  rw [e1, e2]
  constructor
  · rintro ⟨⟨h1, h2⟩, h3, h4⟩
    refine ⟨max b.x0 (d.p.cpTx0 + n % d.p.tw * d.p.tdx), max b.y0 (d.p.cpTy0 + n / d.p.tw * d.p.tdy), ?_, ?_⟩ <;> omega
  · rintro ⟨x, y, h1, h2⟩
    omega

theorem inTile_ready {d : Dec} (hk : Known d) {n x y : Nat} (hn : n < d.p.tw * d.th) (h : InTile d.p n x y) :
    Tcd.Fit d.p n ∧ ∃ T, Tcd.initTile false d.p n = .ok T := by
  obtain ⟨p1, p2, p3, p4, -, -⟩ := hk.pos
  have hf := hk.fit n hn
  refine ⟨hf, ?_⟩
  obtain ⟨h1, h2, h3, h4, h5⟩ := h
  refine (Tcd.C45_total (enc := false) hf).2 hk.small ⟨x, y, ⟨⟨by omega, by omega⟩, by omega, by omega⟩, ?_, ?_⟩ p3 p4
  · rw [Tcd.cell_of (by omega)]
    constructor
    · have := h3.1; zify at this; push_cast at this ⊢; exact this
    · have := h3.2; zify at this; push_cast at this ⊢; exact this
  · rw [Tcd.cell_of (by omega)]
    constructor
    · have := h4; zify at this; push_cast at this ⊢; exact this
    · have := h5; zify at this; push_cast at this ⊢; exact this

theorem inTile_meets {p : Tcd.Params} {b : Box} {n x y : Nat} (h : InTile p n x y) (hb : b.has x y) : Meets (tileRectOf p n) b := by
  have ht := tileRect_has.2 h
  obtain ⟨t1, t2, t3, t4⟩ := ht
  obtain ⟨b1, b2⟩ := hb
  exact ⟨by omega, by omega, by omega, by omega⟩

/-- Every point of the image is in a tile. -/
theorem point_tile {d : Dec} (hk : Known d) {x y : Nat} (hx : d.p.x0 ≤ x ∧ x < d.p.x1) (hy : d.p.y0 ≤ y ∧ y < d.p.y1) :
    ∃ n, n < d.p.tw * d.th ∧ InTile d.p n x y := by
  obtain ⟨n, ⟨hn, T, hT, hh⟩, -⟩ := Tcd.C45_every_point_in_one_tile (enc := false) hk.grid hk.small hk.fit x y ⟨by omega, by omega⟩ ⟨by omega, by omega⟩
  refine ⟨n, hn, ?_⟩
  have := (Tcd.comps_get (hk.fit n hn) hT).1
  rw [this] at hh
  exact tileRect_has.1 hh

/-! ## Handing over -/

theorem handOver_ok {sel : List Nat} {cs : List Comp} (hs : ∀ i ∈ sel, i < cs.length)
    (hn : ∀ (i : Nat) (c : Comp), cs[i]? = some c → usedBy sel i = false → c.data = none) :
    ∃ out, handOver sel cs = .ok out ∧ out.length = (if sel = [] then cs.length else sel.length) ∧
      ∀ (k : Nat) (c : Comp), out[k]? = some c → ∃ i, asked sel k = some i ∧ usedBy sel i = true ∧ cs[i]? = some c := by
  unfold handOver asked
  by_cases he : sel = []
  · rw [if_pos he, if_pos he]
    refine ⟨cs, rfl, rfl, fun k c hc => ⟨k, ?_, ?_, hc⟩⟩
    · rw [if_pos he]
    · rw [he]; rfl
  · rw [if_neg he, if_neg he]
    obtain ⟨out, ho⟩ := mapM_fwd (f := pick cs) sel (by
      intro i hi
      obtain ⟨c, hc⟩ : ∃ c, cs[i]? = some c := ⟨_, List.getElem?_eq_getElem (hs i hi)⟩
      exact ⟨c, by unfold pick; simp only [hc]⟩)
    obtain ⟨o1, o2⟩ := mapM_inv _ _ ho
    have hany : (((List.range cs.length).zip cs).any fun x => !(sel.contains x.1) && x.2.data.isSome) = false := by
      rw [List.any_eq_false]
      rintro ⟨i, c⟩ hx
      obtain ⟨j, hj⟩ := mem_getE hx
      rw [List.getElem?_zip_eq_some] at hj
      obtain ⟨h1, h2⟩ := hj
      have e : i = j := by
        obtain ⟨hj', e⟩ := List.getElem?_eq_some_iff.1 h1
        rw [List.getElem_range] at e
        exact e.symm
      subst e
      simp only
      cases hc : sel.contains i
      · have := hn i c h2 (by
          unfold usedBy
          rw [hc, Bool.or_false, List.isEmpty_eq_false_iff]
          exact he)
        rw [this]; simp
      · simp
    refine ⟨out, ?_, o1, ?_⟩
    · rw [ho, ok_bind, hany]
      rfl
    · intro k c hc
      obtain ⟨i, hi⟩ := getE' o1 hc
      refine ⟨i, by rw [if_neg he, hi], ?_, ?_⟩
      · unfold usedBy
        rw [List.contains_iff_mem.2 (List.mem_of_getElem? hi), Bool.or_true]
      · have := o2 k i c hi hc
        unfold pick at this
        cases hq : cs[i]? with
        | none => simp only [hq] at this; exact absurd this (by simp)
        | some c' =>
          simp only [hq] at this
          exact congrArg some (Except.ok.inj this)

/-! ## One tile without copying -/

theorem single_inv {d : Dec} {b : Box} (hk : Known d) (h : single d b = true) (hx : d.p.x0 ≤ b.x0 ∧ b.x1 ≤ d.p.x1)
    (hy : d.p.y0 ≤ b.y0 ∧ b.y1 ≤ d.p.y1) : tileRectOf d.p 0 = ⟨b.x0, b.y0, b.x1, b.y1⟩ ∧ d.p.tw = 1 ∧ d.th = 1 := by
  unfold single at h
  simp only [Bool.and_eq_true, beq_iff_eq] at h
  obtain ⟨⟨⟨⟨⟨⟨⟨h1, h2⟩, h3⟩, h4⟩, h5⟩, h6⟩, h7⟩, h8⟩ := h
  obtain ⟨p1, p2, p3, p4, -, -⟩ := hk.pos
  have gx := hk.grid.tw
  have gy := hk.grid.th
  have bx : d.p.x1 ≤ d.p.tdx := by
    rw [h1, h3] at gx
    by_contra hc
    have : 2 ≤ (d.p.x1 - 0 + d.p.tdx - 1) / d.p.tdx := by rw [Nat.le_div_iff_mul_le p3]; omega
    omega
  have by' : d.p.y1 ≤ d.p.tdy := by
    rw [h2, h4] at gy
    by_contra hc
    have : 2 ≤ (d.p.y1 - 0 + d.p.tdy - 1) / d.p.tdy := by rw [Nat.le_div_iff_mul_le p4]; omega
    omega
  refine ⟨?_, h1, h2⟩
  unfold tileRectOf
  rw [h1, h3, h4, Nat.mod_one, Nat.div_one]
  simp only [Nat.zero_mul, Nat.zero_add, Nat.one_mul]
  congr 1 <;> omega

/-- The tile is the area: then it delivers just the component. -/
theorem exact_rect {d : Dec} {b : Box} {used : Nat → Bool} {P : Nat → Int → Int → Int} {n i : Nat} {c : CompP} {s : Src} {c0 : Comp} {X0 Y0 : Nat}
    (hr : Right d b used P n i c s) (hu : used i = true) (hT : tileRectOf d.p n = ⟨b.x0, b.y0, b.x1, b.y1⟩) (e1 : c0.dx = c.dx) (e2 : c0.dy = c.dy)
    (hD : Dest b d.reduce c0 X0 Y0) (h1 : 0 < c0.dx) (h2 : 0 < c0.dy) (hw : 0 < c0.w ∧ 0 < c0.h) :
    s.rect = ⟨X0, Y0, X0 + c0.w, Y0 + c0.h⟩ := by
  obtain ⟨hd, hh, hs⟩ := hr.yes hu
  obtain ⟨c1, c2⟩ := hD.covers h1 h2
  have ro := (hd c0 e1 e2 X0 Y0 hD).ok
  have f1 : ∀ u : Nat, (u : Int) * 2 ^ d.reduce * c.dx = ((u * (c.dx * 2 ^ d.reduce) : Nat) : Int) := by intro u; push_cast; ring
  have f2 : ∀ v : Nat, (v : Int) * 2 ^ d.reduce * c.dy = ((v * (c.dy * 2 ^ d.reduce) : Nat) : Int) := by intro v; push_cast; ring
  have key : ∀ u v : Nat, X0 ≤ u ∧ u < X0 + c0.w → Y0 ≤ v ∧ v < Y0 + c0.h → s.rect.has u v := by
    intro u v hu hv
    apply hh
    have k1 := (c1 u).1 hu
    have k2 := (c2 v).1 hv
    rw [e1] at k1
    rw [e2] at k2
    unfold Here
    rw [f1, f2, hT]
    unfold Tcd.Rect.has
    simp only
    omega
  have back : ∀ u v : Nat, s.rect.has u v → (X0 ≤ u ∧ u < X0 + c0.w) ∧ (Y0 ≤ v ∧ v < Y0 + c0.h) := by
    intro u v h
    have := hs u v h
    rw [f1, f2, hT] at this
    unfold Tcd.Rect.has at this
    simp only at this
    refine ⟨(c1 u).2 ?_, (c2 v).2 ?_⟩
    · rw [e1]; omega
    · rw [e2]; omega
  have a1 := key X0 Y0 (by omega) (by omega)
  have a2 := key (X0 + c0.w - 1) (Y0 + c0.h - 1) (by omega) (by omega)
  obtain ⟨q1, q2, q3, q4⟩ := a1
  obtain ⟨q5, q6, q7, q8⟩ := a2
  have r1 := ro.x0
  have r2 := ro.y0
  have b1 := back s.rect.x0.toNat s.rect.y0.toNat ⟨by omega, by omega, by omega, by omega⟩
  have b2 := back (s.rect.x1 - 1).toNat (s.rect.y1 - 1).toNat ⟨by omega, by omega, by omega, by omega⟩
  have z1 : s.rect.x0 = X0 := by omega
  have z2 : s.rect.y0 = Y0 := by omega
  have z3 : s.rect.x1 = X0 + c0.w := by omega
  have z4 : s.rect.y1 = Y0 + c0.h := by omega
  rw [← z3, ← z4, ← z1, ← z2]

end Jp2.Area

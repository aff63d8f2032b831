import Verif.Jp2.AreaLoop
import Verif.Jp2.TpSpec
/-!
# Setting the area
-/
namespace Jp2.Area
open Jp2.Hdr (R Fail refuseIf)
open Jp2.Setup (u32)
open Jp2.Tcd (asI32 Rect cdiv RectOk CompFit CompP TileC compRect compOf tileRectOf)

theorem mapM_inv {α β : Type} {f : α → R β} : ∀ (l : List α) (l' : List β), l.mapM f = .ok l' →
    l'.length = l.length ∧ ∀ (i : Nat) (a : α) (b : β), l[i]? = some a → l'[i]? = some b → f a = .ok b
  | [], l', h => by
    have := Except.ok.inj h
    subst this
    exact ⟨rfl, by simp⟩
  | a :: l, l', h => by
    rw [List.mapM_cons] at h
    obtain ⟨b, h1, h⟩ := Hdr.bind_ok h
    obtain ⟨bs, h2, h⟩ := Hdr.bind_ok h
    have := Except.ok.inj h
    subst this
    obtain ⟨h3, h4⟩ := mapM_inv l bs h2
    refine ⟨by simp [h3], ?_⟩
    rintro (_ | i) x y hx hy
    · simp only [List.getElem?_cons_zero, Option.some.injEq] at hx hy
      subst hx; subst hy; exact h1
    · exact h4 i x y (by simpa using hx) (by simpa using hy)

theorem mapM_fwd {α β : Type} {f : α → R β} : ∀ (l : List α), (∀ a ∈ l, ∃ b, f a = .ok b) → ∃ l', l.mapM f = .ok l'
  | [], _ => ⟨[], rfl⟩
  | a :: l, h => by
    obtain ⟨b, h1⟩ := h a (by simp)
    obtain ⟨bs, h2⟩ := mapM_fwd l (fun x hx => h x (by simp [hx]))
    refine ⟨b :: bs, ?_⟩
    rw [List.mapM_cons, h1, ok_bind, h2, ok_bind]
    rfl

theorem mapM_fail {α β : Type} {f : α → R β} : ∀ (l : List α), (∀ a ∈ l, (∃ b, f a = .ok b) ∨ f a = .error .refused) →
    (∃ l', l.mapM f = .ok l') ∨ l.mapM f = .error .refused
  | [], _ => Or.inl ⟨[], rfl⟩
  | a :: l, h => by
    rw [List.mapM_cons]
    rcases h a (by simp) with ⟨b, h1⟩ | h1
    · rcases mapM_fail l (fun x hx => h x (by simp [hx])) with ⟨bs, h2⟩ | h2
      · left
        refine ⟨b :: bs, ?_⟩
        rw [h1, ok_bind, h2, ok_bind]
        rfl
      · right
        rw [h1, ok_bind, h2]
        rfl
    · right
      rw [h1]; rfl

theorem refuse_cases (c : Prop) [Decidable c] : (c ∧ refuseIf c = .error .refused) ∨ (¬ c ∧ refuseIf c = .ok ()) := by
  by_cases h : c
  · left; exact ⟨h, by unfold refuseIf; rw [if_pos h]⟩
  · right; exact ⟨h, by unfold refuseIf; rw [if_neg h]⟩

/-- When `dims` works and when it refuses; it does nothing else. -/
theorem dims_cases {b : Box} {c : Comp} (hx : 0 < c.dx ∧ c.dx ≤ 255) (hy : 0 < c.dy ∧ c.dy ≤ 255) (hr : c.factor ≤ 32)
    (hb : b.x0 < 2 ^ 31 ∧ b.y0 < 2 ^ 31 ∧ b.x1 < 2 ^ 31 ∧ b.y1 < 2 ^ 31) :
    ((∃ c', dims b c = .ok c') ∧ cdiv (cdiv b.x0 c.dx) (2 ^ c.factor) ≤ cdiv (cdiv b.x1 c.dx) (2 ^ c.factor) ∧
      cdiv (cdiv b.y0 c.dy) (2 ^ c.factor) ≤ cdiv (cdiv b.y1 c.dy) (2 ^ c.factor)) ∨
    (dims b c = .error .refused ∧ ¬ (cdiv (cdiv b.x0 c.dx) (2 ^ c.factor) ≤ cdiv (cdiv b.x1 c.dx) (2 ^ c.factor) ∧
      cdiv (cdiv b.y0 c.dy) (2 ^ c.factor) ≤ cdiv (cdiv b.y1 c.dy) (2 ^ c.factor))) := by
  unfold dims
  rw [Hdr.refuse_bind (by omega)]
  obtain ⟨qx, X0, x1, x2, x6, x7, x9, x8, xs⟩ := axis_step (α := Comp) (b0 := b.x0) (b1 := b.x1) (d := c.dx) (r := c.factor) hb.1 hb.2.2.1 hx.1 hx.2 hr
  obtain ⟨qy, Y0, y1, y2, y6, y7, y9, y8, ys⟩ := axis_step (α := Comp) (b0 := b.y0) (b1 := b.y1) (d := c.dy) (r := c.factor) hb.2.1 hb.2.2.2 hy.1 hy.2 hr
  rw [x1, y1, x2, y2]
  rw [opt_some, ok_bind, opt_some, ok_bind, opt_some, ok_bind, opt_some, ok_bind, xs]
  rcases refuse_cases (cdiv (cdiv (b.x1 : Int) c.dx) (2 ^ c.factor) - X0 < 0) with ⟨h1, h2⟩ | ⟨h1, h2⟩
  · right
    rw [h2]
    exact ⟨rfl, by omega⟩
  · rw [h2, ok_bind, ys]
    rcases refuse_cases (cdiv (cdiv (b.y1 : Int) c.dy) (2 ^ c.factor) - Y0 < 0) with ⟨h3, h4⟩ | ⟨h3, h4⟩
    · right
      rw [h4]
      exact ⟨rfl, by omega⟩
    · left
      rw [h4]
      exact ⟨⟨_, rfl⟩, by omega, by omega⟩

/-! ## One side -/

theorem areaStart_cases {s : Int} {i0 i1 g td : Nat} (hs : s < 2 ^ 31) (hg : g ≤ i0) (ht : i0 < g + td) (hi : i0 < i1) :
    (0 ≤ s ∧ s ≤ i1 ∧ ∃ k v : Nat, areaStart s i0 i1 g td = .ok (k, v) ∧ (v : Int) = max s i0 ∧ ∀ col, k ≤ col ↔ v < g + (col + 1) * td) ∨
    (¬ (0 ≤ s ∧ s ≤ i1) ∧ areaStart s i0 i1 g td = .error .refused) := by
  unfold areaStart
  rcases refuse_cases (s < 0) with ⟨h1, h2⟩ | ⟨h1, h2⟩
  · right; rw [h2]; exact ⟨by omega, rfl⟩
  rw [h2, ok_bind, u32_of (by omega) (by omega)]
  rcases refuse_cases (i1 < s.toNat) with ⟨h3, h4⟩ | ⟨h3, h4⟩
  · right; rw [h4]; exact ⟨by omega, rfl⟩
  left
  rw [h4, ok_bind]
  refine ⟨by omega, by omega, ?_⟩
  by_cases hc : s.toNat < i0
  · rw [if_pos hc]
    refine ⟨_, _, rfl, by omega, ?_⟩
    intro col
    rw [Nat.add_mul]
    simp only [Nat.zero_le, true_iff]
    have : 0 ≤ col * td := Nat.zero_le _
    omega
  · rw [if_neg hc, if_neg (by omega), sub_of (by omega) (by omega)]
    refine ⟨_, _, rfl, by omega, ?_⟩
    intro col
    rw [← Nat.lt_succ_iff, Nat.div_lt_iff_lt_mul (by omega)]
    simp only [Nat.succ_eq_add_one]
    omega

theorem areaEnd_cases {e : Int} {i0 i1 g td t : Nat} (he : e < 2 ^ 31) (hg : g ≤ i0) (ht : i0 < g + td) (hi : i0 < i1) (hi1 : i1 < 2 ^ 31)
    (htd : td < 2 ^ 32) (htw : t = (i1 - g + td - 1) / td) :
    (0 < e ∧ i0 ≤ e ∧ ∃ k v : Nat, areaEnd e i0 i1 g td t = .ok (k, v) ∧ (v : Int) = min e i1 ∧ ∀ col, col < k ↔ g + col * td < v) ∨
    (¬ (0 < e ∧ i0 ≤ e) ∧ areaEnd e i0 i1 g td t = .error .refused) := by
  have key : ∀ n : Nat, g ≤ n → ∀ col, col < (n - g + td - 1) / td ↔ g + col * td < n := by
    intro n hn col
    rw [← Nat.succ_le_iff, Nat.le_div_iff_mul_le (by omega), Nat.succ_eq_add_one, Nat.add_mul]
    omega
  unfold areaEnd
  rcases refuse_cases (e ≤ 0) with ⟨h1, h2⟩ | ⟨h1, h2⟩
  · right; rw [h2]; exact ⟨by omega, rfl⟩
  rw [h2, ok_bind, u32_of (by omega) (by omega)]
  rcases refuse_cases (e.toNat < i0) with ⟨h3, h4⟩ | ⟨h3, h4⟩
  · right; rw [h4]; exact ⟨by omega, rfl⟩
  left
  rw [h4, ok_bind]
  refine ⟨by omega, by omega, ?_⟩
  by_cases hc : i1 < e.toNat
  · rw [if_pos hc]
    refine ⟨_, _, rfl, by omega, ?_⟩
    intro col
    rw [htw]
    exact key i1 (by omega) col
  · rw [if_neg hc, if_neg (by omega)]
    obtain ⟨q, q1, q2⟩ := uceil (a := e.toNat - g) (d := td) (by omega) (by omega) htd
    rw [q1, opt_some, ok_bind]
    refine ⟨_, _, rfl, by omega, ?_⟩
    intro col
    have e1 : (col : Int) < q ↔ (col : Int) * td < ((e.toNat - g : Nat) : Int) := by rw [q2, Tcd.lt_cdiv (by omega)]
    have e2 : ((col * td : Nat) : Int) = (col : Int) * td := by push_cast; rfl
    constructor
    · intro h; have := e1.1 (by omega); rw [← e2] at this; omega
    · intro h; have := e1.2 (by rw [← e2]; omega); omega

/-! ## The area -/

/-- An `i32`. -/
def I32 (x : Int) : Prop := -2 ^ 31 ≤ x ∧ x < 2 ^ 31

/-- The components of the image have the steps of those of the codestream, and no samples. -/
structure Fresh (d : Dec) (cs : List Comp) : Prop where
  len : cs.length = d.p.comps.length
  step : ∀ (i : Nat) (c : CompP) (c0 : Comp), d.p.comps[i]? = some c → cs[i]? = some c0 → c0.dx = c.dx ∧ c0.dy = c.dy
  none : ∀ c ∈ cs, c.data = none

/-- The window holds the columns and rows of tiles that reach into the area. -/
structure WinOk (d : Dec) (w : Tp.Window) (b : Box) : Prop where
  x0 : ∀ col, col < d.p.tw → (w.x0 ≤ col ↔ b.x0 < d.p.cpTx0 + (col + 1) * d.p.tdx)
  x1 : ∀ col, col < d.p.tw → (col < w.x1 ↔ d.p.cpTx0 + col * d.p.tdx < b.x1)
  y0 : ∀ row, row < d.th → (w.y0 ≤ row ↔ b.y0 < d.p.cpTy0 + (row + 1) * d.p.tdy)
  y1 : ∀ row, row < d.th → (row < w.y1 ↔ d.p.cpTy0 + row * d.p.tdy < b.y1)

theorem mem_getE {α : Type} {l : List α} {a : α} (h : a ∈ l) : ∃ i : Nat, l[i]? = some a := List.getElem?_of_mem h

theorem Known.comp {d : Dec} (hk : Known d) {c : CompP} (hc : c ∈ d.p.comps) : CompFit c ∧ d.reduce ≤ 32 := by
  have g1 := hk.grid.x
  have g2 := hk.grid.y
  have htw : 0 < d.p.tw := by
    rw [hk.grid.tw]; exact Nat.div_pos (by omega) (by omega)
  have hth : 0 < d.th := by
    rw [hk.grid.th]; exact Nat.div_pos (by omega) (by omega)
  have f := (hk.fit 0 (Nat.mul_pos htw hth)).comps c hc
  have := hk.red c hc
  have := f.res.2
  exact ⟨f, by omega⟩

theorem Known.pos {d : Dec} (hk : Known d) : 0 < d.p.tw ∧ 0 < d.th ∧ 0 < d.p.tdx ∧ 0 < d.p.tdy ∧ d.p.tdx < 2 ^ 32 ∧ d.p.tdy < 2 ^ 32 := by
  have g1 := hk.grid.x
  have g2 := hk.grid.y
  have htw : 0 < d.p.tw := by
    rw [hk.grid.tw]; exact Nat.div_pos (by omega) (by omega)
  have hth : 0 < d.th := by
    rw [hk.grid.th]; exact Nat.div_pos (by omega) (by omega)
  have f := hk.fit 0 (Nat.mul_pos htw hth)
  exact ⟨htw, hth, by omega, by omega, f.tdx, f.tdy⟩

/-- Sizes for an area. -/
theorem allDims_ok {d : Dec} (hk : Known d) {cs : List Comp} (hf : Fresh d cs) {b : Box} {cs' : List Comp}
    (h : allDims b (cs.map fun c => { c with factor := d.reduce }) = .ok cs') :
    cs'.length = cs.length ∧ ∀ (i : Nat) (c : CompP) (c' : Comp), d.p.comps[i]? = some c → cs'[i]? = some c' →
      c'.dx = c.dx ∧ c'.dy = c.dy ∧ c'.data = none ∧ ∃ X0 Y0, Dest b d.reduce c' X0 Y0 := by
  obtain ⟨h1, h2⟩ := mapM_inv _ _ h
  rw [List.length_map] at h1
  refine ⟨h1, ?_⟩
  intro i c c' hc hc'
  obtain ⟨c0, h0⟩ := getE' h1 hc'
  have h3 := h2 i { c0 with factor := d.reduce } c' (by rw [List.getElem?_map, h0]; rfl) hc'
  obtain ⟨e1, e2⟩ := hf.step i c c0 hc h0
  obtain ⟨cf, hr⟩ := hk.comp (List.mem_of_getElem? hc)
  obtain ⟨-, k2, k3⟩ := dims_dest h3 (by have := cf.dx; rw [← e1] at this; exact this) (by have := cf.dy; rw [← e2] at this; exact this) hr
  refine ⟨?_, ?_, ?_, k3⟩
  · rw [k2]; exact e1
  · rw [k2]; exact e2
  · rw [k2]; exact hf.none c0 (List.mem_of_getElem? h0)

/-- The area and the window `setArea` works with, all in the limits of the image. -/
theorem setArea_inv {d : Dec} (hk : Known d) {cs : List Comp} {sx sy ex ey : Int} (i1 : I32 sx) (i2 : I32 sy) (i3 : I32 ex) (i4 : I32 ey)
    {w : Tp.Window} {b : Box} {cs' : List Comp} (h : setArea d cs sx sy ex ey = .ok (w, b, cs')) :
    WinOk d w b ∧ allDims b (cs.map fun c => { c with factor := d.reduce }) = .ok cs' ∧
      (if sx = 0 ∧ sy = 0 ∧ ex = 0 ∧ ey = 0 then b = ⟨d.p.x0, d.p.y0, d.p.x1, d.p.y1⟩ ∧ w = ⟨0, d.p.tw, 0, d.th⟩ else
        (0 ≤ sx ∧ sx ≤ d.p.x1) ∧ (0 ≤ sy ∧ sy ≤ d.p.y1) ∧ (0 < ex ∧ d.p.x0 ≤ ex) ∧ (0 < ey ∧ d.p.y0 ≤ ey) ∧
        (b.x0 : Int) = max sx d.p.x0 ∧ (b.y0 : Int) = max sy d.p.y0 ∧ (b.x1 : Int) = min ex d.p.x1 ∧ (b.y1 : Int) = min ey d.p.y1) := by
  obtain ⟨p1, p2, p3, p4, p5, p6⟩ := hk.pos
  have gx := hk.grid.x
  have gy := hk.grid.y
  have sm1 := hk.small.x1
  have sm2 := hk.small.y1
  unfold setArea at h
  simp only at h
  by_cases hz : sx = 0 ∧ sy = 0 ∧ ex = 0 ∧ ey = 0
  · rw [if_pos hz] at h
    obtain ⟨a, h1, h⟩ := Hdr.bind_ok h
    have e := Except.ok.inj h
    simp only [Prod.mk.injEq] at e
    obtain ⟨rfl, rfl, rfl⟩ := e
    rw [if_pos hz]
    refine ⟨⟨?_, ?_, ?_, ?_⟩, h1, rfl, rfl⟩
    · intro col _
      rw [Nat.add_mul]
      simp only [Nat.zero_le, true_iff]
      have : 0 ≤ col * d.p.tdx := Nat.zero_le _
      omega
    · intro col hcol
      simp only [hcol, true_iff]
      rw [hk.grid.tw, ← Nat.succ_le_iff, Nat.le_div_iff_mul_le (by omega), Nat.succ_eq_add_one, Nat.add_mul] at hcol
      omega
    · intro col _
      rw [Nat.add_mul]
      simp only [Nat.zero_le, true_iff]
      have : 0 ≤ col * d.p.tdy := Nat.zero_le _
      omega
    · intro col hcol
      simp only [hcol, true_iff]
      rw [hk.grid.th, ← Nat.succ_le_iff, Nat.le_div_iff_mul_le (by omega), Nat.succ_eq_add_one, Nat.add_mul] at hcol
      omega
  · rw [if_neg hz] at h
    rw [if_neg hz]
    rcases areaStart_cases (s := sx) (i0 := d.p.x0) (i1 := d.p.x1) (g := d.p.cpTx0) (td := d.p.tdx) i1.2 gx.1 gx.2.1 gx.2.2 with ⟨a1, a2, k1, v1, a3, a4, a5⟩ | ⟨-, a⟩
    swap
    · rw [a] at h; exact absurd h (by intro hh; cases hh)
    rcases areaStart_cases (s := sy) (i0 := d.p.y0) (i1 := d.p.y1) (g := d.p.cpTy0) (td := d.p.tdy) i2.2 gy.1 gy.2.1 gy.2.2 with ⟨b1, b2, k2, v2, b3, b4, b5⟩ | ⟨-, a⟩
    swap
    · rw [a3, a] at h; exact absurd h (by intro hh; cases hh)
    rcases areaEnd_cases (e := ex) (i0 := d.p.x0) (i1 := d.p.x1) (g := d.p.cpTx0) (td := d.p.tdx) (t := d.p.tw) i3.2 gx.1 gx.2.1 gx.2.2 (by omega) p5 hk.grid.tw with ⟨c1, c2, k3, v3, c3, c4, c5⟩ | ⟨-, a⟩
    swap
    · rw [a3, b3, a] at h; exact absurd h (by intro hh; cases hh)
    rcases areaEnd_cases (e := ey) (i0 := d.p.y0) (i1 := d.p.y1) (g := d.p.cpTy0) (td := d.p.tdy) (t := d.th) i4.2 gy.1 gy.2.1 gy.2.2 (by omega) p6 hk.grid.th with ⟨d1, d2, k4, v4, d3, d4, d5⟩ | ⟨-, a⟩
    swap
    · rw [a3, b3, c3, a] at h; exact absurd h (by intro hh; cases hh)
    rw [a3, b3, c3, d3] at h
    simp only [ok_bind] at h
    obtain ⟨a, h1, h⟩ := Hdr.bind_ok h
    have e := Except.ok.inj h
    simp only [Prod.mk.injEq] at e
    obtain ⟨rfl, rfl, rfl⟩ := e
    exact ⟨⟨fun col _ => a5 col, fun col _ => c5 col, fun col _ => b5 col, fun col _ => d5 col⟩, h1, ⟨a1, a2⟩, ⟨b1, b2⟩, ⟨c1, c2⟩, ⟨d1, d2⟩, a4, b4, c4, d4⟩

end Jp2.Area

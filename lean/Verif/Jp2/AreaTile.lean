import Verif.Jp2.AreaCopy
import Verif.Jp2.TcdProps
import Verif.Jp2.HdrMore
/-!
# Which samples a tile delivers
-/
namespace Jp2.Area
open Jp2.Hdr (R Fail refuseIf)
open Jp2.Setup (u32)
open Jp2.Tcd (asI32 Rect cdiv RectOk CompFit CompP compRect compOf)

theorem cdp_nat {a b : Nat} (ha : a < 2 ^ 32) (hb : b ≤ 32) : ∃ q : Nat, Math.uintCeildivpow2 a b = some q ∧ (q : Int) = cdiv a (2 ^ b) := by
  have hp : 2 ^ b ≤ 2 ^ 32 := Nat.pow_le_pow_right (by omega) hb
  have hpos := Nat.two_pow_pos b
  refine ⟨(a + 2 ^ b - 1) / 2 ^ b, ?_, ?_⟩
  · unfold Math.uintCeildivpow2
    rw [if_pos (by omega)]
    have e : ((a + 2 ^ b) % 2 ^ 64 + (2 ^ 64 - 1)) % 2 ^ 64 = a + 2 ^ b - 1 := by omega
    rw [e, Nat.shiftRight_eq_div_pow, Nat.mod_eq_of_lt]
    rw [Nat.div_lt_iff_lt_mul hpos]
    have h1 : a + 2 ^ b - 1 < 2 ^ 32 - 1 + 2 ^ b := by omega
    have h2 : 2 ^ 32 - 1 + 2 ^ b ≤ 2 ^ 32 * 2 ^ b := by
      obtain ⟨k, hk⟩ : ∃ k, 2 ^ b = k + 1 := ⟨2 ^ b - 1, by omega⟩
      rw [hk]; omega
    omega
  · unfold cdiv
    rw [Int.natCast_ediv]
    congr 1
    · push_cast [Nat.cast_sub (show 1 ≤ a + 2 ^ b by omega)]
      ring

theorem uceil {a d : Nat} (ha : a < 2 ^ 32) (hd : 0 < d) (hd' : d < 2 ^ 32) :
    ∃ q : Nat, Math.uintCeildiv a d = some q ∧ (q : Int) = cdiv a d := by
  obtain ⟨q, h1, h2⟩ := Math.C26_uint_ceildiv a d ha hd' (by omega)
  exact ⟨q, h1, Tcd.ceil_eq (by omega) h2⟩

theorem iceil {a d : Nat} (ha : a < 2 ^ 31) (hd : 0 < d) (hd' : d < 2 ^ 31) :
    Math.intCeildiv (asI32 a) (asI32 d) = some (cdiv a d) := by
  rw [Tcd.asI32_ok ha, Tcd.asI32_ok hd']
  obtain ⟨q, h1, h2⟩ := Math.C26_int_ceildiv a d ⟨by omega, by omega⟩ ⟨by omega, by omega⟩ (by omega) (by omega)
  rw [h1, Tcd.ceil_eq (by omega) h2]

theorem cdiv_bound {a : Int} {d : Int} (h0 : 0 ≤ a) (h1 : a < 2 ^ 31) (hd : 0 < d) : 0 ≤ cdiv a d ∧ cdiv a d < 2 ^ 31 :=
  ⟨Tcd.cdiv_nonneg hd h0, lt_of_le_of_lt (Tcd.cdiv_le_self hd h0) h1⟩

theorem refuse_inv {c : Prop} [Decidable c] {u : Unit} (h : refuseIf c = .ok u) : ¬ c := by
  intro hc
  unfold refuseIf at h
  rw [if_pos hc] at h
  exact absurd h (by simp)

/-! ## The component in the image -/

/-- The component covers the area, reduced by `2^r`; its first sample is `(X0, Y0)`. -/
structure Dest (b : Box) (r : Nat) (c : Comp) (X0 Y0 : Nat) : Prop where
  place : Place c X0 Y0
  x0 : (X0 : Int) = cdiv (cdiv b.x0 c.dx) (2 ^ r)
  x1 : ((X0 + c.w : Nat) : Int) = cdiv (cdiv b.x1 c.dx) (2 ^ r)
  y0 : (Y0 : Int) = cdiv (cdiv b.y0 c.dy) (2 ^ r)
  y1 : ((Y0 + c.h : Nat) : Int) = cdiv (cdiv b.y1 c.dy) (2 ^ r)

/-- One axis of `dims`. -/
theorem axis_dims {b0 b1 d r : Nat} (h0 : b0 < 2 ^ 31) (h1 : b1 < 2 ^ 31) (hd : 0 < d) (hd' : d ≤ 255) (hr : r ≤ 32) :
    ∃ q X0 : Nat, Math.uintCeildiv b0 d = some q ∧ Math.intCeildiv (asI32 b1) (asI32 d) = some (cdiv b1 d) ∧
      Math.intCeildivpow2 (cdiv b1 d) (asI32 r) = some (cdiv (cdiv b1 d) (2 ^ r)) ∧
      Math.intCeildivpow2 (asI32 q) (asI32 r) = some (X0 : Int) ∧ (q : Int) = cdiv b0 d ∧
      Math.uintCeildivpow2 q r = some X0 ∧ (X0 : Int) = cdiv (cdiv b0 d) (2 ^ r) ∧
      (0 ≤ cdiv (cdiv (b1 : Int) d) (2 ^ r) ∧ cdiv (cdiv (b1 : Int) d) (2 ^ r) < 2 ^ 31) ∧ X0 < 2 ^ 31 := by
  have hp := Tcd.p2pos r
  obtain ⟨q, e1, e2⟩ := uceil (a := b0) (d := d) (by omega) hd (by omega)
  obtain ⟨k1, k2⟩ := cdiv_bound (a := (b0 : Int)) (d := d) (by omega) (by omega) (by omega)
  obtain ⟨k3, k4⟩ := cdiv_bound (a := (b1 : Int)) (d := d) (by omega) (by omega) (by omega)
  obtain ⟨X0, e3, e4⟩ := cdp_nat (a := q) (b := r) (by omega) hr
  have ex : (X0 : Int) = cdiv (cdiv b0 d) (2 ^ r) := by rw [e4, e2]
  obtain ⟨k5, k6⟩ := cdiv_bound (a := cdiv (b0 : Int) d) (d := 2 ^ r) k1 k2 hp
  refine ⟨q, X0, e1, iceil h1 hd (by omega), ?_, ?_, e2, e3, ex, cdiv_bound k3 k4 hp, by omega⟩
  · rw [Tcd.asI32_ok (by omega)]
    exact Tcd.cdp_ok ⟨by omega, by omega⟩ (by omega)
  · rw [Tcd.asI32_ok (by omega), Tcd.asI32_ok (by omega), Tcd.cdp_ok ⟨by omega, by omega⟩ (by omega), e4]

theorem u32_sub {a b : Int} (h : 0 ≤ a - b) (h' : a - b < 2 ^ 31) : ((u32 (a - b) : Nat) : Int) = a - b := by
  rw [u32_of h (by omega)]; omega

theorem opt_some {α : Type} (a : α) : opt (some a) = .ok a := rfl

/-- One axis of `dims`, with its check. -/
theorem axis_step {α : Type} {b0 b1 d r : Nat} (h0 : b0 < 2 ^ 31) (h1 : b1 < 2 ^ 31) (hd : 0 < d) (hd' : d ≤ 255) (hr : r ≤ 32) :
    ∃ q X0 : Nat, Math.uintCeildiv b0 d = some q ∧ Math.intCeildiv (asI32 b1) (asI32 d) = some (cdiv b1 d) ∧
      Math.uintCeildivpow2 q r = some X0 ∧ (X0 : Int) = cdiv (cdiv b0 d) (2 ^ r) ∧ X0 < 2 ^ 31 ∧
      (0 ≤ cdiv (cdiv (b1 : Int) d) (2 ^ r) ∧ cdiv (cdiv (b1 : Int) d) (2 ^ r) < 2 ^ 31) ∧
      ∀ f : Int → R α, (do
        let e ← opt (Math.intCeildivpow2 (cdiv b1 d) (asI32 r))
        let s ← opt (Math.intCeildivpow2 (asI32 q) (asI32 r))
        let w ← i32 (e - s)
        f w) = f (cdiv (cdiv (b1 : Int) d) (2 ^ r) - X0) := by
  obtain ⟨q, X0, x1, x2, x3, x4, x5, x6, x7, x8, x9⟩ := axis_dims h0 h1 hd hd' hr
  refine ⟨q, X0, x1, x2, x6, x7, x9, x8, fun f => ?_⟩
  rw [x3, x4]
  show (i32 _ >>= f) = _
  rw [i32_of, ok_bind]
  · clear x2 x3 x4; omega
  · clear x2 x3 x4; omega

theorem dims_dest {b : Box} {c c' : Comp} (h : dims b c = .ok c') (hx : 0 < c.dx ∧ c.dx ≤ 255) (hy : 0 < c.dy ∧ c.dy ≤ 255)
    (hr : c.factor ≤ 32) :
    (b.x0 < 2 ^ 31 ∧ b.y0 < 2 ^ 31 ∧ b.x1 < 2 ^ 31 ∧ b.y1 < 2 ^ 31) ∧
    c' = { c with x0 := c'.x0, y0 := c'.y0, w := c'.w, h := c'.h } ∧ ∃ X0 Y0, Dest b c.factor c' X0 Y0 := by
  unfold dims at h
  obtain ⟨u, hu, h⟩ := Hdr.bind_ok h
  have hb := refuse_inv hu
  have hb' : b.x0 < 2 ^ 31 ∧ b.y0 < 2 ^ 31 ∧ b.x1 < 2 ^ 31 ∧ b.y1 < 2 ^ 31 := by clear h; omega
  obtain ⟨qx, X0, x1, x2, x6, x7, x9, x8, xs⟩ := axis_step (α := Comp) (b0 := b.x0) (b1 := b.x1) (d := c.dx) (r := c.factor) hb'.1 hb'.2.2.1 hx.1 hx.2 hr
  obtain ⟨qy, Y0, y1, y2, y6, y7, y9, y8, ys⟩ := axis_step (α := Comp) (b0 := b.y0) (b1 := b.y1) (d := c.dy) (r := c.factor) hb'.2.1 hb'.2.2.2 hy.1 hy.2 hr
  rw [x1, y1, x2, y2] at h
  rw [opt_some, ok_bind, opt_some, ok_bind, opt_some, ok_bind, opt_some, ok_bind, xs] at h
  obtain ⟨u, hu, h⟩ := Hdr.bind_ok h
  have hw := refuse_inv hu
  rw [ys] at h
  obtain ⟨u, hu, h⟩ := Hdr.bind_ok h
  have hh := refuse_inv hu
  clear x2 y2 xs ys x1 y1
  have e := Except.ok.inj h
  clear h
  subst e
  have ew := u32_sub (a := cdiv (cdiv (b.x1 : Int) c.dx) (2 ^ c.factor)) (b := X0) (by omega) (by omega)
  have eh := u32_sub (a := cdiv (cdiv (b.y1 : Int) c.dy) (2 ^ c.factor)) (b := Y0) (by omega) (by omega)
  refine ⟨hb', rfl, X0, Y0, ⟨x6, y6, ?_, ?_⟩, x7, ?_, y7, ?_⟩ <;> simp only <;> omega

/-! ## The tile -/

/-- The tile touches the area. -/
structure Meets (T : Rect) (b : Box) : Prop where
  x0 : (b.x0 : Int) ≤ T.x1
  x1 : T.x0 ≤ b.x1
  y0 : (b.y0 : Int) ≤ T.y1
  y1 : T.y0 ≤ b.y1

/-- One axis of what a tile-component delivers: at least what it has of the area, at most all it has. -/
structure AxisOk (t0 t1 B0 B1 r0 r1 : Int) (red : Nat) : Prop where
  ex : ∃ m0 m1, r0 = cdiv m0 (2 ^ red) ∧ r1 = cdiv m1 (2 ^ red) ∧ t0 ≤ m0 ∧ m0 ≤ max t0 B0 ∧ min t1 B1 ≤ m1 ∧ m1 ≤ t1 ∧ m0 ≤ m1

theorem minRes_of {n r : Nat} (h : r < n) : minRes n r = n - r := by unfold minRes; rw [if_neg (by omega)]

theorem winAxis_ok {t0 t1 : Int} {b0 b1 d : Nat} (h0 : 0 ≤ t0) (h1 : t0 ≤ t1) (h2 : t1 < 2 ^ 31) (hb0 : b0 < 2 ^ 31) (hb1 : b1 < 2 ^ 31)
    (hd : 0 < d) (hd' : d ≤ 255) :
    ∃ a e : Nat, winAxis t0 t1 b0 b1 d = .ok (a, e) ∧ (a : Int) = max t0 (cdiv b0 d) ∧ (e : Int) = min t1 (cdiv b1 d) := by
  obtain ⟨q, e1, e2⟩ := uceil (a := b0) (d := d) (by omega) hd (by omega)
  obtain ⟨q', e3, e4⟩ := uceil (a := b1) (d := d) (by omega) hd (by omega)
  unfold winAxis
  rw [e1, e3]
  simp only [opt, ok_bind]
  refine ⟨_, _, rfl, ?_, ?_⟩
  · unfold Math.uintMax
    rw [u32_of h0 (by omega), ← e2]
    split <;> omega
  · unfold Math.uintMin
    rw [u32_of (by omega) (by omega), ← e4]
    split <;> omega

theorem wholeComp_ok (d : Dec) (b : Box) {c : CompP} (t : Tcd.TileC) (hc : CompFit c) : ∃ w, wholeComp d b c t = .ok w := by
  have d1 := hc.dx.1
  have d2 := hc.dy.1
  have key : ∀ t0 t1 b0 b1 q, 0 < q → ∃ a e, winAxis t0 t1 b0 b1 q = .ok (a, e) := by
    intro t0 t1 b0 b1 q hq
    unfold winAxis Math.uintCeildiv
    rw [if_pos (by omega), if_pos (by omega)]
    exact ⟨_, _, rfl⟩
  obtain ⟨a, e, h1⟩ := key t.rect.x0 t.rect.x1 b.x0 b.x1 c.dx d1
  obtain ⟨a', e', h2⟩ := key t.rect.y0 t.rect.y1 b.y0 b.y1 c.dy d2
  unfold wholeComp
  rw [h1, ok_bind]
  simp only
  rw [h2, ok_bind]
  exact ⟨_, rfl⟩

theorem wholeTile_ok (d : Dec) (b : Box) (used : Nat → Bool) : ∀ (l : List (CompP × Tcd.TileC)) (i : Nat),
    (∀ x ∈ l, CompFit x.1) → ∃ w, wholeTile d b used i l = .ok w
  | [], i, _ => ⟨true, rfl⟩
  | (c, t) :: rest, i, h => by
    obtain ⟨w, hw⟩ := wholeComp_ok d b t (h (c, t) (by simp))
    obtain ⟨w', hw'⟩ := wholeTile_ok d b used rest (i + 1) (fun x hx => h x (by simp [hx]))
    unfold wholeTile
    cases used i
    · exact ⟨w', hw'⟩
    · rw [if_pos rfl, hw, ok_bind]
      cases w
      · exact ⟨false, rfl⟩
      · exact ⟨w', hw'⟩

theorem srcRect_ok {d : Dec} {b : Box} {whole : Bool} {c : CompP} {T : Rect} (ht : RectOk T) (hm : Meets T b) (hc : CompFit c)
    (hr : d.reduce < c.prc.length) (hb : b.x0 ≤ b.x1 ∧ b.x1 < 2 ^ 31 ∧ b.y0 ≤ b.y1 ∧ b.y1 < 2 ^ 31) :
    ∃ r, srcRect d b whole c (compOf false T c) = .ok r ∧ RectOk r ∧
      AxisOk (compRect T c).x0 (compRect T c).x1 (cdiv b.x0 c.dx) (cdiv b.x1 c.dx) r.x0 r.x1 d.reduce ∧
      AxisOk (compRect T c).y0 (compRect T c).y1 (cdiv b.y0 c.dy) (cdiv b.y1 c.dy) r.y0 r.y1 d.reduce := by
  have co := Tcd.compRect_ok ht hc
  have hp := Tcd.p2pos d.reduce
  obtain ⟨dx0, dx1⟩ := hc.dx
  obtain ⟨dy0, dy1⟩ := hc.dy
  obtain ⟨re0, re1⟩ := hc.res
  obtain ⟨hb0, hb1, hb2, hb3⟩ := hb
  have c0 := co.x0
  have c1 := co.x
  have c2 := co.x1
  have c3 := co.y0
  have c4 := co.y
  have c5 := co.y1
  have emin : minRes c.prc.length d.reduce = c.prc.length - d.reduce := minRes_of hr
  have eres : sub (minRes c.prc.length d.reduce) 1 = c.prc.length - 1 - d.reduce := by
    rw [emin, sub_of (by omega) (by omega)]; omega
  unfold srcRect
  simp only
  rw [eres]
  cases whole
  · rw [if_neg (by simp)]
    obtain ⟨x0, x1, ex, ex0, ex1⟩ := winAxis_ok (b0 := b.x0) (b1 := b.x1) (d := c.dx) c0 c1 c2 (by omega) hb1 dx0 dx1
    obtain ⟨y0, y1, ey, ey0, ey1⟩ := winAxis_ok (b0 := b.y0) (b1 := b.y1) (d := c.dy) c3 c4 c5 (by omega) hb3 dy0 dy1
    have mx : x0 ≤ x1 := by
      have k1 : cdiv (b.x0 : Int) c.dx ≤ (compRect T c).x1 := Tcd.cdiv_mono (by omega) hm.x0
      have k2 : (compRect T c).x0 ≤ cdiv (b.x1 : Int) c.dx := Tcd.cdiv_mono (by omega) hm.x1
      have k3 : cdiv (b.x0 : Int) c.dx ≤ cdiv (b.x1 : Int) c.dx := Tcd.cdiv_mono (by omega) (by omega)
      omega
    have my : y0 ≤ y1 := by
      have k1 : cdiv (b.y0 : Int) c.dy ≤ (compRect T c).y1 := Tcd.cdiv_mono (by omega) hm.y0
      have k2 : (compRect T c).y0 ≤ cdiv (b.y1 : Int) c.dy := Tcd.cdiv_mono (by omega) hm.y1
      have k3 : cdiv (b.y0 : Int) c.dy ≤ cdiv (b.y1 : Int) c.dy := Tcd.cdiv_mono (by omega) (by omega)
      omega
    change ∃ r, (winAxis (compRect T c).x0 (compRect T c).x1 b.x0 b.x1 c.dx >>= _) = _ ∧ _
    rw [ex, ok_bind]
    simp only
    change ∃ r, (winAxis (compRect T c).y0 (compRect T c).y1 b.y0 b.y1 c.dy >>= _) = _ ∧ _
    rw [ey, ok_bind]
    simp only
    rw [Hdr.refuse_bind (by omega), if_neg (by omega), sub_of (a := c.prc.length) (by omega) (by omega), sub_of (by omega) (by omega),
      show c.prc.length - 1 - (c.prc.length - 1 - d.reduce) = d.reduce by omega]
    obtain ⟨X0, f0, g0⟩ := cdp_nat (a := x0) (b := d.reduce) (by omega) (by omega)
    obtain ⟨X1, f1, g1⟩ := cdp_nat (a := x1) (b := d.reduce) (by omega) (by omega)
    obtain ⟨Y0, f2, g2⟩ := cdp_nat (a := y0) (b := d.reduce) (by omega) (by omega)
    obtain ⟨Y1, f3, g3⟩ := cdp_nat (a := y1) (b := d.reduce) (by omega) (by omega)
    rw [f0, f1, f2, f3]
    simp only [opt, ok_bind]
    have b1 := cdiv_bound (a := (x1 : Int)) (d := 2 ^ d.reduce) (by omega) (by omega) hp
    have b3 := cdiv_bound (a := (y1 : Int)) (d := 2 ^ d.reduce) (by omega) (by omega) hp
    have mX : cdiv (x0 : Int) (2 ^ d.reduce) ≤ cdiv (x1 : Int) (2 ^ d.reduce) := Tcd.cdiv_mono hp (by omega)
    have mY : cdiv (y0 : Int) (2 ^ d.reduce) ≤ cdiv (y1 : Int) (2 ^ d.reduce) := Tcd.cdiv_mono hp (by omega)
    refine ⟨_, rfl, ?_⟩
    simp only
    rw [Tcd.asI32_ok (n := X0) (by omega), Tcd.asI32_ok (n := X1) (by omega), Tcd.asI32_ok (n := Y0) (by omega), Tcd.asI32_ok (n := Y1) (by omega)]
    refine ⟨⟨?_, ?_, ?_, ?_, ?_, ?_⟩, ⟨x0, x1, g0, g1, ?_, ?_, ?_, ?_, ?_⟩, ⟨y0, y1, g2, g3, ?_, ?_, ?_, ?_, ?_⟩⟩ <;> (try simp only) <;> omega
  · rw [if_pos rfl]
    obtain ⟨pd, hpd⟩ : ∃ pd, c.prc[c.prc.length - 1 - d.reduce]? = some pd := ⟨_, List.getElem?_eq_getElem (by omega)⟩
    have hg : (compOf false T c).ress[c.prc.length - 1 - d.reduce]? =
        some (Tcd.resOf false c (compRect T c) (c.prc.length - 1 - d.reduce) d.reduce pd) := by
      change (Tcd.ressOf false c (compRect T c) 0 c.prc)[_]? = _
      rw [Tcd.ressOf_get]
      refine ⟨pd, hpd, ?_⟩
      rw [Nat.zero_add, show c.prc.length - 1 - (c.prc.length - 1 - d.reduce) = d.reduce by omega]
    rw [hg]
    refine ⟨_, rfl, ?_⟩
    change RectOk (Tcd.resRect (compRect T c) d.reduce) ∧ _
    have b1 := cdiv_bound (a := (compRect T c).x1) (d := 2 ^ d.reduce) (by omega) (by omega) hp
    have b3 := cdiv_bound (a := (compRect T c).y1) (d := 2 ^ d.reduce) (by omega) (by omega) hp
    exact ⟨⟨Tcd.cdiv_nonneg hp c0, Tcd.cdiv_mono hp c1, b1.2, Tcd.cdiv_nonneg hp c3, Tcd.cdiv_mono hp c4, b3.2⟩,
      ⟨_, _, rfl, rfl, le_rfl, le_max_left _ _, min_le_left _ _, le_rfl, c1⟩,
      ⟨_, _, rfl, rfl, le_rfl, le_max_left _ _, min_le_left _ _, le_rfl, c4⟩⟩

/-- A position of the reduced component that lies in the tile and in the area is among what is delivered. -/
theorem AxisOk.mem {T0 T1 b0 b1 : Int} {dd : Nat} {r0 r1 : Int} {red : Nat} (h : AxisOk (cdiv T0 dd) (cdiv T1 dd) (cdiv b0 dd) (cdiv b1 dd) r0 r1 red)
    (hd : 0 < dd) {u : Int} (h0 : T0 ≤ u * 2 ^ red * dd) (h1 : u * 2 ^ red * dd < T1) (h2 : b0 ≤ u * 2 ^ red * dd) (h3 : u * 2 ^ red * dd < b1) :
    r0 ≤ u ∧ u < r1 := by
  obtain ⟨m0, m1, rfl, rfl, e1, e2, e3, e4, e5⟩ := h.ex
  have hd' : (0 : Int) < dd := by omega
  have hp := Tcd.p2pos red
  rw [Tcd.cdiv_le hp, Tcd.lt_cdiv hp]
  have k0 := (Tcd.cdiv_le hd').2 h0
  have k1 := (Tcd.lt_cdiv hd').2 h1
  have k2 := (Tcd.cdiv_le hd').2 h2
  have k3 := (Tcd.lt_cdiv hd').2 h3
  omega

/-- Nothing else is delivered than what the tile has. -/
theorem AxisOk.inside {T0 T1 b0 b1 : Int} {dd : Nat} {r0 r1 : Int} {red : Nat} (h : AxisOk (cdiv T0 dd) (cdiv T1 dd) (cdiv b0 dd) (cdiv b1 dd) r0 r1 red)
    (hd : 0 < dd) {u : Int} (h0 : r0 ≤ u) (h1 : u < r1) : T0 ≤ u * 2 ^ red * dd ∧ u * 2 ^ red * dd < T1 := by
  obtain ⟨m0, m1, rfl, rfl, e1, e2, e3, e4, e5⟩ := h.ex
  have hd' : (0 : Int) < dd := by omega
  have hp := Tcd.p2pos red
  rw [Tcd.cdiv_le hp] at h0
  rw [Tcd.lt_cdiv hp] at h1
  exact ⟨(Tcd.cdiv_le hd').1 (by omega), (Tcd.lt_cdiv hd').1 (by omega)⟩

theorem AxisOk.touch {T0 T1 b0 b1 : Int} {dd : Nat} {r0 r1 : Int} {red : Nat} (h : AxisOk (cdiv T0 dd) (cdiv T1 dd) (cdiv b0 dd) (cdiv b1 dd) r0 r1 red)
    (hd : 0 < dd) (h0 : b0 ≤ T1) (h1 : T0 ≤ b1) (hb : b0 ≤ b1) : cdiv (cdiv b0 dd) (2 ^ red) ≤ r1 ∧ r0 ≤ cdiv (cdiv b1 dd) (2 ^ red) := by
  obtain ⟨m0, m1, rfl, rfl, e1, e2, e3, e4, e5⟩ := h.ex
  have hd' : (0 : Int) < dd := by omega
  have hp := Tcd.p2pos red
  have k1 : cdiv b0 dd ≤ cdiv T1 dd := Tcd.cdiv_mono hd' h0
  have k2 : cdiv T0 dd ≤ cdiv b1 dd := Tcd.cdiv_mono hd' h1
  have k3 : cdiv b0 dd ≤ cdiv b1 dd := Tcd.cdiv_mono hd' hb
  exact ⟨Tcd.cdiv_mono hp (by omega), Tcd.cdiv_mono hp (by omega)⟩

/-- The position `(u, v)` of a component reduced by `2^r` is a point of the tile and of the area. -/
def Here (T : Rect) (b : Box) (r dx dy : Nat) (u v : Int) : Prop :=
  T.has (u * 2 ^ r * dx) (v * 2 ^ r * dy) ∧ (b.x0 ≤ u * 2 ^ r * dx ∧ u * 2 ^ r * dx < b.x1) ∧ (b.y0 ≤ v * 2 ^ r * dy ∧ v * 2 ^ r * dy < b.y1)

theorem compSrc_ok {d : Dec} {b : Box} {whole : Bool} {c : CompP} {T : Rect} {P : Int → Int → Int} {kept : List Int} (ht : RectOk T)
    (hm : Meets T b) (hc : CompFit c) (hr : d.reduce < c.prc.length) (hb : b.x0 ≤ b.x1 ∧ b.x1 < 2 ^ 31 ∧ b.y0 ≤ b.y1 ∧ b.y1 < 2 ^ 31) :
    ∃ s, compSrc d b whole true P kept c (compOf false T c) = .ok s ∧
      (∀ k : Comp, k.dx = c.dx → k.dy = c.dy → ∀ X0 Y0, Dest b d.reduce k X0 Y0 → Delivers P X0 Y0 k s) ∧
      (∀ u v, Here T b d.reduce c.dx c.dy u v → s.rect.has u v) ∧
      ∀ u v, s.rect.has u v → T.has (u * 2 ^ d.reduce * c.dx) (v * 2 ^ d.reduce * c.dy) := by
  obtain ⟨r, e, ro, ax, ay⟩ := srcRect_ok (whole := whole) ht hm hc hr hb
  have q0 := ro.x0
  have q1 := ro.x
  have q2 := ro.x1
  unfold compSrc
  rw [if_neg (by simp), e, ok_bind, i32_of (by omega) (by omega), ok_bind]
  refine ⟨_, rfl, ?_, ?_, ?_⟩
  · intro k kx ky X0 Y0 hD
    have tx := ax.touch hc.dx.1 hm.x0 hm.x1 (by omega)
    have ty := ay.touch hc.dy.1 hm.y0 hm.y1 (by omega)
    refine ⟨ro, u32_of (by omega) (by omega), ⟨_, rfl⟩, ?_, ?_, ?_, ?_⟩
    · rw [hD.x0, kx]; exact tx.1
    · rw [hD.x1, kx]; exact tx.2
    · rw [hD.y0, ky]; exact ty.1
    · rw [hD.y1, ky]; exact ty.2
  · rintro u v ⟨⟨t1, t2, t3, t4⟩, ⟨b1, b2⟩, b3, b4⟩
    obtain ⟨g1, g2⟩ := ax.mem hc.dx.1 t1 t2 b1 b2
    obtain ⟨g3, g4⟩ := ay.mem hc.dy.1 t3 t4 b3 b4
    exact ⟨g1, g2, g3, g4⟩
  · rintro u v ⟨t1, t2, t3, t4⟩
    obtain ⟨g1, g2⟩ := ax.inside hc.dx.1 t1 t2
    obtain ⟨g3, g4⟩ := ay.inside hc.dy.1 t3 t4
    exact ⟨g1, g2, g3, g4⟩

end Jp2.Area

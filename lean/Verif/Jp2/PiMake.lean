import Verif.Jp2.PiAxis
import Verif.Jp2.PiPos
/-!
# The iterator tables agree with the specification
-/
namespace Jp2.Pi
open Spec

/-! ## Arithmetic -/

theorem ceildiv_eq (v d : Nat) (hd : 0 < d) (hd' : d < 2 ^ 32) (hv : v < 2 ^ 32) :
    Math.uintCeildiv v d = some (ceil v d) := by
  unfold Math.uintCeildiv ceil
  rw [if_pos (by omega)]
  have e : ((v + d) % 2 ^ 64 + (2 ^ 64 - 1)) % 2 ^ 64 = v + d - 1 := by omega
  rw [e, Nat.mod_eq_of_lt]
  have := ceil_le_self v d hd
  unfold ceil at this
  omega

theorem ceildivpow2_eq (v k : Nat) (hk : k ≤ 62) (hv : v < 2 ^ 32) :
    Math.uintCeildivpow2 v k = some (ceil v (2 ^ k)) := by
  unfold Math.uintCeildivpow2
  have hp : 2 ^ k ≤ 2 ^ 62 := Nat.pow_le_pow_right (by omega) hk
  have hp0 := Nat.two_pow_pos k
  rw [if_pos (by omega)]
  have e : ((v + 2 ^ k) % 2 ^ 64 + (2 ^ 64 - 1)) % 2 ^ 64 = v + 2 ^ k - 1 := by omega
  rw [e, Nat.shiftRight_eq_div_pow]
  have := ceil_le_self v (2 ^ k) hp0
  unfold ceil at this
  rw [Nat.mod_eq_of_lt (by omega)]
  rfl

theorem shl32_eq (m : Mode) (v k : Nat) (hk : k < 32) (h : v * 2 ^ k < 2 ^ 32) : shl32 m v k = some (v * 2 ^ k) := by
  unfold shl32; rw [if_pos hk, Nat.mod_eq_of_lt h]

theorem shr32_eq (m : Mode) (v k : Nat) (hk : k < 32) : shr32 m v k = some (v / 2 ^ k) := by
  unfold shr32; rw [if_pos hk]

theorem shl64_eq (m : Mode) (v k : Nat) (hk : k < 64) (h : v * 2 ^ k < 2 ^ 64) : shl64 m v k = some (v * 2 ^ k) := by
  unfold shl64; rw [if_pos hk, Nat.mod_eq_of_lt h]

theorem shr64_eq (m : Mode) (v k : Nat) (hk : k < 64) : shr64 m v k = some (v / 2 ^ k) := by
  unfold shr64; rw [if_pos hk]

theorem ceildivRes_eq (m : Mode) (v d : Nat) (hd : 0 < d) (h : v + d < 2 ^ 64) (hv : v < 2 ^ 32) :
    ceildivRes m v d = some (ceil v d) := by
  unfold ceildivRes
  rw [if_neg (by omega), if_pos h]
  have := ceil_le_self v d hd
  unfold ceil at this ⊢
  rw [Nat.mod_eq_of_lt (by omega)]

/-- The number of precincts along an axis is what the standard says. -/
theorem prcCount_eq (m : Mode) (a : Axis) (h : AxOk a) (hd : a.d < 2 ^ 32) (h1 : a.t1 ≤ 2 ^ 31) (hl : a.lev ≤ 32)
    (hp : a.pp ≤ 15) : prcCount m (ceil a.t0 a.d) (ceil a.t1 a.d) a.lev a.pp = some a.num := by
  have ht := h.t
  have hle0 := ceil_le_self a.t0 a.d h.d
  have hle1 := ceil_le_self a.t1 a.d h.d
  have hpp := Nat.two_pow_pos a.pp
  have hpp' : 2 ^ a.pp ≤ 2 ^ 15 := Nat.pow_le_pow_right (by omega) hp
  unfold prcCount
  rw [ceildivpow2_eq _ _ (by omega) (by omega), ceildivpow2_eq _ _ (by omega) (by omega),
    ceil_ceil _ _ _ h.d (Nat.two_pow_pos _), ceil_ceil _ _ _ h.d (Nat.two_pow_pos _)]
  change (do
      let x ← shr32 m a.tr0 a.pp
      let p0 ← shl32 m x a.pp
      let b ← Math.uintCeildivpow2 a.tr1 a.pp
      let p1 ← shl32 m b a.pp
      let e ← shr32 m ((2 ^ 32 + p1 - p0) % 2 ^ 32) a.pp
      return if a.tr0 = a.tr1 then 0 else e) = _
  have r0 : a.tr0 ≤ a.t0 := ceil_le_self _ _ h.D
  have r1 : a.tr1 ≤ a.t1 := ceil_le_self _ _ h.D
  have r01 : a.tr0 ≤ a.tr1 := ceil_mono _ _ _ h.D ht
  have d0 := Nat.div_mul_le_self a.tr0 (2 ^ a.pp)
  have c1 : ceil a.tr1 (2 ^ a.pp) * 2 ^ a.pp < a.tr1 + 2 ^ a.pp := by
    unfold ceil
    have := Nat.div_mul_le_self (a.tr1 + 2 ^ a.pp - 1) (2 ^ a.pp)
    omega
  have q0 : a.tr0 / 2 ^ a.pp ≤ ceil a.tr1 (2 ^ a.pp) := by
    unfold ceil; exact Nat.div_le_div_right (by omega)
  have q1 := Nat.mul_le_mul_right (2 ^ a.pp) q0
  simp only [Option.bind_eq_bind]
  rw [shr32_eq _ _ _ (by omega), Option.bind_some, shl32_eq _ _ _ (by omega) (by omega),
    Option.bind_some, ceildivpow2_eq _ _ (by omega) (by omega), Option.bind_some, shl32_eq _ _ _ (by omega) (by omega), Option.bind_some]
  have e : (2 ^ 32 + ceil a.tr1 (2 ^ a.pp) * 2 ^ a.pp - a.tr0 / 2 ^ a.pp * 2 ^ a.pp) % 2 ^ 32 =
      (ceil a.tr1 (2 ^ a.pp) - a.tr0 / 2 ^ a.pp) * 2 ^ a.pp := by
    rw [Nat.sub_mul]; omega
  rw [e, shr32_eq _ _ _ (by omega), Nat.mul_div_cancel _ hpp, Option.bind_some]
  unfold Axis.num
  by_cases hc : a.tr0 = a.tr1
  · rw [if_pos hc, if_neg (by omega)]; rfl
  · rw [if_neg hc, if_pos (by omega)]; rfl

/-! ## The position test -/

theorem posOk_eq (m : Mode) (a : Axis) (h : AxOk a) (hs : a.step < 2 ^ 64) (hk : a.pp + a.lev < 64)
    (h0 : a.t0 < 2 ^ 31) (v : Nat) :
    posOk m v a.d (a.pp + a.lev) a.t0 a.tr0 a.lev = some (a.here v) ∨ a.lev > 32 := by
  by_cases hl : a.lev > 32
  · exact Or.inr hl
  left
  have hst : a.d * 2 ^ (a.pp + a.lev) = a.step := rfl
  have hpos := h.step
  have r0 : a.tr0 ≤ a.t0 := ceil_le_self _ _ h.D
  have hb : a.tr0 * 2 ^ a.lev < 2 ^ 64 := by
    have h1 : 2 ^ a.lev ≤ 2 ^ 32 := Nat.pow_le_pow_right (by omega) (by omega)
    calc a.tr0 * 2 ^ a.lev ≤ a.tr0 * 2 ^ 32 := Nat.mul_le_mul_left _ h1
      _ < 2 ^ 64 := by omega
  have he : 1 * 2 ^ (a.pp + a.lev) < 2 ^ 64 := by
    have : 2 ^ (a.pp + a.lev) < 2 ^ 64 := Nat.pow_lt_pow_right (by omega) hk
    omega
  have hp := Nat.two_pow_pos (a.pp + a.lev)
  unfold posOk rem
  simp only [Option.bind_eq_bind]
  rw [shl64_eq _ _ _ hk (by omega), hst, Option.bind_some, if_neg (by omega),
    Option.bind_some]
  unfold Axis.here
  by_cases c1 : v % a.step = 0
  · rw [if_pos c1]; simp [c1]
  · rw [if_neg c1]
    by_cases c2 : v = a.t0
    · rw [if_pos c2, shl64_eq _ _ _ (by omega) hb, shl64_eq _ _ _ hk he, Option.bind_some, Option.bind_some, if_neg (by omega), Option.bind_some, Nat.one_mul]
      subst c2
      simp [c1]
      rw [Bool.eq_iff_iff]
      simp
    · rw [if_neg c2]; simp [c1, c2]

theorem prcOf_eq (m : Mode) (a : Axis) (h : AxOk a) (hl : a.lev ≤ 32) (hd : a.d < 2 ^ 31) (hp : a.pp ≤ 15)
    (v : Nat) (h0 : a.t0 ≤ v) (hv : v < 2 ^ 32) : prcOf m v (a.d * 2 ^ a.lev) a.pp a.tr0 = some (a.prc v) := by
  have hD := h.D
  have hD' : a.d * 2 ^ a.lev < 2 ^ 63 := by
    have h1 : 2 ^ a.lev ≤ 2 ^ 32 := Nat.pow_le_pow_right (by omega) (by omega)
    calc a.d * 2 ^ a.lev ≤ a.d * 2 ^ 32 := Nat.mul_le_mul_left _ h1
      _ < 2 ^ 63 := by omega
  have hle := Nat.div_le_div_right (c := 2 ^ a.pp) (tr0_le_prc h h0)
  unfold prcOf
  simp only [Option.bind_eq_bind]
  rw [ceildivRes_eq _ _ _ hD (by omega) hv, Option.bind_some, shr32_eq _ _ _ (by omega),
    Option.bind_some, shr32_eq _ _ _ (by omega), Option.bind_some]
  unfold sub32
  rw [if_pos hle]
  rfl

/-- An axis within the ranges a codestream allows. -/
structure AxFit (a : Axis) : Prop extends AxOk a where
  d' : a.d ≤ 255
  t1 : a.t1 ≤ 2 ^ 31
  lev : a.lev ≤ 32
  pp : a.pp ≤ 15

theorem AxFit.step64 {a : Axis} (h : AxFit a) : a.step < 2 ^ 64 := by
  unfold Axis.step
  have h1 : 2 ^ (a.pp + a.lev) ≤ 2 ^ 47 := Nat.pow_le_pow_right (by omega) (by have := h.lev; have := h.pp; omega)
  have h2 := h.d'
  calc a.d * 2 ^ (a.pp + a.lev) ≤ 255 * 2 ^ 47 := Nat.mul_le_mul h2 h1
    _ < 2 ^ 64 := by omega

theorem AxFit.D64 {a : Axis} (h : AxFit a) : a.d * 2 ^ a.lev < 2 ^ 41 := by
  have h1 : 2 ^ a.lev ≤ 2 ^ 32 := Nat.pow_le_pow_right (by omega) h.lev
  have h2 := h.d'
  calc a.d * 2 ^ a.lev ≤ 255 * 2 ^ 32 := Nat.mul_le_mul h2 h1
    _ < 2 ^ 41 := by omega

/-- The body of the position-driven iterators, when its guards pass. -/
theorem precinct_eq (m : Mode) (g1 g2 : Mode → Nat → Nat → Option Bool) (s : It) (c : Comp) (q : Res)
    (ax ay : Axis) (hx : AxFit ax) (hy : AxFit ay)
    (e1 : c.dx = ax.d) (e2 : c.dy = ay.d) (e3 : c.res.length - 1 - s.resno = ax.lev) (e4 : ay.lev = ax.lev)
    (e5 : q = ⟨ax.pp, ay.pp, ax.num, ay.num⟩) (e6 : s.tx0 = ax.t0) (e7 : s.tx1 = ax.t1) (e8 : s.ty0 = ay.t0)
    (e9 : s.ty1 = ay.t1) (hsx : ax.t0 ≤ s.x ∧ s.x < ax.t1) (hsy : ay.t0 ≤ s.y ∧ s.y < ay.t1)
    (hn : ax.num * ay.num < 2 ^ 32)
    (g1x : g1 m ax.d ax.lev = some true) (g1y : g1 m ay.d ay.lev = some true)
    (g2x : g2 m ax.d (ax.pp + ax.lev) = some true) (g2y : g2 m ay.d (ay.pp + ay.lev) = some true) :
    precinct m g1 g2 s c q = some
      (if ax.num * ay.num ≠ 0 ∧ ay.here s.y ∧ ax.here s.x then some (ax.prc s.x + ax.num * ay.prc s.y) else none) := by
  have lx := hx.lev
  have px := hx.pp
  have py := hy.pp
  have tx := hx.t1
  have ty := hy.t1
  have Dx := hx.D64
  have Dy := hy.D64
  have Dx0 := hx.toAxOk.D
  have Dy0 := hy.toAxOk.D
  have hx0 := hx.t
  have hy0 := hy.t
  have hdx := hx.d'
  have hdy := hy.d'
  have sx := posOk_eq m ax hx.toAxOk hx.step64 (by omega) (by omega) s.x
  have sy := posOk_eq m ay hy.toAxOk hy.step64 (by omega) (by omega) s.y
  replace sx := sx.resolve_right (by omega)
  replace sy := sy.resolve_right (by omega)
  have pxe := prcOf_eq m ax hx.toAxOk hx.lev (by omega) hx.pp s.x hsx.1 (by omega)
  have pye := prcOf_eq m ay hy.toAxOk hy.lev (by omega) hy.pp s.y hsy.1 (by omega)
  have rx : (ax.pp + ax.lev) % 2 ^ 32 = ax.pp + ax.lev := Nat.mod_eq_of_lt (by omega)
  have ry : (ay.pp + ax.lev) % 2 ^ 32 = ay.pp + ax.lev := Nat.mod_eq_of_lt (by omega)
  have cx0 := ceildivRes_eq m ax.t0 _ Dx0 (by omega) (by omega)
  have cx1 := ceildivRes_eq m ax.t1 _ Dx0 (by omega) (by omega)
  have cy0 := ceildivRes_eq m ay.t0 _ Dy0 (by omega) (by omega)
  have cy1 := ceildivRes_eq m ay.t1 _ Dy0 (by omega) (by omega)
  change _ = some ax.tr0 at cx0
  change _ = some ax.tr1 at cx1
  change _ = some ay.tr0 at cy0
  change _ = some ay.tr1 at cy1
  have shx := shl64_eq m ax.d ax.lev (by omega) (by omega)
  have shy := shl64_eq m ay.d ay.lev (by omega) (by omega)
  rw [e4] at g1y g2y sy pye cy0 cy1 shy
  unfold precinct
  simp only [e1, e2, e3, e6, e7, e8, e9]
  subst e5
  simp only [Option.bind_eq_bind, g1x, g1y, Option.bind_some, Bool.not_true, Bool.false_eq_true, if_false,
    shx, shy, cx0, cx1, cy0, cy1, rx, ry, g2x, g2y, sx, sy]
  cases hhy : ay.here s.y with
  | false => simp
  | true =>
    cases hhx : ax.here s.x with
    | false => simp
    | true =>
      simp only [Bool.not_true, Bool.false_eq_true, if_false, pxe, pye, Option.bind_some, and_true]
      by_cases hz : ax.num * ay.num = 0
      · rw [if_pos (Nat.mul_eq_zero.mp hz), if_neg (show ¬ (ax.num * ay.num ≠ 0) from not_not.mpr hz)]; rfl
      · obtain ⟨z1, z2⟩ := Nat.mul_ne_zero_iff.mp hz
        have n1 := (num_pos z1).1
        have n2 := (num_pos z2).1
        rw [if_pos hz, if_neg (by omega), if_neg (by omega)]
        have p1 := prc_lt hx.toAxOk z1 hsx.2 hhx
        have p2 := prc_lt hy.toAxOk z2 hsy.2 hhy
        have : ax.num * (ay.prc s.y + 1) ≤ ax.num * ay.num := Nat.mul_le_mul_left _ (by omega)
        have e : ax.num * (ay.prc s.y + 1) = ax.num * ay.prc s.y + ax.num := by ring
        rw [Nat.mul_comm (ay.prc s.y), Nat.mod_eq_of_lt (by omega)]
        rfl

theorem guard64_ok (m : Mode) (d k : Nat) (hk : k < 64) (h : d * 2 ^ k < 2 ^ 64) : guard64 m d k = some true := by
  unfold guard64
  rw [shl64_eq _ _ _ hk h, Option.bind_some, shr64_eq _ _ _ hk, Nat.mul_div_cancel _ (Nat.two_pow_pos k)]
  simp

theorem guard32_ok (m : Mode) (d k : Nat) (hk : k < 32) (h : d * 2 ^ k < 2 ^ 32) : guard32 m d k = some true := by
  unfold guard32
  rw [shl32_eq _ _ _ hk h, Option.bind_some, shr32_eq _ _ _ hk, Nat.mul_div_cancel _ (Nat.two_pow_pos k)]
  simp

theorem guard32w_ok (m : Mode) (d k : Nat) (hk : k < 32) (h : d * 2 ^ k < 2 ^ 32) : guard32w m d k = some true := by
  unfold guard32w
  rw [shl32_eq _ _ _ hk h, Option.bind_some, shr64_eq _ _ _ (by omega), Nat.mul_div_cancel _ (Nat.two_pow_pos k)]
  have : d < 2 ^ 32 := Nat.lt_of_le_of_lt (Nat.le_mul_of_pos_right d (Nat.two_pow_pos k)) h
  rw [Option.map_some, Nat.mod_eq_of_lt this]
  simp

/-! ## The component tables -/

/-- Everything the tables need. -/
structure TileFit (t : Tile) (cs : List CompParams) : Prop where
  x : t.tx0 ≤ t.tx1
  y : t.ty0 ≤ t.ty1
  x1 : t.tx1 ≤ 2 ^ 31
  y1 : t.ty1 ≤ 2 ^ 31
  comps : ∀ cp ∈ cs, CompFit cp

theorem TileFit.ok {t : Tile} {cs : List CompParams} (h : TileFit t cs) : TileOk t cs :=
  ⟨h.x, h.y, fun cp hc => ⟨(h.comps cp hc).dx.1, (h.comps cp hc).dy.1⟩⟩

/-- The resolutions of a component as the standard counts their precincts. -/
def specRes (t : Tile) (dx dy : Nat) : List (Nat × Nat) → List Res
  | [] => []
  | q :: rest =>
    ⟨q.1, q.2, Axis.num ⟨t.tx0, t.tx1, dx, rest.length, q.1⟩, Axis.num ⟨t.ty0, t.ty1, dy, rest.length, q.2⟩⟩ ::
      specRes t dx dy rest

def specComp (t : Tile) (cp : CompParams) : Comp := ⟨cp.dx, cp.dy, specRes t cp.dx cp.dy cp.prc⟩

theorem specRes_length (t : Tile) (dx dy : Nat) (l : List (Nat × Nat)) : (specRes t dx dy l).length = l.length := by
  induction l with
  | nil => rfl
  | cons q rest ih => simp [specRes, ih]

theorem specRes_get (t : Tile) (dx dy : Nat) : ∀ (l : List (Nat × Nat)) (r : Nat), (specRes t dx dy l)[r]? =
    l[r]?.map fun q => ⟨q.1, q.2, Axis.num ⟨t.tx0, t.tx1, dx, l.length - 1 - r, q.1⟩,
      Axis.num ⟨t.ty0, t.ty1, dy, l.length - 1 - r, q.2⟩⟩ := by
  intro l
  induction l with
  | nil => intro r; rfl
  | cons q rest ih =>
    intro r
    cases r with
    | zero => simp [specRes]
    | succ r =>
      simp only [specRes, List.getElem?_cons_succ, List.length_cons]
      rw [ih, show rest.length + 1 - 1 - (r + 1) = rest.length - 1 - r by omega]

theorem resolutions_eq (m : Mode) (t : Tile) (dx dy : Nat) (hdx : 0 < dx ∧ dx ≤ 255) (hdy : 0 < dy ∧ dy ≤ 255)
    (hx : t.tx0 ≤ t.tx1) (hy : t.ty0 ≤ t.ty1) (hx1 : t.tx1 ≤ 2 ^ 31) (hy1 : t.ty1 ≤ 2 ^ 31) :
    ∀ l : List (Nat × Nat), l.length ≤ 33 → (∀ q ∈ l, q.1 ≤ 15 ∧ q.2 ≤ 15) →
    resolutions m (ceil t.tx0 dx) (ceil t.ty0 dy) (ceil t.tx1 dx) (ceil t.ty1 dy) l = some (specRes t dx dy l) := by
  intro l
  induction l with
  | nil => intro _ _; rfl
  | cons q rest ih =>
    intro hl hq
    simp only [List.length_cons] at hl
    have hq0 := hq q (by simp)
    have px := prcCount_eq m ⟨t.tx0, t.tx1, dx, rest.length, q.1⟩ ⟨hdx.1, hx⟩ (by simp only; omega) hx1
      (by simp only; omega) hq0.1
    have py := prcCount_eq m ⟨t.ty0, t.ty1, dy, rest.length, q.2⟩ ⟨hdy.1, hy⟩ (by simp only; omega) hy1
      (by simp only; omega) hq0.2
    simp only at px py
    obtain ⟨q1, q2⟩ := q
    simp only [resolutions, Option.bind_eq_bind, px, py, Option.bind_some,
      ih (by omega) (fun z hz => hq z (by simp [hz])), specRes]
    rfl

theorem mkComps_eq (m : Mode) (t : Tile) (hx : t.tx0 ≤ t.tx1) (hy : t.ty0 ≤ t.ty1) (hx1 : t.tx1 ≤ 2 ^ 31)
    (hy1 : t.ty1 ≤ 2 ^ 31) : ∀ cs : List CompParams, (∀ cp ∈ cs, CompFit cp) →
    mkComps m (t.tx0, t.ty0, t.tx1, t.ty1) cs = some (cs.map (specComp t)) := by
  intro cs
  induction cs with
  | nil => intro _; rfl
  | cons cp cs ih =>
    intro h
    have hc := h cp (by simp)
    have hdx := hc.dx
    have hdy := hc.dy
    simp only [mkComps, mkComp, Option.bind_eq_bind,
      ceildiv_eq t.tx0 cp.dx hdx.1 (by omega) (by omega), ceildiv_eq t.tx1 cp.dx hdx.1 (by omega) (by omega),
      ceildiv_eq t.ty0 cp.dy hdy.1 (by omega) (by omega), ceildiv_eq t.ty1 cp.dy hdy.1 (by omega) (by omega),
      Option.bind_some, resolutions_eq m t cp.dx cp.dy hdx hdy hx hy hx1 hy1 cp.prc hc.res.2 hc.pp,
      ih (fun z hz => h z (by simp [hz]))]
    rfl

variable {t : Tile} {cs : List CompParams}

theorem specComps_get (c : Nat) : (cs.map (specComp t))[c]? = cs[c]?.map (specComp t) := List.getElem?_map

theorem npOf_eq (c r : Nat) : npOf (cs.map (specComp t)) c r = numPrec t cs c r := by
  unfold npOf numPrec axes
  rw [specComps_get]
  cases hc : cs[c]? with
  | none => rfl
  | some cp =>
    simp only [Option.map_some]
    unfold specComp
    simp only [specRes_get]
    cases hr : cp.prc[r]? with
    | none => rfl
    | some q => rfl

/-- Table entry and axes of the same resolution. -/
theorem table_axes {c r : Nat} {cp : Comp} {q : Res} (hcp : (cs.map (specComp t))[c]? = some cp)
    (hq : cp.res[r]? = some q) : ∃ ax ay, axes t cs c r = some (ax, ay) ∧ cp.dx = ax.d ∧ cp.dy = ay.d ∧
      cp.res.length - 1 - r = ax.lev ∧ ay.lev = ax.lev ∧ q = ⟨ax.pp, ay.pp, ax.num, ay.num⟩ := by
  rw [specComps_get] at hcp
  cases hc : cs[c]? with
  | none => rw [hc] at hcp; simp at hcp
  | some p =>
    rw [hc] at hcp
    simp only [Option.map_some, Option.some.injEq] at hcp
    subst hcp
    unfold specComp at hq ⊢
    simp only [specRes_get] at hq
    cases hr : p.prc[r]? with
    | none => rw [hr] at hq; simp at hq
    | some z =>
      rw [hr] at hq
      simp only [Option.map_some, Option.some.injEq] at hq
      refine ⟨⟨t.tx0, t.tx1, p.dx, p.prc.length - 1 - r, z.1⟩, ⟨t.ty0, t.ty1, p.dy, p.prc.length - 1 - r, z.2⟩,
        by unfold axes; simp only [hc, hr], rfl, rfl, ?_, rfl, hq.symm⟩
      simp only [specRes_length]

theorem axes_fit (h : TileFit t cs) {c r : Nat} {ax ay : Axis} (e : axes t cs c r = some (ax, ay)) :
    AxFit ax ∧ AxFit ay := by
  unfold axes at e
  split at e
  · simp at e
  · rename_i cp hcp
    split at e
    · simp at e
    · rename_i q hq
      simp only [Option.some.injEq, Prod.mk.injEq] at e
      obtain ⟨rfl, rfl⟩ := e
      have hf := h.comps cp (List.mem_of_getElem? hcp)
      have hp := hf.pp q (List.mem_of_getElem? hq)
      have hl := hf.res.2
      exact ⟨⟨⟨hf.dx.1, h.x⟩, hf.dx.2, h.x1, by simp only; omega, hp.1⟩,
        ⟨⟨hf.dy.1, h.y⟩, hf.dy.2, h.y1, by simp only; omega, hp.2⟩⟩

theorem axes_none_of_res {c r : Nat} {cp : Comp} (hcp : (cs.map (specComp t))[c]? = some cp)
    (hr : cp.res.length ≤ r) : axes t cs c r = none := by
  rw [specComps_get] at hcp
  unfold axes
  cases hc : cs[c]? with
  | none => rfl
  | some p =>
    rw [hc] at hcp
    simp only [Option.map_some, Option.some.injEq] at hcp
    subst hcp
    unfold specComp at hr
    simp only [specRes_length] at hr
    simp only [List.getElem?_eq_none hr]

/-- The precinct at a position, as an option. -/
def at? (t : Tile) (cs : List CompParams) (c r x y : Nat) : Option Nat := (precAt t cs c r x y).head?

theorem at?_toList (c r x y : Nat) : (at? t cs c r x y).toList = precAt t cs c r x y := by
  unfold at? precAt
  split
  · rfl
  · split <;> rfl

theorem silent_at {s0 : It} (hc : s0.comps = cs.map (specComp t)) : Silent s0 (at? t cs) := by
  intro c r x y cp hcp hr
  rw [hc] at hcp
  unfold at? precAt
  rw [axes_none_of_res hcp hr]
  rfl

/-- The constant part of an iterator matches a tile. -/
structure Matches (t : Tile) (cs : List CompParams) (s0 : It) : Prop where
  comps : s0.comps = cs.map (specComp t)
  tx0 : s0.tx0 = t.tx0
  tx1 : s0.tx1 = t.tx1
  ty0 : s0.ty0 = t.ty0
  ty1 : s0.ty1 = t.ty1
  ptx0 : s0.poc.tx0 = t.tx0
  ptx1 : s0.poc.tx1 = t.tx1
  pty0 : s0.poc.ty0 = t.ty0
  pty1 : s0.poc.ty1 = t.ty1

theorem answers_of (m : Mode) (g1 g2 : Mode → Nat → Nat → Option Bool) (h : TileFit t cs) {s0 : It}
    (hm : Matches t cs s0) (hn : ∀ c r, numPrec t cs c r < 2 ^ 32)
    (hg : ∀ c r ax ay, axes t cs c r = some (ax, ay) → g1 m ax.d ax.lev = some true ∧
      g1 m ay.d ay.lev = some true ∧ g2 m ax.d (ax.pp + ax.lev) = some true ∧
      g2 m ay.d (ay.pp + ay.lev) = some true) : Answers m g1 g2 s0 (at? t cs) := by
  intro s hi hx0 hx1 hy0 hy1 cp q hcp hq
  rw [hm.comps] at hcp
  obtain ⟨ax, ay, e, e1, e2, e3, e4, e5⟩ := table_axes hcp hq
  obtain ⟨fx, fy⟩ := axes_fit h e
  obtain ⟨_, _, t1, t2, t3, t4⟩ := axes_ok h.ok e
  obtain ⟨g1x, g1y, g2x, g2y⟩ := hg _ _ _ _ e
  have hnp := hn s.compno s.resno
  unfold numPrec at hnp
  rw [e] at hnp
  rw [hm.ptx0] at hx0
  rw [hm.ptx1] at hx1
  rw [hm.pty0] at hy0
  rw [hm.pty1] at hy1
  rw [precinct_eq m g1 g2 s cp q ax ay fx fy e1 e2 e3 e4 e5 (by rw [hi.tx0, hm.tx0, t1])
    (by rw [hi.tx1, hm.tx1, t2]) (by rw [hi.ty0, hm.ty0, t3]) (by rw [hi.ty1, hm.ty1, t4])
    ⟨by omega, by omega⟩ ⟨by omega, by omega⟩ hnp g1x g1y g2x g2y]
  unfold at? precAt
  rw [e]
  simp only
  split <;> rfl

theorem answers64 (m : Mode) (h : TileFit t cs) {s0 : It} (hm : Matches t cs s0)
    (hn : ∀ c r, numPrec t cs c r < 2 ^ 32) : Answers m guard64 guard64 s0 (at? t cs) := by
  refine answers_of m _ _ h hm hn ?_
  intro c r ax ay e
  obtain ⟨fx, fy⟩ := axes_fit h e
  have lx := fx.lev
  have ly := fy.lev
  have px := fx.pp
  have py := fy.pp
  have sx := fx.step64
  have sy := fy.step64
  have dx := fx.D64
  have dy := fy.D64
  exact ⟨guard64_ok _ _ _ (by omega) (by omega), guard64_ok _ _ _ (by omega) (by omega),
    guard64_ok _ _ _ (by omega) sx, guard64_ok _ _ _ (by omega) sy⟩

theorem step_exp {a : Axis} (h : 0 < a.d) (hs : a.step < 2 ^ 32) : a.pp + a.lev < 32 := by
  by_contra hc
  have h1 : 2 ^ 32 ≤ 2 ^ (a.pp + a.lev) := Nat.pow_le_pow_right (by omega) (by omega)
  have h2 := Nat.le_mul_of_pos_left (2 ^ (a.pp + a.lev)) h
  unfold Axis.step at hs
  omega

theorem D_le_step (a : Axis) : a.d * 2 ^ a.lev ≤ a.step := by
  rw [step_eq]; exact Nat.le_mul_of_pos_right _ (Nat.two_pow_pos _)

theorem answers32 (m : Mode) (h : TileFit t cs) (hf : Fit32 t cs) {s0 : It} (hm : Matches t cs s0)
    (hn : ∀ c r, numPrec t cs c r < 2 ^ 32) : Answers m guard32 guard32w s0 (at? t cs) := by
  refine answers_of m _ _ h hm hn ?_
  intro c r ax ay e
  obtain ⟨fx, fy⟩ := axes_fit h e
  obtain ⟨s1, s2⟩ := hf c r ax ay e
  have k1 := step_exp fx.d s1
  have k2 := step_exp fy.d s2
  have d1 := D_le_step ax
  have d2 := D_le_step ay
  exact ⟨guard32_ok _ _ _ (by omega) (by omega), guard32_ok _ _ _ (by omega) (by omega),
    guard32w_ok _ _ _ (by omega) s1, guard32w_ok _ _ _ (by omega) s2⟩

end Jp2.Pi

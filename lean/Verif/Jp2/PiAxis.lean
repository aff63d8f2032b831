import Verif.Jp2.PiLemmas
/-!
# Facts about one axis of a resolution, and about the specification lists
-/
namespace Jp2.Pi
open Spec

theorem lt_ceil (a b k : Nat) (hb : 0 < b) : k < ceil a b ↔ k * b < a := by
  unfold ceil
  rw [Nat.lt_iff_add_one_le, Nat.le_div_iff_mul_le hb]
  have : (k + 1) * b = k * b + b := by ring
  omega

theorem ceil_le (a b k : Nat) (hb : 0 < b) : ceil a b ≤ k ↔ a ≤ k * b := by
  have := lt_ceil a b k hb; omega

theorem ceil_mul (k b : Nat) (hb : 0 < b) : ceil (k * b) b = k := by
  apply Nat.le_antisymm
  · rw [ceil_le _ _ _ hb]
  · by_contra h
    have h' := (ceil_le (k * b) b (k - 1) hb).mp (by omega)
    have : (k - 1 + 1) * b = (k - 1) * b + b := by ring
    rw [show k - 1 + 1 = k by omega] at this
    omega

theorem ceil_mono (a a' b : Nat) (hb : 0 < b) (h : a ≤ a') : ceil a b ≤ ceil a' b := by
  unfold ceil; exact Nat.div_le_div_right (by omega)

theorem ceil_ceil (a b c : Nat) (hb : 0 < b) (hc : 0 < c) : ceil (ceil a b) c = ceil a (b * c) := by
  apply Nat.le_antisymm
  · rw [ceil_le _ _ _ hc, ceil_le _ _ _ hb]
    have := (ceil_le a (b * c) _ (Nat.mul_pos hb hc)).mp (Nat.le_refl _)
    have e : ceil a (b * c) * c * b = ceil a (b * c) * (b * c) := by ring
    omega
  · rw [ceil_le _ _ _ (Nat.mul_pos hb hc)]
    have h1 := (ceil_le (ceil a b) c _ hc).mp (Nat.le_refl _)
    have h2 := (ceil_le a b _ hb).mp h1
    have e : ceil (ceil a b) c * c * b = ceil (ceil a b) c * (b * c) := by ring
    omega

theorem ceil_le_self (a b : Nat) (hb : 0 < b) : ceil a b ≤ a := by
  rw [ceil_le _ _ _ hb]; exact Nat.le_mul_of_pos_right a hb

/-- Well-formed axis. -/
structure AxOk (a : Axis) : Prop where
  d : 0 < a.d
  t : a.t0 ≤ a.t1

variable {a : Axis}

theorem AxOk.D (h : AxOk a) : 0 < a.d * 2 ^ a.lev := Nat.mul_pos h.d (Nat.two_pow_pos _)

theorem step_eq (a : Axis) : a.step = a.d * 2 ^ a.lev * 2 ^ a.pp := by
  unfold Axis.step; rw [Nat.pow_add]; ring

theorem AxOk.step (h : AxOk a) : 0 < a.step := by
  rw [step_eq]; exact Nat.mul_pos h.D (Nat.two_pow_pos _)

theorem num_pos (hn : a.num ≠ 0) : a.tr0 < a.tr1 ∧ a.num = ceil a.tr1 (2 ^ a.pp) - a.tr0 / 2 ^ a.pp := by
  unfold Axis.num at *
  split at hn
  · rename_i h; rw [if_pos h]; exact ⟨h, rfl⟩
  · simp at hn

/-- The second condition of `here`, in terms of `tr0`. -/
theorem here_iff (h : AxOk a) (v : Nat) :
    a.here v = true ↔ a.step ∣ v ∨ (v = a.t0 ∧ ¬ 2 ^ a.pp ∣ a.tr0) := by
  unfold Axis.here
  have e : a.tr0 * 2 ^ a.lev % 2 ^ (a.pp + a.lev) = a.tr0 % 2 ^ a.pp * 2 ^ a.lev := by
    rw [Nat.pow_add, Nat.mul_mod_mul_right]
  rw [e, Bool.or_eq_true, decide_eq_true_iff, Bool.and_eq_true, decide_eq_true_iff, decide_eq_true_iff,
    Nat.dvd_iff_mod_eq_zero, Nat.dvd_iff_mod_eq_zero]
  have hp := Nat.two_pow_pos a.lev
  have : (a.tr0 % 2 ^ a.pp * 2 ^ a.lev ≠ 0) ↔ ¬ a.tr0 % 2 ^ a.pp = 0 := by
    rw [Nat.mul_ne_zero_iff]; omega
  rw [this]

theorem tr0_le_prc (h : AxOk a) {v : Nat} (h0 : a.t0 ≤ v) : a.tr0 ≤ ceil v (a.d * 2 ^ a.lev) :=
  ceil_mono _ _ _ h.D h0

theorem ceil_dvd (h : AxOk a) {q : Nat} : ceil (a.step * q) (a.d * 2 ^ a.lev) = 2 ^ a.pp * q := by
  rw [step_eq, show a.d * 2 ^ a.lev * 2 ^ a.pp * q = 2 ^ a.pp * q * (a.d * 2 ^ a.lev) by ring]
  exact ceil_mul _ _ h.D

/-- Positions where a packet belongs map to precincts that exist. -/
theorem prc_lt (h : AxOk a) (hn : a.num ≠ 0) {v : Nat} (h1 : v < a.t1) (hh : a.here v = true) :
    a.prc v < a.num := by
  obtain ⟨ht, hnum⟩ := num_pos hn
  rw [hnum]
  have hp := Nat.two_pow_pos a.pp
  have hlt : ceil v (a.d * 2 ^ a.lev) < a.tr1 := by
    rcases (here_iff h v).mp hh with ⟨q, rfl⟩ | ⟨rfl, _⟩
    · rw [ceil_dvd h]
      unfold Axis.tr1
      rw [lt_ceil _ _ _ h.D]
      rw [step_eq] at h1
      have e : 2 ^ a.pp * q * (a.d * 2 ^ a.lev) = a.d * 2 ^ a.lev * 2 ^ a.pp * q := by ring
      omega
    · exact ht
  have h2 : ceil v (a.d * 2 ^ a.lev) / 2 ^ a.pp < ceil a.tr1 (2 ^ a.pp) := by
    rw [lt_ceil _ _ _ hp]
    have := Nat.div_mul_le_self (ceil v (a.d * 2 ^ a.lev)) (2 ^ a.pp)
    omega
  have h3 : a.tr0 / 2 ^ a.pp < ceil a.tr1 (2 ^ a.pp) := by
    rw [lt_ceil _ _ _ hp]
    have := Nat.div_mul_le_self a.tr0 (2 ^ a.pp)
    omega
  unfold Axis.prc
  omega

/-- … each to its own. -/
theorem prc_inj (h : AxOk a) {v w : Nat} (hv0 : a.t0 ≤ v) (hw0 : a.t0 ≤ w)
    (hv : a.here v = true) (hw : a.here w = true) (e : a.prc v = a.prc w) : v = w := by
  have hp := Nat.two_pow_pos a.pp
  -- the precinct number of a multiple of the step is beyond the first when `tr0` is not aligned
  have key : ∀ q, a.t0 ≤ a.step * q → a.prc (a.step * q) = q - a.tr0 / 2 ^ a.pp ∧ a.tr0 ≤ 2 ^ a.pp * q := by
    intro q h0
    have := tr0_le_prc h h0
    rw [ceil_dvd h] at this
    refine ⟨?_, this⟩
    unfold Axis.prc
    rw [ceil_dvd h, Nat.mul_div_cancel_left _ hp]
  have hdiv : ∀ q, a.tr0 ≤ 2 ^ a.pp * q → a.tr0 / 2 ^ a.pp ≤ q := by
    intro q hq
    exact Nat.div_le_of_le_mul hq
  have hz : a.prc a.t0 = 0 := by
    unfold Axis.prc
    exact Nat.sub_self _
  have hne : ∀ q, a.t0 ≤ a.step * q → ¬ 2 ^ a.pp ∣ a.tr0 → a.prc (a.step * q) ≠ 0 := by
    intro q h0 hnd hc
    obtain ⟨k1, k2⟩ := key q h0
    have := hdiv q k2
    have hq : q = a.tr0 / 2 ^ a.pp := by omega
    apply hnd
    have := Nat.mul_div_le a.tr0 (2 ^ a.pp)
    rw [← hq] at this
    exact ⟨q, by omega⟩
  rcases (here_iff h v).mp hv with ⟨q, rfl⟩ | ⟨rfl, hnv⟩ <;>
    rcases (here_iff h w).mp hw with ⟨q', rfl⟩ | ⟨rfl, hnw⟩
  · obtain ⟨k1, k2⟩ := key q hv0
    obtain ⟨k3, k4⟩ := key q' hw0
    have h5 := hdiv q k2
    have h6 := hdiv q' k4
    rw [show q = q' by omega]
  · rw [hz] at e; exact absurd e (hne q hv0 hnw)
  · rw [hz] at e; exact absurd e.symm (hne q' hw0 hnv)
  · rfl

/-- … and every precinct has a position. -/
theorem prc_surj (h : AxOk a) {i : Nat} (hi : i < a.num) :
    ∃ v, a.t0 ≤ v ∧ v < a.t1 ∧ a.here v = true ∧ a.prc v = i := by
  have hp := Nat.two_pow_pos a.pp
  obtain ⟨ht, hnum⟩ := num_pos (a := a) (by omega)
  rw [hnum] at hi
  have ht01 : a.t0 < a.t1 := by
    by_contra hc
    have : a.tr1 ≤ a.tr0 := ceil_mono _ _ _ h.D (by omega)
    omega
  by_cases hal : i = 0 ∧ ¬ 2 ^ a.pp ∣ a.tr0
  · obtain ⟨rfl, hnd⟩ := hal
    exact ⟨a.t0, Nat.le_refl _, ht01, (here_iff h _).mpr (Or.inr ⟨rfl, hnd⟩), Nat.sub_self _⟩
  · obtain ⟨q, hq⟩ : ∃ q, q = a.tr0 / 2 ^ a.pp + i := ⟨_, rfl⟩
    have hge : a.tr0 ≤ 2 ^ a.pp * q := by
      have h1 := Nat.div_add_mod a.tr0 (2 ^ a.pp)
      have h2 := Nat.mod_lt a.tr0 hp
      by_cases hi0 : i = 0
      · have hd : 2 ^ a.pp ∣ a.tr0 := by
          by_contra hc; exact hal ⟨hi0, hc⟩
        have : a.tr0 % 2 ^ a.pp = 0 := Nat.mod_eq_zero_of_dvd hd
        rw [hq, hi0, Nat.add_zero]; omega
      · have : 2 ^ a.pp * (a.tr0 / 2 ^ a.pp + 1) ≤ 2 ^ a.pp * q := Nat.mul_le_mul_left _ (by omega)
        have e : 2 ^ a.pp * (a.tr0 / 2 ^ a.pp + 1) = 2 ^ a.pp * (a.tr0 / 2 ^ a.pp) + 2 ^ a.pp := by ring
        omega
    have hlt : q * 2 ^ a.pp < a.tr1 := (lt_ceil _ _ _ hp).mp (by omega)
    refine ⟨a.step * q, ?_, ?_, (here_iff h _).mpr (Or.inl ⟨q, rfl⟩), ?_⟩
    · have := (ceil_le a.t0 (a.d * 2 ^ a.lev) (2 ^ a.pp * q) h.D).mp hge
      rw [step_eq]
      have e : 2 ^ a.pp * q * (a.d * 2 ^ a.lev) = a.d * 2 ^ a.lev * 2 ^ a.pp * q := by ring
      omega
    · have := (lt_ceil a.t1 (a.d * 2 ^ a.lev) (q * 2 ^ a.pp) h.D).mp hlt
      rw [step_eq]
      have e : q * 2 ^ a.pp * (a.d * 2 ^ a.lev) = a.d * 2 ^ a.lev * 2 ^ a.pp * q := by ring
      omega
    · unfold Axis.prc
      rw [ceil_dvd h, Nat.mul_div_cancel_left _ hp]
      omega

/-! ## The precinct at a position -/

variable (t : Tile) (cs : List CompParams)

/-- Well-formed tile and components. -/
structure TileOk : Prop where
  x : t.tx0 ≤ t.tx1
  y : t.ty0 ≤ t.ty1
  d : ∀ cp ∈ cs, 0 < cp.dx ∧ 0 < cp.dy

variable {t cs}

theorem axes_ok (h : TileOk t cs) {c r : Nat} {ax ay : Axis} (e : axes t cs c r = some (ax, ay)) :
    AxOk ax ∧ AxOk ay ∧ ax.t0 = t.tx0 ∧ ax.t1 = t.tx1 ∧ ay.t0 = t.ty0 ∧ ay.t1 = t.ty1 := by
  unfold axes at e
  split at e
  · simp at e
  · rename_i cp hcp
    split at e
    · simp at e
    · simp only [Option.some.injEq, Prod.mk.injEq] at e
      obtain ⟨rfl, rfl⟩ := e
      have hd := h.d cp (List.mem_of_getElem? hcp)
      exact ⟨⟨hd.1, h.x⟩, ⟨hd.2, h.y⟩, rfl, rfl, rfl, rfl⟩

theorem mem_precAt {c r x y k : Nat} : k ∈ precAt t cs c r x y ↔
    ∃ ax ay, axes t cs c r = some (ax, ay) ∧ ax.num ≠ 0 ∧ ay.num ≠ 0 ∧ ay.here y = true ∧
      ax.here x = true ∧ k = ax.prc x + ax.num * ay.prc y := by
  unfold precAt
  cases hax : axes t cs c r with
  | none => simp
  | some p =>
    obtain ⟨ax, ay⟩ := p
    simp only [Option.some.injEq, Prod.mk.injEq]
    constructor
    · intro h
      split at h
      · rename_i hc
        obtain ⟨h1, h2, h3⟩ := hc
        have := Nat.mul_ne_zero_iff.mp h1
        exact ⟨ax, ay, ⟨rfl, rfl⟩, this.1, this.2, h2, h3, by simpa using h⟩
      · simp at h
    · rintro ⟨ax', ay', ⟨rfl, rfl⟩, h1, h2, h3, h4, h5⟩
      rw [if_pos ⟨Nat.mul_ne_zero h1 h2, h3, h4⟩]
      simpa using h5

theorem precAt_nodup (c r x y : Nat) : (precAt t cs c r x y).Nodup := by
  unfold precAt
  split
  · exact List.nodup_nil
  · split
    · simp
    · exact List.nodup_nil

theorem precAt_lt (h : TileOk t cs) {c r x y k : Nat} (hx : x < t.tx1) (hy : y < t.ty1)
    (hk : k ∈ precAt t cs c r x y) : k < numPrec t cs c r := by
  obtain ⟨ax, ay, e, h1, h2, h3, h4, rfl⟩ := mem_precAt.mp hk
  obtain ⟨o1, o2, _, e1, _, e2⟩ := axes_ok h e
  have p1 := prc_lt o1 h1 (by omega) h4
  have p2 := prc_lt o2 h2 (by omega) h3
  unfold numPrec
  rw [e]
  simp only
  have : ax.num * (ay.prc y + 1) ≤ ax.num * ay.num := Nat.mul_le_mul_left _ (by omega)
  have e : ax.num * (ay.prc y + 1) = ax.num * ay.prc y + ax.num := by ring
  omega

theorem precAt_inj (h : TileOk t cs) {c r x y x' y' k : Nat} (hx : t.tx0 ≤ x ∧ x < t.tx1)
    (hy : t.ty0 ≤ y ∧ y < t.ty1) (hx' : t.tx0 ≤ x' ∧ x' < t.tx1) (hy' : t.ty0 ≤ y' ∧ y' < t.ty1)
    (hk : k ∈ precAt t cs c r x y) (hk' : k ∈ precAt t cs c r x' y') : x = x' ∧ y = y' := by
  obtain ⟨ax, ay, e, h1, h2, h3, h4, e1⟩ := mem_precAt.mp hk
  obtain ⟨ax', ay', e', _, _, h5, h6, e2⟩ := mem_precAt.mp hk'
  rw [e] at e'
  simp only [Option.some.injEq, Prod.mk.injEq] at e'
  obtain ⟨rfl, rfl⟩ := e'
  obtain ⟨o1, o2, t1, t2, t3, t4⟩ := axes_ok h e
  have p1 := prc_lt o1 h1 (by omega) h4
  have p2 := prc_lt o1 h1 (by omega) h6
  have e3 : ax.prc x + ax.num * ay.prc y = ax.prc x' + ax.num * ay.prc y' := by omega
  have e4 : ax.prc x = ax.prc x' := by
    have := congrArg (· % ax.num) e3
    simpa [Nat.add_mul_mod_self_left, Nat.mod_eq_of_lt p1, Nat.mod_eq_of_lt p2] using this
  have e5 : ay.prc y = ay.prc y' := by
    have : ax.num * ay.prc y = ax.num * ay.prc y' := by omega
    exact Nat.eq_of_mul_eq_mul_left (by omega) this
  exact ⟨prc_inj o1 (by omega) (by omega) h4 h6 e4, prc_inj o2 (by omega) (by omega) h3 h5 e5⟩

theorem precAt_surj (h : TileOk t cs) {c r k : Nat} (hk : k < numPrec t cs c r) :
    ∃ x y, t.tx0 ≤ x ∧ x < t.tx1 ∧ t.ty0 ≤ y ∧ y < t.ty1 ∧ k ∈ precAt t cs c r x y := by
  unfold numPrec at hk
  cases hax : axes t cs c r with
  | none => rw [hax] at hk; simp at hk
  | some p =>
    obtain ⟨ax, ay⟩ := p
    rw [hax] at hk
    simp only at hk
    obtain ⟨o1, o2, t1, t2, t3, t4⟩ := axes_ok h hax
    have hne : ax.num ≠ 0 := by rintro h0; rw [h0] at hk; omega
    have hne' : ay.num ≠ 0 := by rintro h0; rw [h0] at hk; omega
    obtain ⟨x, a1, a2, a3, a4⟩ := prc_surj o1 (i := k % ax.num) (Nat.mod_lt _ (by omega))
    obtain ⟨y, b1, b2, b3, b4⟩ := prc_surj o2 (i := k / ax.num) (by
      rw [Nat.div_lt_iff_lt_mul (by omega), Nat.mul_comm]; exact hk)
    refine ⟨x, y, by omega, by omega, by omega, by omega, mem_precAt.mpr
      ⟨ax, ay, hax, hne, hne', b3, a3, ?_⟩⟩
    rw [a4, b4]
    exact (Nat.mod_add_div k ax.num).symm

/-! ## Each order contains each packet exactly once -/

theorem nodup_upto (a b : Nat) : (upto a b).Nodup := List.nodup_range'

theorem nodup_flatMap' {α β : Type} {xs : List α} {V : α → List β} (h : xs.Nodup)
    (h1 : ∀ x ∈ xs, (V x).Nodup) (h2 : ∀ x ∈ xs, ∀ y ∈ xs, ∀ p, p ∈ V x → p ∈ V y → x = y) :
    (xs.flatMap V).Nodup := by
  induction xs with
  | nil => simp
  | cons x xs ih =>
    rw [List.flatMap_cons, List.nodup_append]
    rw [List.nodup_cons] at h
    refine ⟨h1 x (by simp), ih h.2 (fun z hz => h1 z (by simp [hz])) (fun z hz w hw p a b =>
      h2 z (by simp [hz]) w (by simp [hw]) p a b), ?_⟩
    rintro p hp q hq rfl
    obtain ⟨z, hz, hqz⟩ := List.mem_flatMap.mp hq
    have := h2 x (by simp) z (by simp [hz]) p hp hqz
    exact h.1 (this ▸ hz)

theorem nodup_map' {α β : Type} {xs : List α} {f : α → β} (h : xs.Nodup)
    (h2 : ∀ x y, f x = f y → x = y) : (xs.map f).Nodup := 
  List.Pairwise.map f (fun x y hxy e => hxy (h2 x y e)) h

variable (b : Bounds)

theorem mem_lrcp (p : Pkt) : p ∈ lrcp t cs b ↔ IsPacket t cs b p := by
  unfold lrcp IsPacket
  simp only [List.mem_flatMap, List.mem_map, mem_upto, List.mem_range]
  constructor
  · rintro ⟨l, hl, r, hr, c, hc, k, hk, rfl⟩
    exact ⟨hl.1, hl.2, hr.1, hr.2, hc.1, hc.2, hk⟩
  · rintro ⟨h1, h2, h3, h4, h5, h6, h7⟩
    exact ⟨p.layno, ⟨h1, h2⟩, p.resno, ⟨h3, h4⟩, p.compno, ⟨h5, h6⟩, p.precno, h7, rfl⟩

theorem mem_rlcp (p : Pkt) : p ∈ rlcp t cs b ↔ IsPacket t cs b p := by
  unfold rlcp IsPacket
  simp only [List.mem_flatMap, List.mem_map, mem_upto, List.mem_range]
  constructor
  · rintro ⟨r, hr, l, hl, c, hc, k, hk, rfl⟩
    exact ⟨hl.1, hl.2, hr.1, hr.2, hc.1, hc.2, hk⟩
  · rintro ⟨h1, h2, h3, h4, h5, h6, h7⟩
    exact ⟨p.resno, ⟨h3, h4⟩, p.layno, ⟨h1, h2⟩, p.compno, ⟨h5, h6⟩, p.precno, h7, rfl⟩

theorem mem_rpcl (h : TileOk t cs) (p : Pkt) : p ∈ rpcl t cs b ↔ IsPacket t cs b p := by
  unfold rpcl IsPacket
  simp only [List.mem_flatMap, List.mem_map, mem_upto]
  constructor
  · rintro ⟨r, hr, y, hy, x, hx, c, hc, k, hk, l, hl, rfl⟩
    exact ⟨hl.1, hl.2, hr.1, hr.2, hc.1, hc.2, precAt_lt h hx.2 hy.2 hk⟩
  · rintro ⟨h1, h2, h3, h4, h5, h6, h7⟩
    obtain ⟨x, y, a1, a2, a3, a4, a5⟩ := precAt_surj h h7
    exact ⟨p.resno, ⟨h3, h4⟩, y, ⟨a3, a4⟩, x, ⟨a1, a2⟩, p.compno, ⟨h5, h6⟩, p.precno, a5, p.layno, ⟨h1, h2⟩, rfl⟩

theorem mem_pcrl (h : TileOk t cs) (p : Pkt) : p ∈ pcrl t cs b ↔ IsPacket t cs b p := by
  unfold pcrl IsPacket
  simp only [List.mem_flatMap, List.mem_map, mem_upto]
  constructor
  · rintro ⟨y, hy, x, hx, c, hc, r, hr, k, hk, l, hl, rfl⟩
    exact ⟨hl.1, hl.2, hr.1, hr.2, hc.1, hc.2, precAt_lt h hx.2 hy.2 hk⟩
  · rintro ⟨h1, h2, h3, h4, h5, h6, h7⟩
    obtain ⟨x, y, a1, a2, a3, a4, a5⟩ := precAt_surj h h7
    exact ⟨y, ⟨a3, a4⟩, x, ⟨a1, a2⟩, p.compno, ⟨h5, h6⟩, p.resno, ⟨h3, h4⟩, p.precno, a5, p.layno, ⟨h1, h2⟩, rfl⟩

theorem mem_cprl (h : TileOk t cs) (p : Pkt) : p ∈ cprl t cs b ↔ IsPacket t cs b p := by
  unfold cprl IsPacket
  simp only [List.mem_flatMap, List.mem_map, mem_upto]
  constructor
  · rintro ⟨c, hc, y, hy, x, hx, r, hr, k, hk, l, hl, rfl⟩
    exact ⟨hl.1, hl.2, hr.1, hr.2, hc.1, hc.2, precAt_lt h hx.2 hy.2 hk⟩
  · rintro ⟨h1, h2, h3, h4, h5, h6, h7⟩
    obtain ⟨x, y, a1, a2, a3, a4, a5⟩ := precAt_surj h h7
    exact ⟨p.compno, ⟨h5, h6⟩, y, ⟨a3, a4⟩, x, ⟨a1, a2⟩, p.resno, ⟨h3, h4⟩, p.precno, a5, p.layno, ⟨h1, h2⟩, rfl⟩

theorem nodup_lrcp : (lrcp t cs b).Nodup := by
  unfold lrcp
  refine nodup_flatMap' (nodup_upto _ _) (fun l _ => nodup_flatMap' (nodup_upto _ _) (fun r _ =>
    nodup_flatMap' (nodup_upto _ _) (fun c _ => nodup_map' List.nodup_range ?_) ?_) ?_) ?_
  · intro k k' e; exact congrArg Pkt.precno e
  · intro c _ c' _ p; simp only [List.mem_map]; rintro ⟨k, _, rfl⟩ ⟨k', _, e⟩
    exact (congrArg Pkt.compno e).symm
  · intro r _ r' _ p; simp only [List.mem_map, List.mem_flatMap]
    rintro ⟨c, _, k, _, rfl⟩ ⟨c', _, k', _, e⟩
    exact (congrArg Pkt.resno e).symm
  · intro r _ r' _ p; simp only [List.mem_map, List.mem_flatMap]
    rintro ⟨_, _, c, _, k, _, rfl⟩ ⟨_, _, c', _, k', _, e⟩
    exact (congrArg Pkt.layno e).symm

theorem nodup_rlcp : (rlcp t cs b).Nodup := by
  unfold rlcp
  refine nodup_flatMap' (nodup_upto _ _) (fun l _ => nodup_flatMap' (nodup_upto _ _) (fun r _ =>
    nodup_flatMap' (nodup_upto _ _) (fun c _ => nodup_map' List.nodup_range ?_) ?_) ?_) ?_
  · intro k k' e; exact congrArg Pkt.precno e
  · intro c _ c' _ p; simp only [List.mem_map]; rintro ⟨k, _, rfl⟩ ⟨k', _, e⟩
    exact (congrArg Pkt.compno e).symm
  · intro r _ r' _ p; simp only [List.mem_map, List.mem_flatMap]
    rintro ⟨c, _, k, _, rfl⟩ ⟨c', _, k', _, e⟩
    exact (congrArg Pkt.layno e).symm
  · intro r _ r' _ p; simp only [List.mem_map, List.mem_flatMap]
    rintro ⟨_, _, c, _, k, _, rfl⟩ ⟨_, _, c', _, k', _, e⟩
    exact (congrArg Pkt.resno e).symm

theorem nodup_at (c r x y : Nat) : ((precAt t cs c r x y).flatMap fun k =>
    (upto b.lay0 b.lay1).map fun l => (⟨l, r, c, k⟩ : Pkt)).Nodup := by
  refine nodup_flatMap' (precAt_nodup _ _ _ _) (fun k _ => nodup_map' (nodup_upto _ _) ?_) ?_
  · intro k k' e; exact congrArg Pkt.layno e
  · intro k _ k' _ p; simp only [List.mem_map]; rintro ⟨k, _, rfl⟩ ⟨k', _, e⟩
    exact (congrArg Pkt.precno e).symm

theorem nodup_rpcl (h : TileOk t cs) : (rpcl t cs b).Nodup := by
  unfold rpcl
  refine nodup_flatMap' (nodup_upto _ _) (fun r _ => nodup_flatMap' (nodup_upto _ _) (fun y hy =>
    nodup_flatMap' (nodup_upto _ _) (fun x hx => nodup_flatMap' (nodup_upto _ _)
      (fun c _ => nodup_at b c r x y) ?_) ?_) ?_) ?_
  · intro c _ c' _ p; simp only [List.mem_map, List.mem_flatMap]
    rintro ⟨k, _, l, _, rfl⟩ ⟨k', _, l', _, e⟩
    exact (congrArg Pkt.compno e).symm
  · intro x hx x' hx' p; simp only [List.mem_map, List.mem_flatMap]
    rintro ⟨c, _, k, hk, l, _, rfl⟩ ⟨c', _, k', hk', l', _, e⟩
    injection e with _ _ e2 e3; subst e2 e3
    rw [mem_upto] at hx hx' hy
    exact (precAt_inj h hx hy hx' hy hk hk').1
  · intro y hy y' hy' p; simp only [List.mem_map, List.mem_flatMap]
    rintro ⟨x, hx, c, _, k, hk, l, _, rfl⟩ ⟨x', hx', c', _, k', hk', l', _, e⟩
    injection e with _ _ e2 e3; subst e2 e3
    rw [mem_upto] at hx hx' hy hy'
    exact (precAt_inj h hx hy hx' hy' hk hk').2
  · intro r _ r' _ p; simp only [List.mem_map, List.mem_flatMap]
    rintro ⟨y, hy, x, hx, c, _, k, hk, l, _, rfl⟩ ⟨y', hy', x', hx', c', _, k', hk', l', _, e⟩
    exact (congrArg Pkt.resno e).symm

theorem nodup_pcrl (h : TileOk t cs) : (pcrl t cs b).Nodup := by
  unfold pcrl
  refine nodup_flatMap' (nodup_upto _ _) (fun y hy =>
    nodup_flatMap' (nodup_upto _ _) (fun x hx => nodup_flatMap' (nodup_upto _ _)
      (fun c _ => nodup_flatMap' (nodup_upto _ _) (fun r _ => nodup_at b c r x y) ?_) ?_) ?_) ?_
  · intro c _ c' _ p; simp only [List.mem_map, List.mem_flatMap]
    rintro ⟨k, _, l, _, rfl⟩ ⟨k', _, l', _, e⟩
    exact (congrArg Pkt.resno e).symm
  · intro c _ c' _ p; simp only [List.mem_map, List.mem_flatMap]
    rintro ⟨_, _, k, _, l, _, rfl⟩ ⟨_, _, k', _, l', _, e⟩
    exact (congrArg Pkt.compno e).symm
  · intro x hx x' hx' p; simp only [List.mem_map, List.mem_flatMap]
    rintro ⟨c, _, r, _, k, hk, l, _, rfl⟩ ⟨c', _, r', _, k', hk', l', _, e⟩
    injection e with _ e1 e2 e3; subst e1 e2 e3
    rw [mem_upto] at hx hx' hy
    exact (precAt_inj h hx hy hx' hy hk hk').1
  · intro y hy y' hy' p; simp only [List.mem_map, List.mem_flatMap]
    rintro ⟨x, hx, c, _, r, _, k, hk, l, _, rfl⟩ ⟨x', hx', c', _, r', _, k', hk', l', _, e⟩
    injection e with _ e1 e2 e3; subst e1 e2 e3
    rw [mem_upto] at hx hx' hy hy'
    exact (precAt_inj h hx hy hx' hy' hk hk').2

theorem nodup_cprl (h : TileOk t cs) : (cprl t cs b).Nodup := by
  unfold cprl
  refine nodup_flatMap' (nodup_upto _ _) (fun c _ => nodup_flatMap' (nodup_upto _ _) (fun y hy =>
    nodup_flatMap' (nodup_upto _ _) (fun x hx => nodup_flatMap' (nodup_upto _ _)
      (fun r _ => nodup_at b c r x y) ?_) ?_) ?_) ?_
  · intro c _ c' _ p; simp only [List.mem_map, List.mem_flatMap]
    rintro ⟨k, _, l, _, rfl⟩ ⟨k', _, l', _, e⟩
    exact (congrArg Pkt.resno e).symm
  · intro x hx x' hx' p; simp only [List.mem_map, List.mem_flatMap]
    rintro ⟨r, _, k, hk, l, _, rfl⟩ ⟨r', _, k', hk', l', _, e⟩
    injection e with _ e1 e2 e3; subst e1 e3
    rw [mem_upto] at hx hx' hy
    exact (precAt_inj h hx hy hx' hy hk hk').1
  · intro y hy y' hy' p; simp only [List.mem_map, List.mem_flatMap]
    rintro ⟨x, hx, r, _, k, hk, l, _, rfl⟩ ⟨x', hx', r', _, k', hk', l', _, e⟩
    injection e with _ e1 e2 e3; subst e1 e3
    rw [mem_upto] at hx hx' hy hy'
    exact (precAt_inj h hx hy hx' hy' hk hk').2
  · intro r _ r' _ p; simp only [List.mem_map, List.mem_flatMap]
    rintro ⟨y, hy, x, hx, c, _, k, hk, l, _, rfl⟩ ⟨y', hy', x', hx', c', _, k', hk', l', _, e⟩
    exact (congrArg Pkt.compno e).symm

end Jp2.Pi

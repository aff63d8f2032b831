import Verif.Jp2.CodecProps
/-!
# Plain images can be coded without loss

Images of up to 32768 by 32768 samples from the corner of the grid on, without subsampling, precinct sizes and tile-parts: one precinct per
resolution, so that the packets are easily counted.
-/
namespace Jp2.Codec
open Jp2.Hdr (Enc Tccp Writable)
open Jp2.Tcd (Rect CompP compOf compRect TileS cdiv tileRectOf)
open Jp2.Pi.Spec (ceil Axis)

/-- Parameters of the encoder for such an image; `R` resolutions, precision `P`. -/
structure PlainE (e : Enc) (P R : Nat) : Prop where
  corner : e.x0 = 0 ∧ e.y0 = 0 ∧ e.tx0 = 0 ∧ e.ty0 = 0
  large : e.x1 ≤ 2 ^ 15 ∧ e.y1 ≤ 2 ^ 15
  comps : ∀ c ∈ e.comps, c.prec = P ∧ c.dx = 1 ∧ c.dy = 1
  prec : 1 ≤ P ∧ P ≤ 16
  res : 1 ≤ R ∧ R ≤ 6
  numres : ∀ t ∈ e.tccps, t.numres = R
  rev : ∀ t ∈ e.tccps, t.qmfbid = 1 ∧ t.qntsty = 0 ∧ t.roishift = 0
  prcs : ∀ t ∈ e.tccps, ∀ i < R, t.prcs[i]? = some (15, 15)
  blocks : ∀ t ∈ e.tccps, 8 ≤ t.cblkw + t.cblkh
  style : ∀ t ∈ e.tccps, t.cblksty < 64
  steps : ∀ t ∈ e.tccps, ∀ (i : Nat) (s : Nat × Nat), i < 3 * (t.numres - 1) + 1 → t.steps[i]? = some s → 1 ≤ s.1
  layers : e.numlayers ≤ 100
  order : e.prg ≠ 2
  tile_x : 2 ^ (R - 1) ∣ e.tdx ∨ e.x1 ≤ e.tdx
  tile_y : 2 ^ (R - 1) ∣ e.tdy ∨ e.y1 ≤ e.tdy
  colour : e.mct = 1 → 3 ≤ e.comps.length

theorem take_same {l : List (Nat × Nat)} {R : Nat} {x : Nat × Nat} (h : ∀ i < R, l[i]? = some x) : l.take R = List.replicate R x := by
  apply List.ext_getElem?
  intro i
  rw [List.getElem?_take, List.getElem?_replicate]
  split
  · rename_i hi; rw [h i hi]
  · rfl

theorem PlainE.comp {sz : Nat × Nat} {e : Enc} {P R : Nat} (h : PlainE e P R) {c : CompP} (hc : c ∈ (params sz (encPar e)).comps) :
    c.dx = 1 ∧ c.dy = 1 ∧ c.prc = List.replicate R (15, 15) ∧ ∃ t ∈ e.tccps, c.cblkw = t.cblkw ∧ c.cblkh = t.cblkh := by
  obtain ⟨i, hi⟩ := List.getElem?_of_mem hc
  obtain ⟨k, t, h1, h2, rfl, -⟩ := param_comp hi
  have m1 := List.mem_of_getElem? h1
  have m2 := List.mem_of_getElem? h2
  obtain ⟨-, c2, c3⟩ := h.comps k m1
  refine ⟨c2, c3, ?_, t, m2, rfl, rfl⟩
  simp only [h.numres t m2]
  exact take_same (h.prcs t m2)

/-! ## One axis -/

/-- A tile along an axis. -/
theorem tile_axis {td x1 tw L i : Nat} (htd : 0 < td) (hx : x1 ≤ 2 ^ 15) (htw : tw = Hdr.cdiv (x1 - 0) td) (hi : i < tw) (hd : 2 ^ L ∣ td ∨ x1 ≤ td) :
    ∃ a b, a = 2 ^ L * (a / 2 ^ L) ∧ a < b ∧ b ≤ 2 ^ 15 ∧ max (0 + i * td) 0 = a ∧ min (0 + (i + 1) * td) x1 = b := by
  have hlt := Hdr.grid_lt htd htw hi
  have e1 : (i + 1) * td = i * td + td := by ring
  refine ⟨i * td, min (0 + (i + 1) * td) x1, ?_, by omega, by omega, by omega, rfl⟩
  rcases hd with hd | hd
  · exact (Nat.mul_div_cancel' (Dvd.dvd.mul_left hd i)).symm
  · have h0 : i = 0 := by
      rcases Nat.eq_zero_or_pos i with h | h
      · exact h
      · have : 1 * td ≤ i * td := Nat.mul_le_mul_right _ h
        omega
    subst h0
    simp

theorem pow_split {L k : Nat} (h : k ≤ L) (q : Nat) : 2 ^ L * q = 2 ^ k * (2 ^ (L - k) * q) := by
  rw [← Nat.mul_assoc, ← Nat.pow_add]
  congr 2
  omega

theorem ceil_mul (p q : Nat) (hp : 0 < p) : (p * q + p - 1) / p = q := by
  rw [Nat.div_eq_iff hp, Nat.mul_comm]
  omega

theorem num_one {a b L lev : Nat} (ha : a = 2 ^ L * (a / 2 ^ L)) (hab : a < b) (hb : b ≤ 2 ^ 15) (hl : lev ≤ L) : (⟨a, b, 1, lev, 15⟩ : Axis).num = 1 := by
  have hp : 0 < 2 ^ lev := Nat.two_pow_pos lev
  have e0 : (⟨a, b, 1, lev, 15⟩ : Axis).tr0 = a / 2 ^ lev := by
    show ceil a (1 * 2 ^ lev) = _
    unfold ceil
    rw [Nat.one_mul, ha, pow_split hl, ceil_mul _ _ hp, Nat.mul_div_cancel_left _ hp]
  have e1 : (⟨a, b, 1, lev, 15⟩ : Axis).tr1 = (b + 2 ^ lev - 1) / 2 ^ lev := by
    show ceil b (1 * 2 ^ lev) = _
    unfold ceil
    rw [Nat.one_mul]
  have l1 : a / 2 ^ lev < (b + 2 ^ lev - 1) / 2 ^ lev := by
    have : (a / 2 ^ lev) * 2 ^ lev ≤ a := Nat.div_mul_le_self a _
    have : a / 2 ^ lev + 1 ≤ (b + 2 ^ lev - 1) / 2 ^ lev := by
      rw [Nat.le_div_iff_mul_le hp, Nat.add_mul]
      omega
    omega
  have l2 : (b + 2 ^ lev - 1) / 2 ^ lev ≤ 2 ^ 15 := by
    have : (b + 2 ^ lev - 1) / 2 ^ lev < 2 ^ 15 + 1 := by
      rw [Nat.div_lt_iff_lt_mul hp]
      have : b * 1 ≤ 2 ^ 15 * 2 ^ lev := Nat.mul_le_mul hb hp
      rw [Nat.add_mul]
      omega
    omega
  unfold Axis.num
  rw [e0, e1, if_pos l1]
  unfold ceil
  simp only
  omega

theorem not_odd {a L k : Nat} (ha : a = 2 ^ L * (a / 2 ^ L)) (hk : k < L) : Dwt.ceilDiv2 a k % 2 = 0 := by
  have hp : 0 < 2 ^ k := Nat.two_pow_pos k
  unfold Dwt.ceilDiv2
  rw [ha, pow_split (le_of_lt hk), ceil_mul _ _ hp]
  obtain ⟨d, hd⟩ : ∃ d, L - k = d + 1 := ⟨L - k - 1, by omega⟩
  rw [hd, Nat.pow_succ]
  rw [show 2 ^ d * 2 * (a / 2 ^ L) = 2 * (2 ^ d * (a / 2 ^ L)) by ring]
  omega

/-! ## A tile -/

/-- The tiles of such an image. -/
structure TileAt (R : Nat) (a b a' b' : Nat) : Prop where
  x : a = 2 ^ (R - 1) * (a / 2 ^ (R - 1)) ∧ a < a' ∧ a' ≤ 2 ^ 15
  y : b = 2 ^ (R - 1) * (b / 2 ^ (R - 1)) ∧ b < b' ∧ b' ≤ 2 ^ 15

theorem PlainE.tileAt {sz : Nat × Nat} {e : Enc} {P R : Nat} (h : PlainE e P R) (hw : Writable e) {n : Nat} (hn : n < (encPar e).tw * (encPar e).th) :
    ∃ a b a' b' : Nat, TileAt R a b a' b' ∧ tileRectOf (params sz (encPar e)) n = ⟨a, b, a', b'⟩ ∧ ∀ l g, Pi.Spec.tileRect (Pipe.piParams (params sz (encPar e)) l g) n = ⟨a, b, a', b'⟩ := by
  obtain ⟨z1, z2, z3, z4⟩ := h.corner
  have tx := hw.tile_x
  have ty := hw.tile_y
  have htw : 0 < (encPar e).tw := by
    rcases Nat.eq_zero_or_pos (encPar e).tw with h | h
    · rw [h, Nat.zero_mul] at hn; omega
    · exact h
  have ex : (encPar e).tw = Hdr.cdiv (e.x1 - 0) e.tdx := by unfold encPar; simp only [z3]
  have ey : (encPar e).th = Hdr.cdiv (e.y1 - 0) e.tdy := by unfold encPar; simp only [z4]
  obtain ⟨a, a', k1, k2, k3, k4, k5⟩ := tile_axis (by omega) h.large.1 ex (Nat.mod_lt n htw) h.tile_x
  obtain ⟨b, b', m1, m2, m3, m4, m5⟩ := tile_axis (by omega) h.large.2 ey ((Nat.div_lt_iff_lt_mul htw).2 (by rw [Nat.mul_comm]; exact hn)) h.tile_y
  refine ⟨a, b, a', b', ⟨⟨k1, k2, k3⟩, m1, m2, m3⟩, ?_, fun l g => ?_⟩
  · unfold tileRectOf
    show (⟨((max (e.tx0 + n % (encPar e).tw * e.tdx) e.x0 : Nat) : Int), ((max (e.ty0 + n / (encPar e).tw * e.tdy) e.y0 : Nat) : Int),
      ((min (e.tx0 + (n % (encPar e).tw + 1) * e.tdx) e.x1 : Nat) : Int), ((min (e.ty0 + (n / (encPar e).tw + 1) * e.tdy) e.y1 : Nat) : Int)⟩ : Rect) = _
    rw [z1, z2, z3, z4, k4, m4, k5, m5]
  · show (⟨max (e.tx0 + n % (encPar e).tw * e.tdx) e.x0, max (e.ty0 + n / (encPar e).tw * e.tdy) e.y0,
      min (e.tx0 + (n % (encPar e).tw + 1) * e.tdx) e.x1, min (e.ty0 + (n / (encPar e).tw + 1) * e.tdy) e.y1⟩ : Pi.Spec.Tile) = _
    rw [z1, z2, z3, z4, k4, m4, k5, m5]

theorem PlainE.piComp {sz : Nat × Nat} {e : Enc} {P R : Nat} (h : PlainE e P R) {l : Nat} {g : Int} {c : Pi.CompParams}
    (hc : c ∈ (Pipe.piParams (params sz (encPar e)) l g).comps) : c = ⟨1, 1, List.replicate R (15, 15)⟩ := by
  have hc' : c ∈ (params sz (encPar e)).comps.map fun c => (⟨c.dx, c.dy, c.prc⟩ : Pi.CompParams) := hc
  rw [List.mem_map] at hc'
  obtain ⟨q, hq, rfl⟩ := hc'
  obtain ⟨h1, h2, h3, -⟩ := h.comp hq
  rw [h1, h2, h3]

theorem PlainE.axes {sz : Nat × Nat} {e : Enc} {P R : Nat} (h : PlainE e P R) {l : Nat} {g : Int} {a b a' b' c r : Nat} {ax ay : Axis}
    (hax : Pi.Spec.axes ⟨a, b, a', b'⟩ (Pipe.piParams (params sz (encPar e)) l g).comps c r = some (ax, ay)) :
    r < R ∧ c < (Pipe.piParams (params sz (encPar e)) l g).comps.length ∧ ax = ⟨a, a', 1, R - 1 - r, 15⟩ ∧ ay = ⟨b, b', 1, R - 1 - r, 15⟩ := by
  unfold Pi.Spec.axes at hax
  split at hax
  · cases hax
  · rename_i cp hcp
    have e1 := h.piComp (List.mem_of_getElem? hcp)
    subst e1
    simp only [List.getElem?_replicate, List.length_replicate] at hax
    split at hax
    · cases hax
    · rename_i q hq
      split at hq
      · rename_i hr
        cases hq
        cases hax
        exact ⟨hr, (List.getElem?_eq_some_iff.1 hcp).1, rfl, rfl⟩
      · cases hq

theorem PlainE.numPrec {sz : Nat × Nat} {e : Enc} {P R : Nat} (h : PlainE e P R) {l : Nat} {g : Int} {a b a' b' : Nat} (ht : TileAt R a b a' b') (c r : Nat) :
    Pi.Spec.numPrec ⟨a, b, a', b'⟩ (Pipe.piParams (params sz (encPar e)) l g).comps c r =
      if c < (Pipe.piParams (params sz (encPar e)) l g).comps.length ∧ r < R then 1 else 0 := by
  unfold Pi.Spec.numPrec
  cases hax : Pi.Spec.axes ⟨a, b, a', b'⟩ (Pipe.piParams (params sz (encPar e)) l g).comps c r with
  | none =>
    rw [if_neg]
    rintro ⟨h1, h2⟩
    unfold Pi.Spec.axes at hax
    have e1 := h.piComp (List.getElem_mem h1)
    rw [List.getElem?_eq_getElem h1, e1] at hax
    simp [List.getElem?_replicate, h2] at hax
  | some q =>
    obtain ⟨ax, ay⟩ := q
    obtain ⟨h1, h2, rfl, rfl⟩ := h.axes hax
    rw [if_pos ⟨h2, h1⟩]
    simp only [num_one ht.x.1 ht.x.2.1 ht.x.2.2 (show R - 1 - r ≤ R - 1 by omega), num_one ht.y.1 ht.y.2.1 ht.y.2.2 (show R - 1 - r ≤ R - 1 by omega)]

theorem len_pos {sz : Nat × Nat} {e : Enc} (hw : Writable e) (l : Nat) (g : Int) :
    0 < (Pipe.piParams (params sz (encPar e)) l g).comps.length ∧ (Pipe.piParams (params sz (encPar e)) l g).comps.length ≤ 16384 := by
  have : (Pipe.piParams (params sz (encPar e)) l g).comps.length = e.comps.length := by
    unfold Pipe.piParams params encPar
    simp [hw.tccps]
  rw [this]
  have := hw.comps_len
  omega

/-! ## The conditions of C72 -/

theorem PlainE.suits {m : Mode} {sz : Nat × Nat} {e : Enc} {P R : Nat} (h : PlainE e P R) (hw : Writable e)
    (hsz : (0 < sz.1 ∧ sz.1 ≤ 512) ∧ 0 < sz.2 ∧ sz.2 ≤ 512) : Suits m sz none e P := by
  have hsz0 : 0 < sz.1 ∧ 0 < sz.2 := ⟨hsz.1.1, hsz.2.1⟩
  have hR := h.res
  have hmct := hw.mct
  have fit := fit_of hw hsz0
  refine ⟨?_, ?_, hsz0, fun c hc => le_of_eq (h.comps c hc).1, ?_, ?_, ?_, ?_, ?_⟩
  · intro t ht
    obtain ⟨r1, r2, r3⟩ := h.rev t ht
    exact ⟨r1, r2, r3, fun _ i hi => h.prcs t ht i (by rw [← h.numres t ht]; exact hi)⟩
  · obtain ⟨l1, l2⟩ := h.large
    have x1 : (params sz (encPar e)).x1 = e.x1 := rfl
    have y1 : (params sz (encPar e)).y1 = e.y1 := rfl
    refine ⟨by omega, by omega, fun c hc pd hpd => ?_, fun c hc pd hpd => ?_⟩
    · rw [(h.comp hc).2.2.1] at hpd
      obtain rfl := (List.mem_replicate.1 hpd).2
      have e1 : (params sz (encPar e)).x1 / 2 ^ 15 + 1 ≤ 2 := by omega
      have e2 : (params sz (encPar e)).y1 / 2 ^ 15 + 1 ≤ 2 := by omega
      have := Nat.mul_le_mul (Nat.mul_le_mul e1 e2) hsz.1.2
      exact lt_of_le_of_lt this (by norm_num)
    · obtain ⟨-, -, h3, t, ht, h4, h5⟩ := h.comp hc
      rw [h3] at hpd
      obtain rfl := (List.mem_replicate.1 hpd).2
      have hb := h.blocks t ht
      have st := hw.style t ht
      have e1 : 2 ^ (15 - c.cblkw) * 2 ^ (15 - c.cblkh) ≤ 2 ^ 22 := by
        rw [← Nat.pow_add]
        exact Nat.pow_le_pow_right (by norm_num) (by have := st.cblkw; have := st.cblkh; omega)
      have := Nat.mul_le_mul e1 hsz.2.2
      exact lt_of_le_of_lt this (by norm_num)
  · by_cases hm : e.mct = 0
    · exact Or.inl hm
    · right
      have := h.colour (by omega)
      match hc : e.comps, this with
      | a :: b :: c :: rest, _ =>
        have ha := h.comps a (by rw [hc]; simp)
        have hb := h.comps b (by rw [hc]; simp)
        have hc' := h.comps c (by rw [hc]; simp)
        exact ⟨a, b, c, rest, rfl, ⟨by omega, by omega⟩, by omega, by omega⟩
  · intro n hn T hT
    obtain ⟨a, b, a', b', ta, t1, -⟩ := h.tileAt (sz := sz) hw hn
    have hfit := fit.2.1 n hn
    have hTc : ∀ tc ∈ T.comps, tc.rect = ⟨a, b, a', b'⟩ ∧ tc.ress.length = R := by
      intro tc htc
      rw [Pipe.comps_eq (S := setup sz (encPar e) n) hfit hT, List.mem_map] at htc
      obtain ⟨c, hc, rfl⟩ := htc
      obtain ⟨c1, c2, c3, -⟩ := h.comp hc
      refine ⟨?_, by rw [Pipe.ress_length, c3, List.length_replicate]⟩
      show compRect (tileRectOf (params sz (encPar e)) n) c = _
      rw [t1]
      unfold compRect cdiv
      rw [c1, c2]
      simp
    refine ⟨hfit, ?_, by have := h.prec; omega, ?_, ?_, ?_, ?_, ?_⟩
    · intro c hc
      obtain ⟨-, -, -, t, ht, h4, h5⟩ := h.comp hc
      have st := hw.style t ht
      exact ⟨by rw [h4]; exact st.cblkw.2, by rw [h5]; exact st.cblkh.2⟩
    · intro c hc
      rw [(h.comp hc).2.2.1, List.length_replicate]
      show (2 : Int) ^ e.mct * 2 ^ (P - 1) * 4 ^ (R - 1) ≤ 2 ^ 30 - 2
      have e1 : (2 : Int) ^ e.mct ≤ 2 ^ 1 := pow_le_pow_right₀ (by norm_num) hmct
      have e2 : (2 : Int) ^ (P - 1) ≤ 2 ^ 15 := pow_le_pow_right₀ (by norm_num) (by have := h.prec; omega)
      have e3 : (4 : Int) ^ (R - 1) ≤ 4 ^ 5 := pow_le_pow_right₀ (by norm_num) (by omega)
      have e12 := mul_le_mul e1 e2 (by positivity) (by positivity)
      have := mul_le_mul e12 e3 (by positivity) (by positivity)
      exact le_trans this (by norm_num)
    · intro tc htc
      rw [(hTc tc htc).1]
      have := ta.x
      have := ta.y
      unfold Pipe.width Pipe.height
      simp only
      have e1 : ((a' : Int) - a).toNat = a' - a := by omega
      have e2 : ((b' : Int) - b).toNat = b' - b := by omega
      rw [e1, e2]
      refine ⟨by omega, ?_⟩
      have := Nat.mul_le_mul (show a' - a ≤ 2 ^ 15 by omega) (show b' - b ≤ 2 ^ 15 by omega)
      exact lt_of_le_of_lt this (by norm_num)
    · intro tc htc
      rw [(hTc tc htc).1, (hTc tc htc).2]
      intro k hk
      have o1 := not_odd ta.x.1 hk
      have o2 := not_odd ta.y.1 hk
      unfold Dwt.resAt Pipe.toRes
      simp only [Int.toNat_natCast]
      exact ⟨fun h => by omega, fun h => by omega⟩
    · intro c rn bi
      show 0 ≤ planes e.tccps c rn bi ∧ planes e.tccps c rn bi < 999
      unfold planes
      split
      · omega
      · rename_i t ht
        have hm := List.mem_of_getElem? ht
        by_cases hlt : rn < t.numres ∧ bi < (if rn = 0 then 1 else 3)
        · rw [if_pos hlt]
          split
          · omega
          · rename_i s hs
            have hlt2 := hlt.2
            have := h.steps t hm (bandNo rn bi) s (by
              unfold bandNo
              split
              · omega
              · rename_i h0
                rw [if_neg h0] at hlt2
                omega) hs
            have q1 := (hw.quant t hm).steps s (List.mem_of_getElem? hs)
            have q2 := (hw.quant t hm).numgbits
            omega
        · rw [if_neg hlt]; omega
    · intro x hx
      have hx' : x ∈ (setup sz (encPar e) n).cxs := hx
      unfold setup encPar at hx'
      simp only [List.mem_map] at hx'
      obtain ⟨⟨q, t⟩, hm, rfl⟩ := hx'
      have hs := h.style t (List.of_mem_zip hm).2
      show t.cblksty &&& 0x40 = 0
      have : ∀ n < 64, n &&& 0x40 = 0 := by decide
      exact this _ hs
  · intro n hn
    obtain ⟨a, b, a', b', ta, -, t2⟩ := h.tileAt (sz := sz) hw hn
    have t2 : Pi.Spec.tileRect (setup sz (encPar e) n).pi (setup sz (encPar e) n).n = ⟨a, b, a', b'⟩ := t2 e.numlayers e.prg
    have hfit := fit.2.1 n hn
    have hlen := len_pos (sz := sz) hw e.numlayers e.prg
    have hnp := fun c r => h.numPrec (sz := sz) (l := e.numlayers) (g := e.prg) ta c r
    have hl := h.layers
    have hl2 := hw.layers
    have hprg := hw.prg
    have hord := h.order
    have hlg := h.large
    refine ⟨⟨hfit.tw, hfit.gx, hfit.gy, hfit.tdx, hfit.tdy, ?_, ?_, ?_, ?_, ?_, ?_, ?_⟩, ⟨⟨0, 0, ?_⟩, R, ?_, ?_⟩, ⟨?_, ?_⟩, ⟨?_, ?_, ?_, ?_⟩, Or.inl ⟨rfl, ?_⟩⟩
    · show e.x1 ≤ 2 ^ 31; omega
    · show e.y1 ≤ 2 ^ 31; omega
    · rw [t2]; exact le_of_lt ta.x.2.1
    · rw [t2]; exact le_of_lt ta.y.2.1
    · intro cp hcp
      rw [h.piComp hcp]
      refine ⟨(by show 0 < 1 ∧ 1 ≤ 255; decide), (by show 0 < 1 ∧ 1 ≤ 255; decide), ?_, ?_⟩
      · simp only [List.length_replicate]; omega
      · intro q hq
        rw [(List.mem_replicate.1 hq).2]
        decide
    · exact hlen.2
    · show e.numlayers ≤ 65535; omega
    · rw [t2]
      show Pi.Spec.numPrec _ (Pipe.piParams (params sz (encPar e)) e.numlayers e.prg).comps 0 0 ≠ 0
      rw [hnp, if_pos ⟨hlen.1, by omega⟩]
      decide
    · intro cp hcp
      rw [h.piComp hcp, List.length_replicate]
    · intro c r
      rw [t2]
      show (e.numlayers + 1) * (R * ((Pipe.piParams (params sz (encPar e)) e.numlayers e.prg).comps.length *
        Pi.Spec.numPrec _ (Pipe.piParams (params sz (encPar e)) e.numlayers e.prg).comps c r)) < 2 ^ 32
      rw [hnp]
      have e1 : (if c < (Pipe.piParams (params sz (encPar e)) e.numlayers e.prg).comps.length ∧ r < R then 1 else 0) ≤ 1 := by split <;> omega
      have := Nat.mul_le_mul (show e.numlayers + 1 ≤ 101 by omega) (Nat.mul_le_mul hR.2 (Nat.mul_le_mul hlen.2 e1))
      exact lt_of_le_of_lt this (by norm_num)
    · show 0 < e.numlayers; omega
    · show e.numlayers ≤ 999; omega
    · show (0 : Int) ≤ (e.prg : Int); omega
    · show (e.prg : Int) ≤ 4; omega
    · intro _
      rw [t2]
      intro c r ax ay c' r' ax' ay' h1 h2
      obtain ⟨-, -, rfl, rfl⟩ := h.axes (l := e.numlayers) (g := e.prg) h1
      obtain ⟨-, -, rfl, rfl⟩ := h.axes (l := e.numlayers) (g := e.prg) h2
      unfold Axis.step
      simp only [Nat.one_mul]
      have key : ∀ i j : Nat, 2 ^ i ≤ 2 ^ j → 2 ^ i ∣ 2 ^ j := fun i j hij => Nat.pow_dvd_pow 2 ((Nat.pow_le_pow_iff_right (by norm_num)).1 hij)
      exact ⟨key _ _, key _ _⟩
    · intro _
      rw [t2]
      intro c r ax ay h1
      obtain ⟨-, -, rfl, rfl⟩ := h.axes (l := e.numlayers) (g := e.prg) h1
      unfold Axis.step
      simp only [Nat.one_mul]
      have : 2 ^ (15 + (R - 1 - r)) < 2 ^ 32 := Nat.pow_lt_pow_right (by norm_num) (by omega)
      exact ⟨this, this⟩
    · show (e.prg : Int) ≠ 2; omega
  · intro n hn
    obtain ⟨a, b, a', b', ta, -, t2⟩ := h.tileAt (sz := sz) hw hn
    have t2 : Pi.Spec.tileRect (setup sz (encPar e) n).pi (setup sz (encPar e) n).n = ⟨a, b, a', b'⟩ := t2 e.numlayers e.prg
    have hlen := len_pos (sz := sz) hw e.numlayers e.prg
    refine ⟨⟨0, 0, 0, 0⟩, ⟨Nat.le_refl 0, ?_, Nat.le_refl 0, (by show 0 < 33; decide), Nat.le_refl 0, hlen.1, ?_⟩, fun f hf => by cases hf⟩
    · show 0 < e.numlayers
      have := hw.layers
      omega
    · rw [t2]
      show 0 < Pi.Spec.numPrec _ (Pipe.piParams (params sz (encPar e)) e.numlayers e.prg).comps 0 0
      rw [h.numPrec ta, if_pos ⟨hlen.1, by omega⟩]
      decide
  · intro n hn i hi
    refine ⟨1, ?_, by decide, by decide⟩
    unfold Tp.counts
    show (match [Pi.encWhole (setup sz (encPar e) n).pi i].mapM (Pi.numTp none (e.prg : Int)) with
      | none => Except.error _
      | some l => .ok l) = _
    have hl : Pi.lettersOf (e.prg : Int) ≠ [] := by
      have := hw.prg
      have := h.order
      have : e.prg = 0 ∨ e.prg = 1 ∨ e.prg = 3 ∨ e.prg = 4 := by omega
      rcases this with h | h | h | h <;> rw [h] <;> decide
    have : Pi.numTp none (e.prg : Int) (Pi.encWhole (setup sz (encPar e) n).pi i) = some 1 := by
      unfold Pi.numTp
      rw [if_neg hl]
    rw [List.mapM_cons, this]
    rfl

end Jp2.Codec

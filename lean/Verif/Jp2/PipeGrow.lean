import Verif.Jp2.PipeLossless
/-!
# How many bit planes the bands need

A level of the wavelet transform makes the coefficients of the low band at most 9/4 times as large (`Dwt.Grown`). So a number of bit planes that is
enough for the lowest band is, with the gain of the band added, enough for every band.
-/
namespace Jp2.Pipe
open Tcd (Rect Band Prec TileC TileS CompP RectOk compOf compRect resRect bandAx cdiv bno initTile)
open T2 (EncBand EncCblk)
open Jp2.Pi (Letter)
open Dwt (resAt)

/-- `opj_dwt_getgain`: one bit where one direction is high, two where both are. -/
def gainOf (rn bi : Nat) : Nat := if rn = 0 then 0 else if bi = 2 then 2 else 1

/-- Where a block lies along an axis. -/
theorem place_axis {rn : Nat} {c0 c1 u u' : Int} {lev ob : Nat} (hc : c0 ≤ c1) (ho : ob ≤ 1) (hz : rn = 0 → ob = 0) (k1 : (bandAx c0 c1 rn lev ob).1 ≤ u) (k2 : u ≤ u')
    (k3 : u' ≤ (bandAx c0 c1 rn lev ob).2) :
    u - (bandAx c0 c1 rn lev ob).1 + off c0 c1 lev ob + (u' - u) ≤ ext c0 c1 lev ∧
    (rn ≠ 0 → ob = 1 → ext c0 c1 (lev + 1) ≤ u - (bandAx c0 c1 rn lev ob).1 + off c0 c1 lev ob) ∧
    (rn ≠ 0 → ob = 0 → u - (bandAx c0 c1 rn lev ob).1 + off c0 c1 lev ob + (u' - u) ≤ ext c0 c1 (lev + 1)) := by
  have e0 := ext_nonneg hc (lev + 1)
  have e1 := ext_le hc lev
  have e2 := ext_anti hc lev
  by_cases hr : rn = 0
  · have hob := hz hr
    subst hob
    have : (bandAx c0 c1 rn lev 0).2 - (bandAx c0 c1 rn lev 0).1 = ext c0 c1 lev := by unfold bandAx ext; rw [if_pos hr]
    unfold off
    simp
    omega
  · have be := band_ext c0 c1 rn lev ob hr ho
    unfold off
    split <;> rename_i hob <;> [rw [if_pos hob] at be; rw [if_neg hob] at be] <;> omega

theorem resAt_ext {r : Rect} (h : RectOk r) (k : Nat) : (((resAt (toRes r) k).w : Nat) : Int) = ext r.x0 r.x1 k ∧ (((resAt (toRes r) k).h : Nat) : Int) = ext r.y0 r.y1 k := by
  rw [← toRes_resRect h]
  have hx := ext_nonneg h.x k
  have hy := ext_nonneg h.y k
  have p := Tcd.p2pos k
  have n : ∀ a : Int, 0 ≤ a → 0 ≤ cdiv a (2 ^ k) := fun a ha => Int.ediv_nonneg (by omega) (by omega)
  have nx := n _ h.x0
  have ny := n _ h.y0
  unfold ext at *
  unfold toRes resRect Dwt.Res.w Dwt.Res.h
  simp only
  omega

/-- The bound on a coefficient, and the number of bits it leaves. -/
theorem bits_low {n : Int} {a E : Int} {L b : Nat} (hn : n = 2 * a + 3) (h : n * 4 ^ L ≤ 9 ^ L * E) (hE : 9 ^ L * E < 4 ^ L * (2 ^ (b + 1) + 3)) : a < 2 ^ b := by
  have h4 : (0 : Int) < 4 ^ L := by positivity
  have : n < 2 ^ (b + 1) + 3 := by
    by_contra hc
    have := mul_le_mul_of_nonneg_left (not_lt.1 hc) (le_of_lt h4)
    nlinarith
  rw [pow_succ] at this
  omega

theorem below {E X : Int} (hX : 0 ≤ X) {L k : Nat} (hk : k < L) (h : 9 ^ L * E < 4 ^ L * X) : 9 * (9 ^ k * E) < 4 * (4 ^ k * X) := by
  by_contra hc
  have hc := not_lt.1 hc
  obtain ⟨d, rfl⟩ : ∃ d, L = d + (k + 1) := ⟨L - (k + 1), by omega⟩
  have e9 : (9 : Int) ^ (d + (k + 1)) * E = 9 ^ d * (9 * (9 ^ k * E)) := by ring
  have e4 : (4 : Int) ^ (d + (k + 1)) * X = 4 ^ d * (4 * (4 ^ k * X)) := by ring
  rw [e9, e4] at h
  have h0 : (0 : Int) ≤ 4 * (4 ^ k * X) := by positivity
  have a1 : (4 : Int) ^ d * (4 * (4 ^ k * X)) ≤ 9 ^ d * (4 * (4 ^ k * X)) := mul_le_mul_of_nonneg_right (pow_le_pow_left₀ (by norm_num) (by norm_num) d) h0
  have a2 : (9 : Int) ^ d * (4 * (4 ^ k * X)) ≤ 9 ^ d * (9 * (9 ^ k * E)) := mul_le_mul_of_nonneg_left hc (by positivity)
  omega

theorem bits_mid {n a E : Int} {L k b : Nat} (hn : n = 2 * a + 3) (hk : k < L) (h : n * 4 ^ k ≤ 3 * (9 ^ k * E)) (hE : 9 ^ L * E < 4 ^ L * (2 ^ (b + 1) + 3)) : a < 2 ^ (b + 1) := by
  have h4 : (0 : Int) < 4 ^ k := by positivity
  have hY : (0 : Int) < 2 ^ b := by positivity
  have hb := below (by positivity) hk hE
  have : 3 * n < 4 * (2 ^ (b + 1) + 3) := by
    by_contra hc
    have := mul_le_mul_of_nonneg_left (not_lt.1 hc) (le_of_lt h4)
    nlinarith
  rw [pow_succ] at this ⊢
  omega

theorem bits_high {n a E : Int} {L k b : Nat} (hn : n = 2 * a + 3) (hk : k < L) (h : n * 4 ^ k ≤ 4 * (9 ^ k * E)) (hE : 9 ^ L * E < 4 ^ L * (2 ^ (b + 1) + 3)) : a < 2 ^ (b + 2) := by
  have h4 : (0 : Int) < 4 ^ k := by positivity
  have hY : (0 : Int) < 2 ^ b := by positivity
  have hb := below (by positivity) hk hE
  have : 9 * n < 16 * (2 ^ (b + 1) + 3) := by
    by_contra hc
    have := mul_le_mul_of_nonneg_left (not_lt.1 hc) (le_of_lt h4)
    nlinarith
  rw [pow_succ] at this
  rw [pow_add]
  omega

theorem in_ext {p a b e : Int} {x w : Nat} (hp : 0 ≤ p) (hx : x < (b - a).toNat) (h : p + (b - a) ≤ e) (hw : ((w : Nat) : Int) = e) : p.toNat + x < w := by omega

theorem out_ext {p e : Int} {x w : Nat} (hp : 0 ≤ p) (h : e ≤ p) (hw : ((w : Nat) : Int) = e) : w ≤ p.toNat + x := by omega

/-- A coefficient of a block has no more bits than `b` and the gain of its band. -/
theorem band_bits {t : Rect} {c : CompP} {B : Int} {d : Mem Int} (hro : RectOk (compRect t c)) (hf : ∀ i q, c.prc[i]? = some q → Tcd.PdOk i q) (hg : Dwt.Grown (toRes (compRect t c)) (c.prc.length - 1) B d)
    {b : Nat} (hE : 9 ^ (c.prc.length - 1) * (2 * B + 3) < 4 ^ (c.prc.length - 1) * (2 ^ (b + 1) + 3))
    {rn bi k j : Nat} {r : Tcd.Res} {bd : Band} {p : Prec} {cb : Rect}
    (h1 : (compOf true t c).ress[rn]? = some r) (h2 : r.bands[bi]? = some bd) (h3 : bd.precs[k]? = some p) (h4 : p.cblks[j]? = some cb)
    {y x : Nat} (hy : y < height cb) (hx : x < width cb) {v : Int}
    (hv : d ((placeY t c rn bi cb.y0).toNat * width (compRect t c) + (placeX t c rn bi cb.x0).toNat + (y * width (compRect t c) + x)) = some v) :
    v.natAbs < 2 ^ (b + gainOf rn bi) := by
  have hB := blk_of h1 h2
  have hw := within hro hf h1 h2 h3 h4
  obtain ⟨⟨x0, x1⟩, y0, y1⟩ := placed hro hB hw
  obtain ⟨o1, o2⟩ := Tcd.bno_bits hB.band
  obtain ⟨wx0, wx, wx1, wy0, wy, wy1⟩ := hw
  rw [hB.brect, bandRect_eq] at wx0 wx1 wy0 wy1
  simp only at wx0 wx1 wy0 wy1
  have ax := place_axis (lev := c.prc.length - 1 - rn) hro.x o1 (fun e => by rw [e]; simp [bno]) wx0 wx wx1
  have ay := place_axis (lev := c.prc.length - 1 - rn) hro.y o2 (fun e => by rw [e]; simp [bno]) wy0 wy wy1
  change placeX t c rn bi cb.x0 + _ ≤ _ ∧ (_ → _ → _ ≤ placeX t c rn bi cb.x0) ∧ (_ → _ → placeX t c rn bi cb.x0 + _ ≤ _) at ax
  change placeY t c rn bi cb.y0 + _ ≤ _ ∧ (_ → _ → _ ≤ placeY t c rn bi cb.y0) ∧ (_ → _ → placeY t c rn bi cb.y0 + _ ≤ _) at ay
  obtain ⟨X, hX⟩ : ∃ X : Nat, X = (placeX t c rn bi cb.x0).toNat + x := ⟨_, rfl⟩
  obtain ⟨Y, hY⟩ : ∃ Y : Nat, Y = (placeY t c rn bi cb.y0).toNat + y := ⟨_, rfl⟩
  have hXw : X < width (compRect t c) := by rw [hX]; unfold width at hx ⊢; clear hE hg hv ax ay; omega
  have hq : (placeY t c rn bi cb.y0).toNat * width (compRect t c) + (placeX t c rn bi cb.x0).toNat + (y * width (compRect t c) + x) = Y * width (compRect t c) + X := by
    rw [hX, hY]; ring
  rw [hq] at hv
  have hg := hg _ v hv
  obtain ⟨ew, -⟩ := toRes_w hro
  obtain ⟨dm1, dm2⟩ := Dwt.div_mod_of (j := Y) hXw
  rw [ew, dm1, dm2] at hg
  obtain ⟨ew0, eh0⟩ := resAt_ext hro (c.prc.length - 1 - rn)
  obtain ⟨ew1, eh1⟩ := resAt_ext hro (c.prc.length - 1 - rn + 1)
  unfold width at hx
  unfold height at hy
  have inX : X < (resAt (toRes (compRect t c)) (c.prc.length - 1 - rn)).w := by rw [hX]; exact in_ext x0 hx ax.1 ew0
  have inY : Y < (resAt (toRes (compRect t c)) (c.prc.length - 1 - rn)).h := by rw [hY]; exact in_ext y0 hy ay.1 eh0
  have hres := hB.res
  have hn : (2 * ((v.natAbs : Nat) : Int) + 3) = 2 * ((v.natAbs : Nat) : Int) + 3 := rfl
  have goal : ((v.natAbs : Nat) : Int) < 2 ^ (b + gainOf rn bi) := by
    by_cases h0 : rn = 0
    · subst h0
      rw [Nat.sub_zero] at inX inY
      exact bits_low hn (hg.1 inX inY) hE
    · have hk : c.prc.length - 1 - rn < c.prc.length - 1 := by omega
      have hg2 := hg.2 _ hk inX inY
      have hb3 := hB.band
      rw [if_neg h0] at hb3
      have ebno : bno rn bi = bi + 1 := by unfold bno; rw [if_neg h0]
      rw [ebno] at ax ay
      have ax1 := ax.2.1 h0
      have ax2 := ax.2.2 h0
      have ay1 := ay.2.1 h0
      have ay2 := ay.2.2 h0
      unfold gainOf
      rw [if_neg h0]
      by_cases hb2 : bi = 2
      · rw [if_pos hb2]
        subst hb2
        have l1 := out_ext (x := x) x0 (ax1 rfl) ew1
        rw [← hX] at l1
        exact bits_high hn hk (hg2.1 (fun h => absurd h.1 (Nat.not_lt.2 l1))) hE
      · rw [if_neg hb2]
        refine bits_mid hn hk (hg2.2 ?_) hE
        rcases (by omega : bi = 0 ∨ bi = 1) with rfl | rfl
        · right
          have l1 := out_ext (x := x) x0 (ax1 rfl) ew1
          have l2 := in_ext y0 hy (ay2 rfl) eh1
          rw [← hX] at l1
          rw [← hY] at l2
          exact ⟨Nat.not_lt.2 l1, l2⟩
        · left
          have l1 := in_ext x0 hx (ax2 rfl) ew1
          have l2 := out_ext (x := y) y0 (ay1 rfl) eh1
          rw [← hX] at l1
          rw [← hY] at l2
          exact ⟨l1, Nat.not_lt.2 l2⟩
  exact_mod_cast goal

theorem level_of (P : Nat → Prop) (h0 : P 0) : ∀ L, P L ∨ ∃ k < L, P k ∧ ¬ P (k + 1)
  | 0 => Or.inl h0
  | L + 1 => by
    by_cases h : P (L + 1)
    · exact Or.inl h
    · rcases level_of P h0 L with h' | ⟨k, h1, h2, h3⟩
      · exact Or.inr ⟨L, by omega, h', h⟩
      · exact Or.inr ⟨k, by omega, h2, h3⟩

/-- No coefficient has more than `b + 2` bits. -/
theorem all_bits {t : Rect} {c : CompP} {B : Int} {d : Mem Int} (hro : RectOk (compRect t c)) (hb : BufOk t B c d) {b : Nat}
    (hE : 9 ^ (c.prc.length - 1) * (2 * B + 3) < 4 ^ (c.prc.length - 1) * (2 ^ (b + 1) + 3)) {q : Nat} {v : Int} (hv : d q = some v) : v.natAbs < 2 ^ (b + 2) := by
  have hg := hb.grown q v hv
  obtain ⟨ew, eh⟩ := toRes_w hro
  have hq : q < width (compRect t c) * height (compRect t c) := by
    have := hb.dom q
    rw [hv] at this
    exact of_decide_eq_true this.symm
  have hw : 0 < width (compRect t c) := by
    rcases Nat.eq_zero_or_pos (width (compRect t c)) with e | e
    · rw [e, Nat.zero_mul] at hq; omega
    · exact e
  have r0 : (resAt (toRes (compRect t c)) 0).w = width (compRect t c) ∧ (resAt (toRes (compRect t c)) 0).h = height (compRect t c) := by
    obtain ⟨e1, e2⟩ := resAt_ext hro 0
    rw [ext_zero] at e1 e2
    unfold width height
    omega
  rw [ew] at hg
  have hn : (2 * ((v.natAbs : Nat) : Int) + 3) = 2 * ((v.natAbs : Nat) : Int) + 3 := rfl
  have goal : ((v.natAbs : Nat) : Int) < 2 ^ (b + 2) := by
    rcases level_of (fun k => q % width (compRect t c) < (resAt (toRes (compRect t c)) k).w ∧ q / width (compRect t c) < (resAt (toRes (compRect t c)) k).h)
      (by rw [r0.1, r0.2]; exact ⟨Nat.mod_lt _ hw, Nat.div_lt_of_lt_mul hq⟩) (c.prc.length - 1) with h | ⟨k, h1, h2, h3⟩
    · have h' := bits_low hn (hg.1 h.1 h.2) hE
      have : (2 : Int) ^ b ≤ 2 ^ (b + 2) := pow_le_pow_right₀ (by norm_num) (by omega)
      omega
    · exact bits_high hn h1 ((hg.2 k h1 h2.1 h2.2).1 h3) hE
  exact_mod_cast goal

/-- A band announces as many bit planes as its coefficients need: so do its blocks. -/
theorem planes_grown {m : Mode} {t : Rect} {c : CompP} {B : Int} {data : Mem Int} (hc : CompOk t c data) (hg : Dwt.Grown (toRes (compRect t c)) (c.prc.length - 1) B data)
    {b : Nat} (hE : 9 ^ (c.prc.length - 1) * (2 * B + 3) < 4 ^ (c.prc.length - 1) * (2 ^ (b + 1) + 3)) (hb : b + 2 ≤ 25)
    {sty L : Nat} {bps : Nat → Int} {plan : Nat → Nat → Plan}
    (hplan : ∀ bi j, PlanOk L (plan bi j)) {rn k : Nat} {r : Tcd.Res} (hr : (compOf true t c).ress[rn]? = some r)
    {E : List EncBand} (hEb : codePrec m (compOf true t c) (styleOf sty) data bps plan rn k = some E)
    (hbps : ∀ bi, bi < (if rn = 0 then 1 else 3) → ((b + gainOf rn bi : Nat) : Int) ≤ bps bi) :
    ∀ e ∈ E, ∀ x ∈ e.prec.cblks, (x.numbps : Int) ≤ e.numbps := by
  intro e he x hx
  unfold codePrec at hEb
  rw [hr, Option.bind_some] at hEb
  obtain ⟨le, ge⟩ := mapIM_get hEb
  obtain ⟨bi, heb⟩ := List.mem_iff_getElem?.1 he
  obtain ⟨bd, hbd⟩ : ∃ b, r.bands[bi]? = some b := by
    have hlt : bi < r.bands.length := by rw [← le]; exact (List.getElem?_eq_some_iff.1 heb).1
    exact ⟨_, List.getElem?_eq_getElem hlt⟩
  obtain ⟨eb', e1, e2⟩ := ge bi bd hbd
  rw [heb] at e1
  cases e1
  rw [Nat.zero_add] at e2
  unfold codeBand at e2
  split at e2
  · cases e2
    simp at hx
  rw [Option.bind_eq_some_iff] at e2
  obtain ⟨p, hp, e2⟩ := e2
  rw [Option.bind_eq_some_iff] at e2
  obtain ⟨tr, -, e2⟩ := e2
  rw [Option.map_eq_some_iff] at e2
  obtain ⟨ecs, e2, rfl⟩ := e2
  obtain ⟨l1, l2⟩ := mapIM_get e2
  obtain ⟨j, hj⟩ := List.mem_iff_getElem?.1 (show x ∈ ecs from hx)
  have hjl : j < p.cblks.length := by rw [← l1]; exact (List.getElem?_eq_some_iff.1 hj).1
  obtain ⟨ec', k1, k2⟩ := l2 j _ (List.getElem?_eq_getElem hjl)
  rw [hj] at k1
  cases k1
  rw [Nat.zero_add] at k2
  obtain ⟨hcor, hin⟩ := block_in hc.rect hc.pd hr hbd hp (List.getElem?_eq_getElem hjl)
  have hpl := hplan bi j
  have hmade := codeBlock_made k2 hcor hc.size (fun q hq => by rw [hc.dom]; exact decide_eq_true hq) hin (by have := hpl.room; omega)
  obtain ⟨mem', h1, -⟩ := hmade.coded
  have hgain : gainOf rn bi ≤ 2 := by unfold gainOf; split <;> [omega; split <;> omega]
  have hp25 : 2 ^ (b + gainOf rn bi) ≤ 2 ^ 25 := Nat.pow_le_pow_right (by norm_num) (by omega)
  have h64 : ∀ v : Int, v.natAbs < 2 ^ (b + gainOf rn bi) → T1.shl6 v = v * 64 := by
    intro v hv
    unfold T1.shl6
    omega
  have := planes_le (b := b + gainOf rn bi) (by omega) (fun v hv => by
    obtain ⟨y, u, hy, hu, rfl⟩ := T1.mem_order hv
    have hlt : (pxOf data ((placeY t c rn bi p.cblks[j].y0).toNat * width (compRect t c) + (placeX t c rn bi p.cblks[j].x0).toNat) (width (compRect t c)) y u).natAbs < 2 ^ (b + gainOf rn bi) := by
      unfold pxOf
      cases hq : data ((placeY t c rn bi p.cblks[j].y0).toNat * width (compRect t c) + (placeX t c rn bi p.cblks[j].x0).toNat + (y * width (compRect t c) + u)) with
      | none => simp
      | some v => exact band_bits hc.rect hc.pd hg hE hr hbd hp (List.getElem?_eq_getElem hjl) hy hu hq
    exact ⟨_, h64 _ hlt, hlt⟩) h1
  have hb2 := hbps bi (blk_of hr hbd).band
  show (x.numbps : Int) ≤ bps bi
  exact le_trans (by exact_mod_cast this) hb2

/-- Enough bit planes, band by band. -/
theorem fits_of_grown {S : Setup} {P fuel : Nat} {flag : Option Letter} {TE TD : TileS} {xs : List (List Int)} {plan : Nat → Nat → Nat → Nat → Nat → Plan}
    {room : Nat → List UInt8} {junk : Nat → Nat → Int} {K : Coding} {m : Mode} (hE : initTile true S.q S.n = .ok TE) (hD : initTile false S.q S.n = .ok TD)
    (hs : Suits S P TE) (hx : Samples S P TE xs) (hplan : ∀ c rn k bi j, PlanOk S.layers (plan c rn k bi j)) {b : Nat} (hb : b + 2 ≤ 25)
    (hbig : ∀ c ∈ S.q.comps, (9 : Int) ^ (c.prc.length - 1) * (2 * (2 ^ S.mct * 2 ^ (P - 1)) + 3) < 4 ^ (c.prc.length - 1) * (2 ^ (b + 1) + 3))
    (hbps : ∀ c cp rn bi, S.q.comps[c]? = some cp → rn < cp.prc.length → bi < (if rn = 0 then 1 else 3) → ((b + gainOf rn bi : Nat) : Int) ≤ S.bps c rn bi)
    (hK : encodeTile m fuel S flag plan room junk xs = some K) : K.Fits := by
  obtain ⟨ds, f1, f2, -⟩ := stages hE hD hs hx m junk
  unfold encodeTile at hK
  rw [hE] at hK
  simp only at hK
  rw [f1, Option.bind_some, Option.bind_eq_some_iff] at hK
  obtain ⟨E, c1, hK⟩ := hK
  rw [Option.bind_eq_some_iff] at hK
  obtain ⟨_, -, hK⟩ := hK
  rw [Option.bind_eq_some_iff] at hK
  obtain ⟨parts, -, hK⟩ := hK
  have eK : K.coefs = ds ∧ K.blocks = E := by
    revert hK
    cases T2.encodeTileParts S.csty S.layers (parts.zip ((List.range parts.length).map room)) 0 E with
    | error e => intro hK; cases hK
    | ok o => intro hK; cases hK; exact ⟨rfl, rfl⟩
  have hto := Tcd.tile_ok hs.fit hE
  have e1 := comps_eq hs.fit hE
  have hcoded : Coded m TE.comps S.cxs ds S.bps plan E := codeAll_coded c1 fun tc htc => by
    rw [e1, List.mem_map] at htc
    obtain ⟨c, hc, rfl⟩ := htc
    rw [ress_length]; exact (hs.fit.comps c hc).res.2
  have hp25 : 2 ^ (b + 2) ≤ 2 ^ 25 := Nat.pow_le_pow_right (by norm_num) hb
  have hsm : ∀ (i : Nat) (c : CompP) (d : Mem Int), S.q.comps[i]? = some c → ds[i]? = some d → ∀ q v, d q = some v → v.natAbs < 2 ^ 25 := by
    intro i c d hc hd q v hv
    obtain ⟨d', hd', hbo⟩ := forall2_at f2 hc
    rw [hd] at hd'
    cases hd'
    have hm := List.mem_of_getElem? hc
    have := all_bits (Tcd.compRect_ok hto (hs.fit.comps c hm)) hbo (hbig c hm) hv
    omega
  have hlen := f2.length_eq
  refine ⟨?_, ?_⟩
  · rw [eK.1]
    intro d hd q v hv
    obtain ⟨i, hi⟩ := List.mem_iff_getElem?.1 hd
    have hlt := (List.getElem?_eq_some_iff.1 hi).1
    exact hsm i _ d (List.getElem?_eq_getElem (by omega)) hi q v hv
  · rw [eK.2]
    intro c rn k
    have hco := hcoded c rn k
    by_cases hk : k < precCount TE.comps c rn
    · rw [if_pos hk] at hco
      rw [e1] at hk
      obtain ⟨cp, r, g1, g2, g3⟩ := precCount_lt hk
      unfold codeAt at hco
      rw [e1, List.getElem?_map, g1, Option.map_some, Option.bind_some, Option.bind_eq_some_iff] at hco
      obtain ⟨cx, hcx, hco⟩ := hco
      rw [Option.bind_eq_some_iff] at hco
      obtain ⟨d, hd, hco⟩ := hco
      have hm := List.mem_of_getElem? g1
      have hf := hs.fit.comps cp hm
      obtain ⟨d', hd', hbo⟩ := forall2_at f2 g1
      rw [hd] at hd'
      cases hd'
      have hrn : rn < cp.prc.length := by
        have := (List.getElem?_eq_some_iff.1 g2).1
        rwa [ress_length] at this
      refine planes_grown (L := S.layers) ⟨Tcd.compRect_ok hto hf, by intro h; have := hf.res.1; rw [h] at this; simp at this, fun i q h => hf.pd i q h, hs.cblk cp hm, ?_, hbo.dom, ?_⟩
        hbo.grown (hbig cp hm) hb (fun bi j => hplan c rn k bi j) g2 hco (fun bi hbi => hbps c cp rn bi g1 hrn hbi)
      · exact (hs.area _ (by rw [e1]; exact List.mem_map_of_mem hm)).2
      · intro q v hv
        exact hsm c cp d g1 hd q v hv
    · rw [if_neg hk] at hco
      rw [hco]
      intro e he
      cases he

end Jp2.Pipe

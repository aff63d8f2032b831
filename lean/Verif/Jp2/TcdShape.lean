import Verif.Jp2.TcdAxis
import Verif.Jp2.TcdSpec
/-!
# The structure `initTile` builds, in closed form
-/
namespace Jp2.Tcd
open Math

/-- Code block `k` of a precinct. -/
def cblkOf (cw cbw cbh : Nat) (p : Rect) (k : Nat) : Rect :=
  ⟨max ((p.x0 / 2 ^ cbw + (k % cw : Nat)) * 2 ^ cbw) p.x0, max ((p.y0 / 2 ^ cbh + (k / cw : Nat)) * 2 ^ cbh) p.y0,
    min ((p.x0 / 2 ^ cbw + (k % cw : Nat) + 1) * 2 ^ cbw) p.x1, min ((p.y0 / 2 ^ cbh + (k / cw : Nat) + 1) * 2 ^ cbh) p.y1⟩

/-- Number of code blocks along an axis. -/
def cwOf (p0 p1 : Int) (cb : Nat) : Nat := (cdiv p1 (2 ^ cb) - p0 / 2 ^ cb).toNat

/-- The rectangle of precinct `k` of a band. -/
def precRect (Gx Gy : Int) (pw cbgw cbgh : Nat) (b : Rect) (k : Nat) : Rect :=
  ⟨max ((Gx + (k % pw : Nat)) * 2 ^ cbgw) b.x0, max ((Gy + (k / pw : Nat)) * 2 ^ cbgh) b.y0,
    min ((Gx + (k % pw : Nat) + 1) * 2 ^ cbgw) b.x1, min ((Gy + (k / pw : Nat) + 1) * 2 ^ cbgh) b.y1⟩

/-- Precinct `k` of a band. -/
def precOf (Gx Gy : Int) (pw cbgw cbgh cbw cbh : Nat) (b : Rect) (k : Nat) : Prec :=
  let r := precRect Gx Gy pw cbgw cbgh b k
  ⟨r, cwOf r.x0 r.x1 cbw, cwOf r.y0 r.y1 cbh,
    (List.range (cwOf r.x0 r.x1 cbw * cwOf r.y0 r.y1 cbh)).map (cblkOf (cwOf r.x0 r.x1 cbw) cbw cbh r)⟩

/-- One axis of a band. -/
def bandAx (c0 c1 : Int) (resno lev ob : Nat) : Int × Int :=
  if resno = 0 then (cdiv c0 (2 ^ lev), cdiv c1 (2 ^ lev)) else
    (cdiv (c0 - ob * 2 ^ lev) (2 ^ (lev + 1)), cdiv (c1 - ob * 2 ^ lev) (2 ^ (lev + 1)))

/-- The rectangle of a band. -/
def bandRect (tc : Rect) (resno lev bandno : Nat) : Rect :=
  ⟨(bandAx tc.x0 tc.x1 resno lev (bandno % 2)).1, (bandAx tc.y0 tc.y1 resno lev (bandno / 2)).1,
    (bandAx tc.x0 tc.x1 resno lev (bandno % 2)).2, (bandAx tc.y0 tc.y1 resno lev (bandno / 2)).2⟩

/-- A band. -/
def bandOf (enc : Bool) (tc : Rect) (resno lev pw n : Nat) (Gx Gy : Int) (cbgw cbgh cbw cbh i : Nat) : Band :=
  let bandno := if resno = 0 then 0 else i + 1
  let r := bandRect tc resno lev bandno
  ⟨bandno, r, if enc && bandEmpty r then [] else (List.range n).map (precOf Gx Gy pw cbgw cbgh cbw cbh r)⟩

/-- Number of precincts along an axis. -/
def pwOf (r0 r1 : Int) (pd : Nat) : Nat := if r0 = r1 then 0 else (cdiv r1 (2 ^ pd) - r0 / 2 ^ pd).toNat

/-- The rectangle of a resolution. -/
def resRect (tc : Rect) (lev : Nat) : Rect :=
  ⟨cdiv tc.x0 (2 ^ lev), cdiv tc.y0 (2 ^ lev), cdiv tc.x1 (2 ^ lev), cdiv tc.y1 (2 ^ lev)⟩

/-- Exponent of the code block groups. -/
def cbgOf (resno pd : Nat) : Nat := if resno = 0 then pd else pd - 1

/-- A resolution. -/
def resOf (enc : Bool) (c : CompP) (tc : Rect) (resno lev : Nat) (pd : Nat × Nat) : Res :=
  let r := resRect tc lev
  ⟨r, pwOf r.x0 r.x1 pd.1, pwOf r.y0 r.y1 pd.2,
    (List.range (if resno = 0 then 1 else 3)).map (bandOf enc tc resno lev (pwOf r.x0 r.x1 pd.1)
      (pwOf r.x0 r.x1 pd.1 * pwOf r.y0 r.y1 pd.2) (r.x0 / 2 ^ pd.1) (r.y0 / 2 ^ pd.2) (cbgOf resno pd.1) (cbgOf resno pd.2)
      (min c.cblkw (cbgOf resno pd.1)) (min c.cblkh (cbgOf resno pd.2)))⟩

/-- The resolutions from `resno` on. -/
def ressOf (enc : Bool) (c : CompP) (tc : Rect) : Nat → List (Nat × Nat) → List Res
  | _, [] => []
  | resno, pd :: rest => resOf enc c tc resno rest.length pd :: ressOf enc c tc (resno + 1) rest

/-- The rectangle of a tile-component. -/
def compRect (t : Rect) (c : CompP) : Rect := ⟨cdiv t.x0 c.dx, cdiv t.y0 c.dy, cdiv t.x1 c.dx, cdiv t.y1 c.dy⟩

/-- A tile-component. -/
def compOf (enc : Bool) (t : Rect) (c : CompP) : TileC := ⟨compRect t c, ressOf enc c (compRect t c) 0 c.prc⟩

/-- The rectangle of tile `n`. -/
def tileRectOf (p : Params) (n : Nat) : Rect :=
  ⟨(max (p.cpTx0 + n % p.tw * p.tdx) p.x0 : Nat), (max (p.cpTy0 + n / p.tw * p.tdy) p.y0 : Nat),
    (min (p.cpTx0 + (n % p.tw + 1) * p.tdx) p.x1 : Nat), (min (p.cpTy0 + (n / p.tw + 1) * p.tdy) p.y1 : Nat)⟩

/-- The tile. -/
def tileOf (enc : Bool) (p : Params) (n : Nat) : TileS := ⟨tileRectOf p n, p.comps.map (compOf enc (tileRectOf p n))⟩

/-! ## Precincts -/

/-- What makes precinct `i` along an axis meet the band `[b0, b1)`. -/
structure Meets (G : Int) (i cbg : Nat) (b0 b1 : Int) : Prop where
  G0 : 0 ≤ G
  b : b0 ≤ b1
  b00 : 0 ≤ b0
  hi : (G + i) * 2 ^ cbg ≤ b1
  lo : b0 ≤ (G + i + 1) * 2 ^ cbg
  fit : (G + i + 1) * 2 ^ cbg < 2 ^ 31

theorem Meets.bounds {G b0 b1 : Int} {i cbg : Nat} (h : Meets G i cbg b0 b1) :
    0 ≤ max ((G + i) * 2 ^ cbg) b0 ∧ max ((G + i) * 2 ^ cbg) b0 ≤ min ((G + i + 1) * 2 ^ cbg) b1 := by
  have e : (G + i + 1) * (2 : Int) ^ cbg = (G + i) * 2 ^ cbg + 2 ^ cbg := by ring
  have hp := p2pos cbg
  have h0 : 0 ≤ (G + i) * (2 : Int) ^ cbg := by have := h.G0; positivity
  have h1 := h.b; have h2 := h.b00; have h3 := h.hi; have h4 := h.lo
  omega

theorem pow_split {cb cbg : Nat} (h : cb ≤ cbg) : (2 : Int) ^ cbg = 2 ^ (cbg - cb) * 2 ^ cb := by
  rw [← pow_add, Nat.sub_add_cancel h]

/-- A precinct holds at most `2^(cbg-cb)` code blocks along an axis. -/
theorem cwOf_le {G p0 p1 : Int} {cb cbg : Nat} (hcb : cb ≤ cbg) (h0 : G * 2 ^ cbg ≤ p0) (h1 : p1 ≤ (G + 1) * 2 ^ cbg) :
    cwOf p0 p1 cb ≤ 2 ^ (cbg - cb) := by
  unfold cwOf
  rw [pow_split hcb, ← mul_assoc] at h0 h1
  have a := (le_fdiv (p2pos cb)).2 h0
  have b := (cdiv_le (p2pos cb)).2 h1
  have e : (G + 1) * (2 : Int) ^ (cbg - cb) = G * 2 ^ (cbg - cb) + 2 ^ (cbg - cb) := by ring
  have e' : ((2 ^ (cbg - cb) : Nat) : Int) = 2 ^ (cbg - cb) := by push_cast; rfl
  have := p2pos (cbg - cb)
  omega

theorem cblkGrid_meets {G b0 b1 : Int} {i cb cbg : Nat} (hc : cbg ≤ 15) (hcb : cb ≤ cbg) (h : Meets G i cbg b0 b1) :
    cblkGrid (max ((G + i) * 2 ^ cbg) b0) (min ((G + i + 1) * 2 ^ cbg) b1) cb =
      .ok (max ((G + i) * 2 ^ cbg) b0 / 2 ^ cb * 2 ^ cb,
        cwOf (max ((G + i) * 2 ^ cbg) b0) (min ((G + i + 1) * 2 ^ cbg) b1) cb) := by
  obtain ⟨h0, h1⟩ := h.bounds
  refine cblkGrid_ok (M := (G + i + 1) * 2 ^ (cbg - cb)) (by omega) h0 h1 ?_ ?_
  · rw [mul_assoc, ← pow_split hcb]; exact min_le_left _ _
  · rw [mul_assoc, ← pow_split hcb]; exact h.fit

theorem cblkAxis_meets {G b0 b1 : Int} {i cb cbg j : Nat} (hc : cbg ≤ 15) (hcb : cb ≤ cbg) (h : Meets G i cbg b0 b1)
    {p0 p1 : Int} (e0 : p0 = max ((G + i) * 2 ^ cbg) b0) (e1 : p1 = min ((G + i + 1) * 2 ^ cbg) b1) (hj : j < cwOf p0 p1 cb) :
    cblkAxis (p0 / 2 ^ cb * 2 ^ cb) j cb p0 p1 =
      .ok (max ((p0 / 2 ^ cb + j) * 2 ^ cb) p0, min ((p0 / 2 ^ cb + j + 1) * 2 ^ cb) p1) := by
  obtain ⟨h0, h1⟩ := h.bounds
  rw [← e0] at h0 h1
  rw [cblkAxis_eq]
  refine precAxis_ok (by omega) (Int.ediv_nonneg h0 (le_of_lt (p2pos cb))) ?_
  have k : p0 / 2 ^ cb + j + 1 ≤ cdiv p1 (2 ^ cb) := by unfold cwOf at hj; omega
  have b : cdiv p1 (2 ^ cb) ≤ (G + i + 1) * 2 ^ (cbg - cb) := by
    rw [cdiv_le (p2pos cb), mul_assoc, ← pow_split hcb, e1]; exact min_le_left _ _
  calc (p0 / 2 ^ cb + j + 1) * 2 ^ cb ≤ ((G + i + 1) * 2 ^ (cbg - cb)) * 2 ^ cb :=
        mul_le_mul_of_nonneg_right (le_trans k b) (le_of_lt (p2pos cb))
    _ = (G + i + 1) * 2 ^ cbg := by rw [mul_assoc, ← pow_split hcb]
    _ < 2 ^ 31 := h.fit

theorem mkPrec_out {szBlk pw cbgw cbgh cbw cbh k : Nat} {Gx Gy : Int} {b : Rect} (hsz : 0 < szBlk)
    (hw : cbgw ≤ 15) (hh : cbgh ≤ 15) (hbw : cbw ≤ cbgw) (hbh : cbh ≤ cbgh)
    (mx : Meets Gx (k % pw) cbgw b.x0 b.x1) (my : Meets Gy (k / pw) cbgh b.y0 b.y1) :
    Out (mkPrec szBlk (Gx * 2 ^ cbgw) (Gy * 2 ^ cbgh) pw cbgw cbgh cbw cbh b k) (precOf Gx Gy pw cbgw cbgh cbw cbh b k)
      (2 ^ 32 ≤ (precOf Gx Gy pw cbgw cbgh cbw cbh b k).cw * (precOf Gx Gy pw cbgw cbgh cbw cbh b k).ch * szBlk) := by
  have bx := mx.bounds
  have by' := my.bounds
  unfold mkPrec
  rw [precAxis_ok (by omega) mx.G0 mx.fit, ok_bind]
  simp only
  rw [precAxis_ok (by omega) my.G0 my.fit, ok_bind]
  show Out (cblkGrid (max ((Gx + (k % pw : Nat)) * 2 ^ cbgw) b.x0) (min ((Gx + (k % pw : Nat) + 1) * 2 ^ cbgw) b.x1) cbw >>= _) _ _
  rw [cblkGrid_meets hw hbw mx, ok_bind]
  show Out (cblkGrid (max ((Gy + (k / pw : Nat)) * 2 ^ cbgh) b.y0) (min ((Gy + (k / pw : Nat) + 1) * 2 ^ cbgh) b.y1) cbh >>= _) _ _
  rw [cblkGrid_meets hh hbh my, ok_bind]
  unfold precOf precRect
  simp only
  have cx := cwOf_le (p0 := max ((Gx + (k % pw : Nat)) * 2 ^ cbgw) b.x0) (p1 := min ((Gx + (k % pw : Nat) + 1) * 2 ^ cbgw) b.x1) hbw
    (le_max_left _ _) (min_le_left _ _)
  have cy := cwOf_le (p0 := max ((Gy + (k / pw : Nat)) * 2 ^ cbgh) b.y0) (p1 := min ((Gy + (k / pw : Nat) + 1) * 2 ^ cbgh) b.y1) hbh
    (le_max_left _ _) (min_le_left _ _)
  obtain ⟨x0, hx0⟩ : ∃ x0, x0 = max ((Gx + (k % pw : Nat)) * 2 ^ cbgw) b.x0 := ⟨_, rfl⟩
  obtain ⟨x1, hx1⟩ : ∃ x1, x1 = min ((Gx + (k % pw : Nat) + 1) * 2 ^ cbgw) b.x1 := ⟨_, rfl⟩
  obtain ⟨y0, hy0⟩ : ∃ y0, y0 = max ((Gy + (k / pw : Nat)) * 2 ^ cbgh) b.y0 := ⟨_, rfl⟩
  obtain ⟨y1, hy1⟩ : ∃ y1, y1 = min ((Gy + (k / pw : Nat) + 1) * 2 ^ cbgh) b.y1 := ⟨_, rfl⟩
  rw [← hx0, ← hx1] at cx bx
  rw [← hy0, ← hy1] at cy by'
  rw [← hx0, ← hx1, ← hy0, ← hy1]
  have p1 : (2 : Nat) ^ (cbgw - cbw) ≤ 2 ^ 15 := Nat.pow_le_pow_right (by omega) (by omega)
  have p2 : (2 : Nat) ^ (cbgh - cbh) ≤ 2 ^ 15 := Nat.pow_le_pow_right (by omega) (by omega)
  have hn : cwOf x0 x1 cbw * cwOf y0 y1 cbh ≤ 2 ^ 15 * 2 ^ 15 := Nat.mul_le_mul (by omega) (by omega)
  rw [Nat.mod_eq_of_lt (by omega)]
  have hm : Out ((List.range (cwOf x0 x1 cbw * cwOf y0 y1 cbh)).mapM (mkCblk (x0 / 2 ^ cbw * 2 ^ cbw) (y0 / 2 ^ cbh * 2 ^ cbh) (cwOf x0 x1 cbw) cbw cbh ⟨x0, y0, x1, y1⟩))
      ((List.range (cwOf x0 x1 cbw * cwOf y0 y1 cbh)).map (cblkOf (cwOf x0 x1 cbw) cbw cbh ⟨x0, y0, x1, y1⟩)) (∃ a ∈ List.range (cwOf x0 x1 cbw * cwOf y0 y1 cbh), False) := by
    refine Out.mapM ?_
    intro j hj
    rw [List.mem_range] at hj
    left
    have hcw : 0 < cwOf x0 x1 cbw := by
      rcases Nat.eq_zero_or_pos (cwOf x0 x1 cbw) with h | h
      · rw [h, Nat.zero_mul] at hj; omega
      · exact h
    unfold mkCblk cblkOf
    simp only
    rw [cblkAxis_meets hw hbw mx hx0 hx1 (Nat.mod_lt _ hcw), ok_bind]
    simp only
    rw [cblkAxis_meets hh hbh my hy0 hy1 (Nat.div_lt_of_lt_mul hj), ok_bind]
    rfl
  by_cases hb : (2 ^ 32 - 1) / szBlk < cwOf x0 x1 cbw * cwOf y0 y1 cbh
  · rw [if_pos hb]
    right
    refine ⟨rfl, ?_⟩
    rw [Nat.div_lt_iff_lt_mul hsz] at hb
    omega
  · rw [if_neg hb]
    rcases hm with hm | ⟨-, a, -, f⟩
    · left
      show (List.mapM _ _ >>= _) = _
      rw [hm]
      rfl
    · exact f.elim

/-! ## Bands -/

theorem bandAx_mono {c0 c1 : Int} (resno lev ob : Nat) (h1 : c0 ≤ c1) :
    (bandAx c0 c1 resno lev ob).1 ≤ (bandAx c0 c1 resno lev ob).2 := by
  unfold bandAx
  split
  · exact cdiv_mono (p2pos _) h1
  · exact cdiv_mono (p2pos _) (by omega)

theorem bandAx_nonneg {c0 c1 : Int} {resno lev ob : Nat} (h0 : 0 ≤ c0) (hob : ob ≤ 1) : 0 ≤ (bandAx c0 c1 resno lev ob).1 := by
  unfold bandAx
  split
  · exact cdiv_nonneg (p2pos _) h0
  · show 0 ≤ cdiv (c0 - ob * 2 ^ lev) (2 ^ (lev + 1))
    have : -1 < cdiv (c0 - ob * 2 ^ lev) (2 ^ (lev + 1)) := by
      rw [lt_cdiv (p2pos _), pow_succ]
      have hp := p2pos lev
      have : (ob : Int) ≤ 1 := by omega
      have : (ob : Int) * 2 ^ lev ≤ 2 ^ lev := by nlinarith
      omega
    omega

theorem pwOf_lt {r0 r1 : Int} {pd i : Nat} (h : i < pwOf r0 r1 pd) :
    (r0 / 2 ^ pd + i) * 2 ^ pd < r1 ∧ r0 / 2 ^ pd + i + 1 ≤ cdiv r1 (2 ^ pd) := by
  unfold pwOf at h
  split at h
  · omega
  · rw [← lt_cdiv (p2pos pd)]; omega

theorem meets_core {c0 c1 : Int} {resno lev ob pd i : Nat} (h0 : 0 ≤ c0) (h1 : c0 ≤ c1) (hob : ob ≤ 1) (hpd : resno ≠ 0 → 1 ≤ pd)
    (hi : i < pwOf (cdiv c0 (2 ^ lev)) (cdiv c1 (2 ^ lev)) pd) :
    0 ≤ cdiv c0 (2 ^ lev) / 2 ^ pd ∧ (bandAx c0 c1 resno lev ob).1 ≤ (bandAx c0 c1 resno lev ob).2 ∧ 0 ≤ (bandAx c0 c1 resno lev ob).1 ∧
    (cdiv c0 (2 ^ lev) / 2 ^ pd + i) * 2 ^ cbgOf resno pd ≤ (bandAx c0 c1 resno lev ob).2 ∧
    (bandAx c0 c1 resno lev ob).1 ≤ (cdiv c0 (2 ^ lev) / 2 ^ pd + i + 1) * 2 ^ cbgOf resno pd := by
  obtain ⟨k1, k2⟩ := pwOf_lt hi
  have hr0 := cdiv_nonneg (p2pos lev) h0
  have hG : 0 ≤ cdiv c0 (2 ^ lev) / 2 ^ pd := Int.ediv_nonneg hr0 (le_of_lt (p2pos pd))
  have k3 := lt_fdiv_mul (cdiv c0 (2 ^ lev)) pd
  obtain ⟨G, hGe⟩ : ∃ G, G = cdiv c0 (2 ^ lev) / 2 ^ pd := ⟨_, rfl⟩
  rw [← hGe] at k1 k2 k3 hG ⊢
  have k4 : cdiv c0 (2 ^ lev) ≤ (G + i + 1) * 2 ^ pd := by
    have : (G + i + 1) * (2 : Int) ^ pd = G * 2 ^ pd + 2 ^ pd + i * 2 ^ pd := by ring
    have : (0 : Int) ≤ i * 2 ^ pd := by positivity
    omega
  refine ⟨hG, bandAx_mono _ _ _ h1, bandAx_nonneg h0 hob, ?_, ?_⟩
  · unfold bandAx cbgOf
    split
    · exact le_of_lt k1
    · rename_i hr
      obtain ⟨e, rfl⟩ : ∃ e, pd = e + 1 := ⟨pd - 1, by have := hpd hr; omega⟩
      rw [Nat.add_sub_cancel]
      show _ ≤ cdiv (c1 - ob * 2 ^ lev) (2 ^ (lev + 1))
      by_contra hc
      have : cdiv (c1 - ob * 2 ^ lev) (2 ^ (lev + 1)) ≤ (G + i) * 2 ^ e - 1 := by omega
      rw [cdiv_le (p2pos _), pow_succ] at this
      rw [lt_cdiv (p2pos _), pow_succ] at k1
      have hp := p2pos lev
      have : (ob : Int) ≤ 1 := by omega
      have : (ob : Int) * 2 ^ lev ≤ 2 ^ lev := by nlinarith
      have e1 : ((G + i) * (2 : Int) ^ e - 1) * (2 ^ lev * 2) = (G + i) * (2 ^ e * 2) * 2 ^ lev - 2 * 2 ^ lev := by ring
      omega
  · unfold bandAx cbgOf
    split
    · exact k4
    · rename_i hr
      obtain ⟨e, rfl⟩ : ∃ e, pd = e + 1 := ⟨pd - 1, by have := hpd hr; omega⟩
      rw [Nat.add_sub_cancel]
      show cdiv (c0 - ob * 2 ^ lev) (2 ^ (lev + 1)) ≤ _
      rw [cdiv_le (p2pos _), pow_succ]
      rw [cdiv_le (p2pos _), pow_succ] at k4
      have e1 : (G + i + 1) * (2 : Int) ^ e * (2 ^ lev * 2) = (G + i + 1) * (2 ^ e * 2) * 2 ^ lev := by ring
      have : (0 : Int) ≤ ob * 2 ^ lev := by positivity
      omega

theorem meets {c0 c1 : Int} {resno lev ob pd i : Nat} (h0 : 0 ≤ c0) (h1 : c0 ≤ c1) (hob : ob ≤ 1) (hpd : resno ≠ 0 → 1 ≤ pd)
    (hfit : cdiv (cdiv c1 (2 ^ lev)) (2 ^ pd) * 2 ^ pd < 2 ^ 31)
    (hi : i < pwOf (cdiv c0 (2 ^ lev)) (cdiv c1 (2 ^ lev)) pd) :
    Meets (cdiv c0 (2 ^ lev) / 2 ^ pd) i (cbgOf resno pd) (bandAx c0 c1 resno lev ob).1 (bandAx c0 c1 resno lev ob).2 := by
  obtain ⟨hG, m1, m2, m3, m4⟩ := meets_core (resno := resno) h0 h1 hob hpd hi
  refine ⟨hG, m1, m2, m3, m4, ?_⟩
  obtain ⟨k1, k2⟩ := pwOf_lt hi
  obtain ⟨G, hGe⟩ : ∃ G, G = cdiv c0 (2 ^ lev) / 2 ^ pd := ⟨_, rfl⟩
  rw [← hGe] at k2 hG ⊢
  have f1 : (G + i + 1) * 2 ^ pd < 2 ^ 31 := lt_of_le_of_lt (mul_le_mul_of_nonneg_right k2 (le_of_lt (p2pos pd))) hfit
  · unfold cbgOf
    split
    · exact f1
    · have hp := p2le pd (by omega : pd - 1 ≤ pd)
      have : (G + i + 1) * (2 : Int) ^ (pd - 1) ≤ (G + i + 1) * 2 ^ pd := mul_le_mul_of_nonneg_left hp (by omega)
      omega

/-- The exponents of a resolution are within range. -/
def PdOk (resno : Nat) (q : Nat × Nat) : Prop := q.1 ≤ 15 ∧ q.2 ≤ 15 ∧ (resno ≠ 0 → 1 ≤ q.1 ∧ 1 ≤ q.2)

/-- A usable tile-component rectangle. -/
structure RectOk (r : Rect) : Prop where
  x0 : 0 ≤ r.x0
  x : r.x0 ≤ r.x1
  x1 : r.x1 < 2 ^ 31
  y0 : 0 ≤ r.y0
  y : r.y0 ≤ r.y1
  y1 : r.y1 < 2 ^ 31

/-- Why a resolution can be refused: its precinct grid reaches 2^31, or its precincts or the code blocks of
one of them need 2^32 bytes. -/
def ResTooBig (p : Params) (c : CompP) (tc : Rect) (resno lev : Nat) (pd : Nat × Nat) : Prop :=
  2 ^ 31 ≤ cdiv (cdiv tc.x1 (2 ^ lev)) (2 ^ pd.1) * 2 ^ pd.1 ∨ 2 ^ 31 ≤ cdiv (cdiv tc.y1 (2 ^ lev)) (2 ^ pd.2) * 2 ^ pd.2 ∨
  2 ^ 32 ≤ (resOf false c tc resno lev pd).pw * (resOf false c tc resno lev pd).ph * p.szPrec ∨
  ∃ b ∈ (resOf false c tc resno lev pd).bands, ∃ k ∈ b.precs, 2 ^ 32 ≤ k.cw * k.ch * p.szBlk

theorem cbgOf_le {resno pd : Nat} (h : pd ≤ 15) : cbgOf resno pd ≤ 15 := by unfold cbgOf; split <;> omega

theorem bandAx_ok {c0 c1 : Int} {resno lev ob : Nat} (h0 : 0 ≤ c0) (h1 : c0 ≤ c1) (h2 : c1 < 2 ^ 31) (hl : lev < 61) (hob : ob ≤ 1) :
    bandAxis c0 c1 resno lev ob = .ok (bandAx c0 c1 resno lev ob) := bandAxis_ok h0 h1 h2 hl hob

theorem mkBand_out {enc : Bool} {p : Params} {c : CompP} {tc : Rect} {resno lev : Nat} {pd : Nat × Nat} {i : Nat} (hsz : 0 < p.szBlk)
    (ht : RectOk tc) (hl : lev < 61) (hpd : PdOk resno pd) (hi : i < 3)
    (hx : cdiv (cdiv tc.x1 (2 ^ lev)) (2 ^ pd.1) * 2 ^ pd.1 < 2 ^ 31) (hy : cdiv (cdiv tc.y1 (2 ^ lev)) (2 ^ pd.2) * 2 ^ pd.2 < 2 ^ 31) 
    {pw ph : Nat} (hpw : pw = pwOf (resRect tc lev).x0 (resRect tc lev).x1 pd.1) (hph : ph = pwOf (resRect tc lev).y0 (resRect tc lev).y1 pd.2) :
    Out (mkBand enc p.szBlk tc resno lev pw (pw * ph) ((resRect tc lev).x0 / 2 ^ pd.1 * 2 ^ cbgOf resno pd.1)
        ((resRect tc lev).y0 / 2 ^ pd.2 * 2 ^ cbgOf resno pd.2) (cbgOf resno pd.1) (cbgOf resno pd.2)
        (min c.cblkw (cbgOf resno pd.1)) (min c.cblkh (cbgOf resno pd.2)) i)
      (bandOf enc tc resno lev pw (pw * ph) ((resRect tc lev).x0 / 2 ^ pd.1) ((resRect tc lev).y0 / 2 ^ pd.2) (cbgOf resno pd.1) (cbgOf resno pd.2)
        (min c.cblkw (cbgOf resno pd.1)) (min c.cblkh (cbgOf resno pd.2)) i)
      (∃ k ∈ (bandOf false tc resno lev pw (pw * ph) ((resRect tc lev).x0 / 2 ^ pd.1) ((resRect tc lev).y0 / 2 ^ pd.2) (cbgOf resno pd.1) (cbgOf resno pd.2)
        (min c.cblkw (cbgOf resno pd.1)) (min c.cblkh (cbgOf resno pd.2)) i).precs, 2 ^ 32 ≤ k.cw * k.ch * p.szBlk) := by
  unfold mkBand bandOf
  simp only
  obtain ⟨bn, hbn⟩ : ∃ bn, bn = (if resno = 0 then 0 else i + 1) := ⟨_, rfl⟩
  have hbn3 : bn ≤ 3 := by rw [hbn]; split <;> omega
  rw [← hbn, bandAx_ok ht.x0 ht.x ht.x1 hl (by omega), ok_bind]
  show Out (bandAxis tc.y0 tc.y1 resno lev (bn / 2) >>= _) _ _
  rw [bandAx_ok ht.y0 ht.y ht.y1 hl (by omega), ok_bind]
  show Out (if (enc && bandEmpty (bandRect tc resno lev bn)) = true then (pure ⟨bn, bandRect tc resno lev bn, []⟩ : Except Err Band) else
    (List.range (pw * ph)).mapM (mkPrec p.szBlk ((resRect tc lev).x0 / 2 ^ pd.1 * 2 ^ cbgOf resno pd.1)
        ((resRect tc lev).y0 / 2 ^ pd.2 * 2 ^ cbgOf resno pd.2) pw (cbgOf resno pd.1) (cbgOf resno pd.2)
        (min c.cblkw (cbgOf resno pd.1)) (min c.cblkh (cbgOf resno pd.2)) (bandRect tc resno lev bn)) >>= fun ps => (pure ⟨bn, bandRect tc resno lev bn, ps⟩ : Except Err Band)) _ _
  by_cases he : (enc && bandEmpty (bandRect tc resno lev bn)) = true
  · rw [if_pos he, if_pos he]; exact Or.inl rfl
  · rw [if_neg he, if_neg he]
    refine Out.mono (Out.bind (S := False) (Out.mapM (fun k hk => mkPrec_out hsz (cbgOf_le hpd.1) (cbgOf_le hpd.2.1) (min_le_right _ _) (min_le_right _ _) ?_ ?_)) (Or.inl rfl)) ?_
    · rw [List.mem_range] at hk
      have hpos : 0 < pw := by
        rcases Nat.eq_zero_or_pos pw with h | h
        · rw [h, Nat.zero_mul] at hk; omega
        · exact h
      exact meets ht.x0 ht.x (by omega) (fun h => (hpd.2.2 h).1) hx (by have := Nat.mod_lt k hpos; rw [hpw] at this ⊢; exact this)
    · rw [List.mem_range] at hk
      exact meets ht.y0 ht.y (by omega) (fun h => (hpd.2.2 h).2) hy (by have := Nat.div_lt_of_lt_mul hk; rw [hph] at this; exact this)
    · rintro (⟨k, hk, h⟩ | f)
      · simp only [Bool.false_and]
        exact ⟨_, List.mem_map.2 ⟨k, hk, rfl⟩, h⟩
      · exact f.elim

/-! ## Resolutions, components, tile -/

theorem half_cbg {G : Int} {resno pd : Nat} (hr : resno ≠ 0) (hpd : 1 ≤ pd) (h0 : 0 ≤ G) (h1 : G * 2 ^ pd < 2 ^ 31) :
    half (G * 2 ^ pd) = .ok (G * 2 ^ cbgOf resno pd) := by
  obtain ⟨e, rfl⟩ : ∃ e, pd = e + 1 := ⟨pd - 1, by omega⟩
  unfold cbgOf
  rw [if_neg hr, Nat.add_sub_cancel]
  exact half_ok h0 h1

theorem uintMin_eq (a b : Nat) : uintMin a b = min a b := by unfold uintMin; split <;> omega

theorem cbg_eq {resno pd : Nat} (h : resno ≠ 0 → 1 ≤ pd) (h' : pd ≤ 15) :
    (if resno = 0 then pd else (pd + (2 ^ 32 - 1)) % 2 ^ 32) = cbgOf resno pd := by
  unfold cbgOf
  split
  · rfl
  · rename_i hr
    have := h hr
    omega

theorem grid_eq {G : Int} {resno pd : Nat} (h : resno ≠ 0 → 1 ≤ pd) (h0 : 0 ≤ G) (h1 : G * 2 ^ pd < 2 ^ 31) :
    (if resno = 0 then (pure (G * 2 ^ pd) : Except Err Int) else half (G * 2 ^ pd)) = .ok (G * 2 ^ cbgOf resno pd) := by
  split
  · rename_i hr; unfold cbgOf; rw [if_pos hr]; rfl
  · rename_i hr; exact half_cbg hr (h hr) h0 h1

theorem mkBands_out {enc : Bool} {p : Params} {c : CompP} {tc : Rect} {resno lev : Nat} {pd : Nat × Nat} (hsz : 0 < p.szBlk) (hsp : 0 < p.szPrec)
    (ht : RectOk tc) (hl : lev < 61) (hpd : PdOk resno pd)
    (hx : cdiv (cdiv tc.x1 (2 ^ lev)) (2 ^ pd.1) * 2 ^ pd.1 < 2 ^ 31) (hy : cdiv (cdiv tc.y1 (2 ^ lev)) (2 ^ pd.2) * 2 ^ pd.2 < 2 ^ 31)
    {r : Rect} (hr : r = resRect tc lev) {pw ph : Nat} (hpw : pw = pwOf r.x0 r.x1 pd.1) (hph : ph = pwOf r.y0 r.y1 pd.2) :
    Out (mkBands enc p c tc resno lev pd r (r.x0 / 2 ^ pd.1 * 2 ^ pd.1) (r.y0 / 2 ^ pd.2 * 2 ^ pd.2) pw ph)
      ⟨r, pw, ph, (List.range (if resno = 0 then 1 else 3)).map (bandOf enc tc resno lev pw (pw * ph) (r.x0 / 2 ^ pd.1) (r.y0 / 2 ^ pd.2)
        (cbgOf resno pd.1) (cbgOf resno pd.2) (min c.cblkw (cbgOf resno pd.1)) (min c.cblkh (cbgOf resno pd.2)))⟩
      (2 ^ 32 ≤ pw * ph * p.szPrec ∨
        ∃ b ∈ (List.range (if resno = 0 then 1 else 3)).map (bandOf false tc resno lev pw (pw * ph) (r.x0 / 2 ^ pd.1) (r.y0 / 2 ^ pd.2)
        (cbgOf resno pd.1) (cbgOf resno pd.2) (min c.cblkw (cbgOf resno pd.1)) (min c.cblkh (cbgOf resno pd.2))), ∃ k ∈ b.precs, 2 ^ 32 ≤ k.cw * k.ch * p.szBlk) := by
  have r0 : 0 ≤ r.x0 := by rw [hr]; exact cdiv_nonneg (p2pos lev) ht.x0
  have r1 : r.x0 ≤ r.x1 := by rw [hr]; exact cdiv_mono (p2pos lev) ht.x
  have r2 : r.x1 < 2 ^ 31 := by rw [hr]; exact lt_of_le_of_lt (cdiv_le_self (p2pos lev) (le_trans ht.x0 ht.x)) ht.x1
  have s0 : 0 ≤ r.y0 := by rw [hr]; exact cdiv_nonneg (p2pos lev) ht.y0
  have s1 : r.y0 ≤ r.y1 := by rw [hr]; exact cdiv_mono (p2pos lev) ht.y
  have s2 : r.y1 < 2 ^ 31 := by rw [hr]; exact lt_of_le_of_lt (cdiv_le_self (p2pos lev) (le_trans ht.y0 ht.y)) ht.y1
  unfold mkBands
  by_cases hs : pw ≠ 0 ∧ (2 ^ 32 - 1) / pw < ph
  · rw [if_pos hs]
    refine Or.inr ⟨rfl, Or.inl ?_⟩
    obtain ⟨k1, k2⟩ := hs
    rw [Nat.div_lt_iff_lt_mul (by omega), Nat.mul_comm] at k2
    have := Nat.mul_le_mul (by omega : 2 ^ 32 ≤ pw * ph) hsp
    omega
  rw [if_neg hs]
  have hlt : pw * ph < 2 ^ 32 := by
    rcases Nat.eq_zero_or_pos pw with h | h
    · rw [h]; omega
    · by_contra hc
      exact hs ⟨by omega, by rw [Nat.div_lt_iff_lt_mul h, Nat.mul_comm]; omega⟩
  rw [Nat.mod_eq_of_lt hlt]
  by_cases hq : (2 ^ 32 - 1) / p.szPrec < pw * ph
  · simp only [if_pos hq]
    refine Or.inr ⟨rfl, Or.inl ?_⟩
    rw [Nat.div_lt_iff_lt_mul hsp] at hq
    omega
  simp only [if_neg hq]
  have hG : 0 ≤ r.x0 / 2 ^ pd.1 := Int.ediv_nonneg r0 (le_of_lt (p2pos _))
  have hH : 0 ≤ r.y0 / 2 ^ pd.2 := Int.ediv_nonneg s0 (le_of_lt (p2pos _))
  have gx := grid_eq (G := r.x0 / 2 ^ pd.1) (fun h => (hpd.2.2 h).1) hG (by have := fdiv_mul_le r.x0 pd.1; omega)
  have gy := grid_eq (G := r.y0 / 2 ^ pd.2) (fun h => (hpd.2.2 h).2) hH (by have := fdiv_mul_le r.y0 pd.2; omega)
  have key : ∀ gx' gy' : Int, gx' = r.x0 / 2 ^ pd.1 * 2 ^ cbgOf resno pd.1 → gy' = r.y0 / 2 ^ pd.2 * 2 ^ cbgOf resno pd.2 →
      Out ((List.range (if resno = 0 then 1 else 3)).mapM (mkBand enc p.szBlk tc resno lev pw (pw * ph) gx' gy'
        (if resno = 0 then pd.1 else (pd.1 + (2 ^ 32 - 1)) % 2 ^ 32) (if resno = 0 then pd.2 else (pd.2 + (2 ^ 32 - 1)) % 2 ^ 32)
        (uintMin c.cblkw (if resno = 0 then pd.1 else (pd.1 + (2 ^ 32 - 1)) % 2 ^ 32)) (uintMin c.cblkh (if resno = 0 then pd.2 else (pd.2 + (2 ^ 32 - 1)) % 2 ^ 32))) >>=
        fun bs => (pure ⟨r, pw, ph, bs⟩ : Except Err Res))
      ⟨r, pw, ph, (List.range (if resno = 0 then 1 else 3)).map (bandOf enc tc resno lev pw (pw * ph) (r.x0 / 2 ^ pd.1) (r.y0 / 2 ^ pd.2)
        (cbgOf resno pd.1) (cbgOf resno pd.2) (min c.cblkw (cbgOf resno pd.1)) (min c.cblkh (cbgOf resno pd.2)))⟩
      (2 ^ 32 ≤ pw * ph * p.szPrec ∨
        ∃ b ∈ (List.range (if resno = 0 then 1 else 3)).map (bandOf false tc resno lev pw (pw * ph) (r.x0 / 2 ^ pd.1) (r.y0 / 2 ^ pd.2)
        (cbgOf resno pd.1) (cbgOf resno pd.2) (min c.cblkw (cbgOf resno pd.1)) (min c.cblkh (cbgOf resno pd.2))), ∃ k ∈ b.precs, 2 ^ 32 ≤ k.cw * k.ch * p.szBlk) := by
    intro gx' gy' e1 e2
    subst e1 e2
    rw [cbg_eq (fun h => (hpd.2.2 h).1) hpd.1, cbg_eq (fun h => (hpd.2.2 h).2) hpd.2.1, uintMin_eq, uintMin_eq]
    subst hr
    refine Out.mono (Out.bind (S := False) (Out.mapM (fun i hi => mkBand_out (c := c) hsz ht hl hpd ?_ hx hy hpw hph)) (Or.inl rfl)) ?_
    · rw [List.mem_range] at hi
      split at hi <;> omega
    · rintro (⟨i, hi, k, hk, h⟩ | f)
      · exact Or.inr ⟨_, List.mem_map.2 ⟨i, hi, rfl⟩, k, hk, h⟩
      · exact f.elim
  by_cases h0 : resno = 0
  · rw [if_pos h0] at gx gy
    rw [if_pos h0, show (pure (r.x0 / 2 ^ pd.1 * 2 ^ pd.1) : Except Err Int) = .ok (r.x0 / 2 ^ pd.1 * 2 ^ pd.1) from rfl, ok_bind,
      if_pos h0]
    exact key _ _ (Except.ok.inj gx) (Except.ok.inj gy)
  · rw [if_neg h0] at gx gy
    rw [if_neg h0, gx, ok_bind, if_neg h0, gy, ok_bind]
    exact key _ _ rfl rfl

theorem mkRes_out {enc : Bool} {p : Params} {c : CompP} {tc : Rect} {resno lev : Nat} {pd : Nat × Nat} (hsz : 0 < p.szBlk) (hsp : 0 < p.szPrec)
    (ht : RectOk tc) (hl : lev < 61) (hpd : PdOk resno pd) :
    Out (mkRes enc p c tc resno lev pd) (resOf enc c tc resno lev pd) (ResTooBig p c tc resno lev pd) := by
  have r0 := cdiv_nonneg (p2pos lev) ht.x0
  have r1 := cdiv_mono (p2pos lev) ht.x
  have r2 := cdiv_le_self (p2pos lev) (le_trans ht.x0 ht.x)
  have s0 := cdiv_nonneg (p2pos lev) ht.y0
  have s1 := cdiv_mono (p2pos lev) ht.y
  have s2 := cdiv_le_self (p2pos lev) (le_trans ht.y0 ht.y)
  have x1 := ht.x1
  have y1 := ht.y1
  unfold mkRes
  rw [resAxis_ok ht.x0 ht.x ht.x1 (by omega), ok_bind]
  simp only
  rw [resAxis_ok ht.y0 ht.y ht.y1 (by omega), ok_bind]
  simp only
  rw [prcAxis_eq (pd := pd.1) r0 r1 (by omega) (by have := hpd.1; omega)]
  by_cases hx : 2 ^ 31 ≤ cdiv (cdiv tc.x1 (2 ^ lev)) (2 ^ pd.1) * 2 ^ pd.1
  · rw [if_pos hx]
    exact Or.inr ⟨rfl, Or.inl hx⟩
  rw [if_neg hx, ok_bind]
  simp only
  rw [prcAxis_eq (pd := pd.2) s0 s1 (by omega) (by have := hpd.2.1; omega)]
  by_cases hy : 2 ^ 31 ≤ cdiv (cdiv tc.y1 (2 ^ lev)) (2 ^ pd.2) * 2 ^ pd.2
  · rw [if_pos hy]
    exact Or.inr ⟨rfl, Or.inr (Or.inl hy)⟩
  rw [if_neg hy, ok_bind]
  exact Out.mono (mkBands_out hsz hsp ht hl hpd (not_le.1 hx) (not_le.1 hy) (r := resRect tc lev) rfl rfl rfl) (fun h => Or.inr (Or.inr h))

theorem mkRess_out {enc : Bool} {p : Params} {c : CompP} {tc : Rect} (hsz : 0 < p.szBlk) (hsp : 0 < p.szPrec)
    (ht : RectOk tc) : ∀ {l : List (Nat × Nat)} {resno : Nat}, l.length ≤ 33 → (∀ j q, l[j]? = some q → PdOk (resno + j) q) →
    Out (mkRess enc p c tc resno l) (ressOf enc c tc resno l)
      (∃ j q, l[j]? = some q ∧ ResTooBig p c tc (resno + j) (l.length - 1 - j) q)
  | [], _, _, _ => Or.inl rfl
  | q :: l, resno, hl, h => by
    rw [List.length_cons] at hl
    unfold mkRess ressOf
    refine Out.mono (Out.bind (mkRes_out hsz hsp ht (by omega) (h 0 q rfl))
      (Out.bind (S := False) (mkRess_out (resno := resno + 1) hsz hsp ht (by omega) ?_) (Or.inl rfl))) ?_
    · intro j q' hj
      have := h (j + 1) q' (by rw [List.getElem?_cons_succ]; exact hj)
      rw [show resno + 1 + j = resno + (j + 1) by omega]; exact this
    · rintro (r | ⟨j, q', hj, r⟩ | f)
      · exact ⟨0, q, rfl, by simpa using r⟩
      · refine ⟨j + 1, q', by rw [List.getElem?_cons_succ]; exact hj, ?_⟩
        rw [List.length_cons, show resno + (j + 1) = resno + 1 + j by omega, show l.length + 1 - 1 - (j + 1) = l.length - 1 - j by omega]
        exact r
      · exact f.elim

theorem compRect_ok {t : Rect} {c : CompP} (ht : RectOk t) (hc : CompFit c) : RectOk (compRect t c) := by
  have hx : (0 : Int) < c.dx := by have := hc.dx.1; omega
  have hy : (0 : Int) < c.dy := by have := hc.dy.1; omega
  exact ⟨cdiv_nonneg hx ht.x0, cdiv_mono hx ht.x, lt_of_le_of_lt (cdiv_le_self hx (le_trans ht.x0 ht.x)) ht.x1,
    cdiv_nonneg hy ht.y0, cdiv_mono hy ht.y, lt_of_le_of_lt (cdiv_le_self hy (le_trans ht.y0 ht.y)) ht.y1⟩

theorem mkComp_out {enc : Bool} {p : Params} {t : Rect} {c : CompP} (hsz : 0 < p.szBlk) (hsp : 0 < p.szPrec) (ht : RectOk t) (hc : CompFit c) :
    Out (mkComp enc p t c) (compOf enc t c) (∃ r q, c.prc[r]? = some q ∧ ResTooBig p c (compRect t c) r (c.prc.length - 1 - r) q) := by
  unfold mkComp compOf
  rw [compAxis_ok ht.x0 ht.x ht.x1 hc.dx.1 (by have := hc.dx.2; omega), ok_bind]
  simp only
  rw [compAxis_ok ht.y0 ht.y ht.y1 hc.dy.1 (by have := hc.dy.2; omega), ok_bind]
  simp only
  have k := mkRess_out (enc := enc) (p := p) (c := c) (resno := 0) (l := c.prc) hsz hsp (compRect_ok ht hc) hc.res.2
    (fun j q hj => by rw [Nat.zero_add]; exact hc.pd j q hj)
  refine Out.mono (Out.bind (S := False) k (Or.inl rfl)) ?_
  rintro (⟨j, q, h, r⟩ | f)
  · exact ⟨j, q, h, by rw [Nat.zero_add] at r; exact r⟩
  · exact f.elim

/-- Why a tile can be refused. -/
def TooBig (p : Params) (n : Nat) : Prop :=
  2 ^ 31 ≤ p.x1 ∨ 2 ^ 31 ≤ p.y1 ∨
  (tileRectOf p n).x1 ≤ (tileRectOf p n).x0 ∨ (tileRectOf p n).y1 ≤ (tileRectOf p n).y0 ∨
  ∃ c ∈ p.comps, ∃ r q, c.prc[r]? = some q ∧ ResTooBig p c (compRect (tileRectOf p n) c) r (c.prc.length - 1 - r) q

theorem asI32_lt (n : Nat) : asI32 n < 2 ^ 31 := by
  have := (wrap32_I32 n).2
  unfold asI32
  unfold wrap32 at this
  exact this

theorem tileAxis_rect {grid q td i0 i1 : Nat} (hg : grid + q * td < 2 ^ 32) (h0 : i0 < 2 ^ 32) (h1 : i1 < 2 ^ 32) {a : Int × Int}
    (h : tileAxis grid q td i0 i1 = .ok a) : 0 ≤ a.1 ∧ a.1 ≤ a.2 ∧ a.2 < 2 ^ 31 := by
  unfold tileAxis at h
  simp only at h
  split at h
  · simp at h
  · rename_i hc
    rw [not_or, not_lt, not_le] at hc
    have k := asI32_lt (uintMin (uintAdds ((grid + q * td % 2 ^ 32) % 2 ^ 32) td) i1)
    have e := Except.ok.inj h
    generalize asI32 (uintMin (uintAdds ((grid + q * td % 2 ^ 32) % 2 ^ 32) td) i1) = v at *
    generalize asI32 (uintMax ((grid + q * td % 2 ^ 32) % 2 ^ 32) i0) = u at *
    subst e
    exact ⟨hc.1, le_of_lt hc.2, k⟩

theorem initTile_out {enc : Bool} {p : Params} {n : Nat} (h : Fit p n) :
    Out (initTile enc p n) (tileOf enc p n) (TooBig p n) := by
  unfold initTile
  have tw := h.tw
  have ax := tileAxis_out (grid := p.cpTx0) (q := n % p.tw) (td := p.tdx) (i0 := p.x0) (i1 := p.x1) h.gx h.tdx h.x0 h.x1
  have ay := tileAxis_out (grid := p.cpTy0) (q := n / p.tw) (td := p.tdy) (i0 := p.y0) (i1 := p.y1) h.gy h.tdy h.y0 h.y1
  rw [if_neg (by omega)]
  rcases ax with ex | ⟨ex, rx⟩
  swap
  · show Out (tileAxis _ _ _ _ _ >>= _) _ _
    rw [ex]
    refine Or.inr ⟨rfl, ?_⟩
    rcases rx with rx | rx
    · exact Or.inl rx
    · exact Or.inr (Or.inr (Or.inl (Int.ofNat_le.2 rx)))
  have kx := tileAxis_rect h.gx h.x0 h.x1 ex
  rcases ay with ey | ⟨ey, ry⟩
  swap
  · show Out (tileAxis _ _ _ _ _ >>= _) _ _
    rw [ex, ok_bind]
    show Out (tileAxis _ _ _ _ _ >>= _) _ _
    rw [ey]
    refine Or.inr ⟨rfl, ?_⟩
    rcases ry with ry | ry
    · exact Or.inr (Or.inl ry)
    · exact Or.inr (Or.inr (Or.inr (Or.inl (Int.ofNat_le.2 ry))))
  have ky := tileAxis_rect h.gy h.y0 h.y1 ey
  show Out (tileAxis _ _ _ _ _ >>= _) _ _
  rw [ex, ok_bind]
  show Out (tileAxis _ _ _ _ _ >>= _) _ _
  rw [ey, ok_bind]
  have ht : RectOk (tileRectOf p n) := ⟨kx.1, kx.2.1, kx.2.2, ky.1, ky.2.1, ky.2.2⟩
  have hm : Out (p.comps.mapM (mkComp enc p (tileRectOf p n))) (p.comps.map (compOf enc (tileRectOf p n))) _ :=
    Out.mapM (fun c hc => mkComp_out h.szBlk h.szPrec ht (h.comps c hc))
  have hne : ∀ c cs, p.comps = c :: cs → c.prc ≠ [] := by
    intro c cs e hh
    have := (h.comps c (by rw [e]; simp)).res.1
    rw [hh] at this
    simp at this
  obtain ⟨c, cs, e⟩ : ∃ c cs, p.comps = c :: cs := by
    cases hh : p.comps with
    | nil => exact absurd hh h.ne
    | cons c cs => exact ⟨c, cs, rfl⟩
  have := hne c cs e
  simp only [e]
  rw [if_neg this, ← e]
  refine Out.mono (Out.bind (S := False) hm (Or.inl rfl)) ?_
  rintro (⟨c, hc, r, q, hh⟩ | f)
  · exact Or.inr (Or.inr (Or.inr (Or.inr ⟨c, hc, r, q, hh⟩)))
  · exact f.elim

end Jp2.Tcd

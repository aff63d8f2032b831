import Verif.Jp2.Tcd
import Verif.Jp2.MathProps
/-!
# What the axis functions of `Tcd` compute
-/
namespace Jp2.Tcd
open Math

/-- `⌈a / b⌉` -/
def cdiv (a b : Int) : Int := (a + b - 1) / b

theorem cdiv_le {a b u : Int} (hb : 0 < b) : cdiv a b ≤ u ↔ a ≤ u * b := by
  obtain ⟨h1, h2⟩ := isCeilDiv_ediv a b hb
  exact ⟨fun h => le_trans h1 (mul_le_mul_of_nonneg_right h (le_of_lt hb)), h2 u⟩

theorem lt_cdiv {a b u : Int} (hb : 0 < b) : u < cdiv a b ↔ u * b < a := by
  rw [← not_le, cdiv_le hb, not_le]

theorem le_fdiv {a b u : Int} (hb : 0 < b) : u ≤ a / b ↔ u * b ≤ a := Int.le_ediv_iff_mul_le hb

theorem fdiv_lt {a b u : Int} (hb : 0 < b) : a / b < u ↔ a < u * b := Int.ediv_lt_iff_lt_mul hb

theorem cdiv_mono {a a' b : Int} (hb : 0 < b) (h : a ≤ a') : cdiv a b ≤ cdiv a' b := by
  unfold cdiv; exact Int.ediv_le_ediv hb (by omega)

theorem cdiv_nonneg {a b : Int} (hb : 0 < b) (h : 0 ≤ a) : 0 ≤ cdiv a b := Int.ediv_nonneg (by omega) (by omega)

theorem cdiv_le_self {a b : Int} (hb : 0 < b) (h : 0 ≤ a) : cdiv a b ≤ a :=
  (cdiv_le hb).2 (by nlinarith)

theorem ceil_eq {a b q : Int} (hb : 0 < b) (h : IsCeilDiv a b q) : q = cdiv a b :=
  le_antisymm (h.2 _ ((cdiv_le hb).1 le_rfl)) ((cdiv_le hb).2 h.1)

theorem floor_eq {a b q : Int} (hb : 0 < b) (h : IsFloorDiv a b q) : q = a / b :=
  le_antisymm ((le_fdiv hb).2 h.1) (h.2 _ ((le_fdiv hb).1 le_rfl))

theorem p2pos (k : Nat) : (0 : Int) < 2 ^ k := by positivity

theorem p2le {k : Nat} (n : Nat) (h : k ≤ n) : (2 : Int) ^ k ≤ 2 ^ n := by
  exact_mod_cast Nat.pow_le_pow_right (n := 2) (by omega) h

theorem ofOpt_some {α : Type} (a : α) : ofOpt (some a) = .ok a := rfl

theorem ok_bind {α β : Type} (a : α) (f : α → Except Err β) : (Except.ok a >>= f) = f a := rfl

theorem i32_ok {x : Int} (h : I32 x) : i32 x = .ok x := if_pos h

theorem shlI_ok {a : Int} {k : Nat} (hk : k < 32) (h : I32 (a * 2 ^ k)) : shlI a k = .ok (a * 2 ^ k) := by
  unfold shlI; rw [if_pos hk, wrap32_of_I32 _ h]

theorem shlU_ok {a k : Nat} (hk : k < 32) (h : a * 2 ^ k < 2 ^ 32) : shlU a k = .ok (a * 2 ^ k) := by
  unfold shlU; rw [if_pos hk, Nat.mod_eq_of_lt h]

theorem shrU_ok {a : Int} {k : Nat} (hk : k < 32) (h0 : 0 ≤ a) (h : a < 2 ^ 32) :
    shrU a k = .ok (a / 2 ^ k).toNat := by
  unfold shrU
  rw [if_pos hk, Int.shiftRight_eq_div_pow]
  have h1 : (0 : Int) ≤ a / 2 ^ k := Int.ediv_nonneg h0 (le_of_lt (p2pos k))
  have h2 : a / 2 ^ k ≤ a := Int.ediv_le_self _ h0
  push_cast
  generalize a / 2 ^ k = z at *
  rw [Int.emod_eq_of_lt h1 (by omega)]

theorem cdp_ok {a : Int} {k : Nat} (h : I32 a) (hk : k < 63) : intCeildivpow2 a k = some (cdiv a (2 ^ k)) := by
  obtain ⟨q, e, hq⟩ := C26_int_ceildivpow2 a k h hk
  rw [e, ceil_eq (p2pos k) hq]

theorem fdp_ok {a : Int} {k : Nat} (hk : k < 32) : intFloordivpow2 a k = some (a / 2 ^ k) := by
  obtain ⟨⟨q, e, hq⟩, -⟩ := C26_floordivpow2 a 0 k hk
  rw [e, floor_eq (p2pos k) hq]

theorem cdp64_ok {a : Int} {k : Nat} (h0 : -2 ^ 63 ≤ a) (h1 : a < 2 ^ 62) (hk : k < 62) (h : I32 (cdiv a (2 ^ k))) :
    int64Ceildivpow2 a k = some (cdiv a (2 ^ k)) :=
  C26_int64_ceildivpow2 a k h0 h1 hk _ (isCeilDiv_ediv a _ (p2pos k)) h

theorem asI32_ok {n : Nat} (h : n < 2 ^ 31) : asI32 n = n := by
  have h' : (n : Int) < 2147483648 := by omega
  have h0 : (0 : Int) ≤ n := by omega
  unfold asI32
  generalize (n : Int) = z at *
  exact wrap32_of_I32 _ ⟨by omega, by omega⟩

theorem asI32_big {n : Nat} (h : 2 ^ 31 ≤ n) (h' : n < 2 ^ 32) : asI32 n < 0 := by
  have h1 : (2147483648 : Int) ≤ n := by omega
  have h2 : (n : Int) < 4294967296 := by omega
  clear h h'
  unfold asI32
  generalize (n : Int) = z at *
  unfold wrap Int.bmod
  simp only
  split <;> omega

theorem intMax_eq (a b : Int) : intMax a b = max a b := by unfold intMax; split <;> omega
theorem intMin_eq (a b : Int) : intMin a b = min a b := by unfold intMin; split <;> omega

/-- Either the value, or a refusal for the reason `R`. -/
def Out {α : Type} (m : Except Err α) (v : α) (R : Prop) : Prop := m = .ok v ∨ (m = .error .refused ∧ R)

theorem Out.bind {α β : Type} {m : Except Err α} {v : α} {R : Prop} {f : α → Except Err β} {w : β} {S : Prop}
    (h : Out m v R) (k : Out (f v) w S) : Out (m >>= f) w (R ∨ S) := by
  rcases h with h | ⟨h, r⟩
  · rw [h]
    rcases k with k | ⟨k, s⟩
    · exact Or.inl k
    · exact Or.inr ⟨k, Or.inr s⟩
  · rw [h]; exact Or.inr ⟨rfl, Or.inl r⟩

theorem Out.mono {α : Type} {m : Except Err α} {v : α} {R S : Prop} (h : Out m v R) (k : R → S) : Out m v S := by
  rcases h with h | ⟨h, r⟩
  · exact Or.inl h
  · exact Or.inr ⟨h, k r⟩

theorem Out.mapM {α β : Type} {f : α → Except Err β} {g : α → β} {R : α → Prop} :
    ∀ {l : List α}, (∀ a ∈ l, Out (f a) (g a) (R a)) → Out (l.mapM f) (l.map g) (∃ a ∈ l, R a)
  | [], _ => Or.inl rfl
  | a :: l, h => by
    have h1 := h a (by simp)
    have h2 := Out.mapM (l := l) (fun b hb => h b (by simp [hb]))
    rw [List.mapM_cons]
    have h3 := h1.bind (f := fun x => l.mapM f >>= fun xs => pure (x :: xs)) (h2.bind (f := fun xs => pure (g a :: xs)) (Or.inl rfl : Out (pure (g a :: l.map g)) (g a :: l.map g) False))
    refine Out.mono h3 ?_
    rintro (r | ⟨b, hb, r⟩ | f)
    · exact ⟨a, by simp, r⟩
    · exact ⟨b, by simp [hb], r⟩
    · exact f.elim

theorem Out.ok {α : Type} {m : Except Err α} {v x : α} {R : Prop} (h : Out m v R) (e : m = .ok x) : x = v := by
  rcases h with h | ⟨h, -⟩
  · rw [h] at e; exact (Except.ok.inj e).symm
  · rw [h] at e; exact absurd e (by simp)

/-! ## The axes -/

theorem compAxis_ok {t0 t1 : Int} {d : Nat} (h0 : 0 ≤ t0) (h1 : t0 ≤ t1) (h2 : t1 < 2 ^ 31) (hd : 0 < d) (hd' : d < 2 ^ 31) :
    compAxis t0 t1 d = .ok (cdiv t0 d, cdiv t1 d) := by
  have hdi : (0 : Int) < d := by omega
  have k (a : Int) (ha : 0 ≤ a) (ha' : a < 2 ^ 31) : intCeildiv a (asI32 d) = some (cdiv a d) := by
    rw [asI32_ok hd']
    obtain ⟨q, e, hq⟩ := C26_int_ceildiv a d ⟨by omega, ha'⟩ ⟨by omega, by omega⟩ hdi (by omega)
    rw [e, ceil_eq hdi hq]
  unfold compAxis
  rw [k t0 h0 (by omega), k t1 (by omega) h2]
  rfl

theorem resAxis_ok {c0 c1 : Int} {lev : Nat} (h0 : 0 ≤ c0) (h1 : c0 ≤ c1) (h2 : c1 < 2 ^ 31) (hl : lev < 62) :
    resAxis c0 c1 lev = .ok (cdiv c0 (2 ^ lev), cdiv c1 (2 ^ lev)) := by
  unfold resAxis
  rw [cdp_ok ⟨by omega, by omega⟩ (by omega), cdp_ok ⟨by omega, by omega⟩ (by omega)]
  rfl

theorem bandAxis_ok {c0 c1 : Int} {resno lev ob : Nat} (h0 : 0 ≤ c0) (h1 : c0 ≤ c1) (h2 : c1 < 2 ^ 31) (hl : lev < 61) (hob : ob ≤ 1) :
    bandAxis c0 c1 resno lev ob = .ok (if resno = 0 then (cdiv c0 (2 ^ lev), cdiv c1 (2 ^ lev)) else
      (cdiv (c0 - ob * 2 ^ lev) (2 ^ (lev + 1)), cdiv (c1 - ob * 2 ^ lev) (2 ^ (lev + 1)))) := by
  unfold bandAxis
  split
  · exact resAxis_ok h0 h1 h2 (by omega)
  · have hp := p2pos lev
    have hle := p2le 61 (by omega : lev ≤ 61)
    have k (c : Int) (hc : 0 ≤ c) (hc' : c < 2 ^ 31) :
        int64Ceildivpow2 (c - ob * 2 ^ lev) (((lev + 1 : Nat)) : Int) = some (cdiv (c - ob * 2 ^ lev) (2 ^ (lev + 1))) := by
      have hob' : (ob : Int) * 2 ^ lev ≤ 2 ^ lev := by
        have : (ob : Int) ≤ 1 := by omega
        nlinarith
      have hob0 : (0 : Int) ≤ ob * 2 ^ lev := by positivity
      refine cdp64_ok (by omega) (by omega) (by omega) ⟨?_, ?_⟩
      · have : -1 < cdiv (c - ob * 2 ^ lev) (2 ^ (lev + 1)) := by
          rw [lt_cdiv (p2pos _), pow_succ]; omega
        omega
      · have : cdiv (c - ob * 2 ^ lev) (2 ^ (lev + 1)) ≤ c := by
          rw [cdiv_le (p2pos _), pow_succ]; nlinarith
        omega
    have e : ((lev : Int) + 1) = (((lev + 1 : Nat)) : Int) := by push_cast; rfl
    rw [e, k c0 h0 (by omega), k c1 (by omega) h2]
    rfl

theorem fdiv_mul_le (a : Int) (k : Nat) : a / 2 ^ k * 2 ^ k ≤ a := (le_fdiv (p2pos k)).1 le_rfl
theorem lt_fdiv_mul (a : Int) (k : Nat) : a < a / 2 ^ k * 2 ^ k + 2 ^ k := by
  have := (fdiv_lt (p2pos k) (a := a) (u := a / 2 ^ k + 1)).1 (by omega)
  rw [add_mul] at this; omega
theorem le_cdiv_mul (a : Int) (k : Nat) : a ≤ cdiv a (2 ^ k) * 2 ^ k := (cdiv_le (p2pos k)).1 le_rfl
theorem cdiv_mul_lt (a : Int) (k : Nat) : cdiv a (2 ^ k) * 2 ^ k < a + 2 ^ k := by
  have := (lt_cdiv (p2pos k) (a := a) (u := cdiv a (2 ^ k) - 1)).1 (by omega)
  rw [sub_mul] at this; omega
theorem fdiv_le_cdiv {a b : Int} (k : Nat) (h : a ≤ b) : a / 2 ^ k ≤ cdiv b (2 ^ k) := by
  unfold cdiv; exact Int.ediv_le_ediv (p2pos k) (by have := p2pos k; omega)
theorem fdiv_lt_cdiv {a b : Int} (k : Nat) (h : a < b) : a / 2 ^ k < cdiv b (2 ^ k) := by
  rw [lt_cdiv (p2pos k)]; have := fdiv_mul_le a k; omega

theorem sub_shift {a b : Int} (k : Nat) : (b * 2 ^ k - a * 2 ^ k) / 2 ^ k = b - a := by
  rw [← sub_mul, Int.mul_ediv_cancel _ (ne_of_gt (p2pos k))]

theorem prcAxis_eq {r0 r1 : Int} {pd : Nat} (h0 : 0 ≤ r0) (h1 : r0 ≤ r1) (h2 : r1 < 2 ^ 31) (hp : pd ≤ 30) :
    prcAxis r0 r1 pd = if 2 ^ 31 ≤ cdiv r1 (2 ^ pd) * 2 ^ pd then .error .refused else
      .ok (r0 / 2 ^ pd * 2 ^ pd, if r0 = r1 then 0 else (cdiv r1 (2 ^ pd) - r0 / 2 ^ pd).toNat) := by
  have hpos := p2pos pd
  have hpl := p2le 30 hp
  have f1 := fdiv_mul_le r0 pd
  have f0 : 0 ≤ r0 / 2 ^ pd * 2 ^ pd := mul_nonneg (Int.ediv_nonneg h0 (le_of_lt hpos)) (le_of_lt hpos)
  have c1 := cdiv_mul_lt r1 pd
  have c0 := le_cdiv_mul r1 pd
  have cn := cdiv_nonneg hpos (by omega : 0 ≤ r1)
  have cs := cdiv_le_self hpos (by omega : 0 ≤ r1)
  have e1 : (cdiv r1 (2 ^ pd) % 2 ^ 32).toNat = (cdiv r1 (2 ^ pd)).toNat := by
    rw [Int.emod_eq_of_lt cn (by omega)]
  have e2 : (((cdiv r1 (2 ^ pd)).toNat * 2 ^ pd : Nat) : Int) = cdiv r1 (2 ^ pd) * 2 ^ pd := by
    push_cast; rw [Int.toNat_of_nonneg cn]
  have e3 : (cdiv r1 (2 ^ pd)).toNat * 2 ^ pd < 2 ^ 32 := by zify; rw [Int.toNat_of_nonneg cn]; omega
  unfold prcAxis
  rw [fdp_ok (by omega), ofOpt_some, ok_bind, shlI_ok (by omega) ⟨by omega, by omega⟩, ok_bind,
    cdp_ok ⟨by omega, by omega⟩ (by omega), ofOpt_some, ok_bind, e1, shlU_ok (by omega) e3, ok_bind]
  by_cases hb : 2147483647 < (cdiv r1 (2 ^ pd)).toNat * 2 ^ pd
  · rw [if_pos hb]
    zify at hb; rw [Int.toNat_of_nonneg cn] at hb
    rw [if_pos (by omega : 2 ^ 31 ≤ cdiv r1 (2 ^ pd) * 2 ^ pd)]; rfl
  · rw [if_neg hb]
    zify at hb; rw [Int.toNat_of_nonneg cn] at hb
    rw [if_neg (by omega : ¬ (2 ^ 31 ≤ cdiv r1 (2 ^ pd) * 2 ^ pd))]
    by_cases he : r0 = r1
    · rw [if_pos he, if_pos he]; rfl
    · rw [if_neg he, if_neg he]
      show (i32 (_ - _) >>= _) = _
      rw [e2, i32_ok ⟨by omega, by omega⟩, ok_bind, shrU_ok (by omega) (by omega) (by omega), ok_bind, sub_shift]
      rfl

theorem precAxis_ok {G b0 b1 : Int} {i cbg : Nat} (hc : cbg ≤ 30) (h0 : 0 ≤ G) (h1 : (G + i + 1) * 2 ^ cbg < 2 ^ 31) :
    precAxis (G * 2 ^ cbg) i cbg b0 b1 = .ok (max ((G + i) * 2 ^ cbg) b0, min ((G + i + 1) * 2 ^ cbg) b1) := by
  have hpos := p2pos cbg
  have hpl := p2le 30 hc
  have hi : (i : Int) * 2 ^ cbg ≤ (G + i) * 2 ^ cbg := mul_le_mul_of_nonneg_right (by omega) (le_of_lt hpos)
  have hi0 : (0 : Int) ≤ i * 2 ^ cbg := by positivity
  have hG0 : (0 : Int) ≤ G * 2 ^ cbg := by positivity
  have hin : (i : Int) ≤ i * 2 ^ cbg := by nlinarith
  have e : (G + i + 1) * (2 : Int) ^ cbg = (G + i) * 2 ^ cbg + 2 ^ cbg := by ring
  have e' : (G + i) * (2 : Int) ^ cbg = G * 2 ^ cbg + i * 2 ^ cbg := by ring
  unfold precAxis
  rw [shlI_ok (by omega) ⟨by omega, by omega⟩, ok_bind, one_mul, asI32_ok (by omega), i32_ok ⟨by omega, by omega⟩, ok_bind,
    i32_ok ⟨by omega, by omega⟩, ok_bind, i32_ok ⟨by omega, by omega⟩, ok_bind, intMax_eq, intMin_eq, e, e']
  rfl

theorem cblkGrid_ok {p0 p1 M : Int} {cb : Nat} (hc : cb ≤ 30) (h0 : 0 ≤ p0) (h1 : p0 ≤ p1) (h2 : p1 ≤ M * 2 ^ cb)
    (h3 : M * 2 ^ cb < 2 ^ 31) :
    cblkGrid p0 p1 cb = .ok (p0 / 2 ^ cb * 2 ^ cb, (cdiv p1 (2 ^ cb) - p0 / 2 ^ cb).toNat) := by
  have hpos := p2pos cb
  have f1 := fdiv_mul_le p0 cb
  have f0 : 0 ≤ p0 / 2 ^ cb * 2 ^ cb := mul_nonneg (Int.ediv_nonneg h0 (le_of_lt hpos)) (le_of_lt hpos)
  have c0 := le_cdiv_mul p1 cb
  have c1 : cdiv p1 (2 ^ cb) * 2 ^ cb ≤ M * 2 ^ cb :=
    mul_le_mul_of_nonneg_right ((cdiv_le hpos).2 h2) (le_of_lt hpos)
  unfold cblkGrid
  rw [fdp_ok (by omega), ofOpt_some, ok_bind, shlI_ok (by omega) ⟨by omega, by omega⟩, ok_bind,
    cdp_ok ⟨by omega, by omega⟩ (by omega), ofOpt_some, ok_bind, shlI_ok (by omega) ⟨by omega, by omega⟩, ok_bind,
    i32_ok ⟨by omega, by omega⟩, ok_bind, shrU_ok (by omega) (by omega) (by omega), ok_bind, sub_shift]
  rfl

theorem cblkAxis_eq (s : Int) (i cb : Nat) (p0 p1 : Int) : cblkAxis s i cb p0 p1 = precAxis s i cb p0 p1 := rfl

theorem half_ok {a : Int} {k : Nat} (h0 : 0 ≤ a) (h1 : a * 2 ^ (k + 1) < 2 ^ 31) :
    half (a * 2 ^ (k + 1)) = .ok (a * 2 ^ k) := by
  have hp := p2pos (k + 1)
  have : (0 : Int) ≤ a * 2 ^ (k + 1) := mul_nonneg h0 (le_of_lt hp)
  unfold half
  have := cdp_ok (a := a * 2 ^ (k + 1)) (k := 1) ⟨by omega, h1⟩ (by omega)
  rw [show ((1 : Nat) : Int) = 1 from rfl] at this
  rw [this, ofOpt_some]
  congr 1
  unfold cdiv
  rw [pow_succ, ← mul_assoc]
  omega

/-- A tile border along one axis. -/
theorem tileAxis_out {grid q td i0 i1 : Nat} (hg : grid + q * td < 2 ^ 32) (htd : td < 2 ^ 32) (h0 : i0 < 2 ^ 32) (h1 : i1 < 2 ^ 32) :
    Out (tileAxis grid q td i0 i1) ((max (grid + q * td) i0 : Nat), (min (grid + (q + 1) * td) i1 : Nat))
      (2 ^ 31 ≤ i1 ∨ min (grid + (q + 1) * td) i1 ≤ max (grid + q * td) i0) := by
  unfold tileAxis
  have e : (grid + q * td % 2 ^ 32) % 2 ^ 32 = grid + q * td := by
    rw [Nat.mod_eq_of_lt (a := q * td) (by omega), Nat.mod_eq_of_lt hg]
  have e1 : uintMax (grid + q * td) i0 = max (grid + q * td) i0 := by unfold uintMax; split <;> omega
  have e2 : uintMin (uintAdds (grid + q * td) td) i1 = min (grid + (q + 1) * td) i1 := by
    unfold uintMin uintAdds
    rw [Nat.add_mul]
    split <;> split <;> omega
  simp only [e, e1, e2]
  obtain ⟨a, ha⟩ : ∃ a, a = max (grid + q * td) i0 := ⟨_, rfl⟩
  obtain ⟨b, hb⟩ : ∃ b, b = min (grid + (q + 1) * td) i1 := ⟨_, rfl⟩
  have ha' : a < 2 ^ 32 := by omega
  have hb' : b < 2 ^ 32 := by omega
  rw [← ha, ← hb]
  by_cases h : asI32 a < 0 ∨ asI32 b ≤ asI32 a
  · rw [if_pos h]
    refine Or.inr ⟨rfl, ?_⟩
    by_cases hh : i1 < 2 ^ 31
    · right
      by_contra hc
      rw [asI32_ok (by omega), asI32_ok (by omega)] at h
      omega
    · left; omega
  · rw [if_neg h]
    left
    have a1 : a < 2 ^ 31 := by
      by_contra hc
      exact h (Or.inl (asI32_big (not_lt.1 hc) ha'))
    have b1 : b < 2 ^ 31 := by
      by_contra hc
      rw [asI32_ok a1] at h
      exact h (Or.inr (le_trans (le_of_lt (asI32_big (not_lt.1 hc) hb')) (Int.natCast_nonneg a)))
    rw [asI32_ok a1, asI32_ok b1]

end Jp2.Tcd

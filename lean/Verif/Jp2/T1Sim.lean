import Verif.Jp2.T1Bits
import Mathlib.Tactic.Ring
import Mathlib.Tactic.Linarith
/-!
# The decoder passes undo the encoder passes
-/
namespace Jp2.T1
variable {σ : Type}

/-! ## Playing a list of decisions to the decoder -/

/-- From coder state `s` the decoder reads exactly these decisions and ends in `s'`. -/
def Plays (C : Coder σ) (raw : Bool) : σ → List Sym → σ → Prop
  | s, [], s' => s = s'
  | s, (cx, d) :: l, s' => ∃ u, (if raw then C.raw s else C.mq s cx) = some (d, u) ∧ Plays C raw u l s'

theorem plays_append {C : Coder σ} {raw : Bool} : ∀ {a b : List Sym} {s s' : σ},
    Plays C raw s (a ++ b) s' ↔ ∃ u, Plays C raw s a u ∧ Plays C raw u b s' := by
  intro a
  induction a with
  | nil => intro b s s'; simp [Plays]
  | cons p a ih =>
    intro b s s'
    obtain ⟨cx, d⟩ := p
    simp only [List.cons_append, Plays, ih]
    constructor
    · rintro ⟨u, h1, t, h2, h3⟩; exact ⟨t, ⟨u, h1, h2⟩, h3⟩
    · rintro ⟨t, ⟨u, h1, h2⟩, h3⟩; exact ⟨u, h1, t, h2, h3⟩

abbrev Rel3 := List Word → List Word → List Int → Prop

/-- Whatever the encoder part emits, the decoder part reads back, and `P` becomes `Q`. -/
def Sim (C : Coder σ) (raw : Bool) (P Q : Rel3) (e : Enc) (d : Dec σ) : Prop :=
  ∀ F G D tr F' c c', P F G D → e F = some (tr, F') → Plays C raw c tr c' → ∃ G' D', d ⟨c, G, D⟩ = some ⟨c', G', D'⟩ ∧ Q F' G' D'

theorem Sim.seq {C : Coder σ} {raw : Bool} {P Q R : Rel3} {a b : Enc} {a' b' : Dec σ} (h1 : Sim C raw P Q a a') (h2 : Sim C raw Q R b b') :
    Sim C raw P R (Enc.seq a b) (Dec.seq a' b') := by
  intro F G D tr F' c c' hP he hp
  unfold Enc.seq at he
  rw [Option.bind_eq_some_iff] at he
  obtain ⟨⟨t1, F1⟩, h3, he⟩ := he
  rw [Option.map_eq_some_iff] at he
  obtain ⟨⟨t2, F2⟩, h4, he⟩ := he
  injection he with e1 e2
  subst e1 e2
  obtain ⟨u, p1, p2⟩ := plays_append.mp hp
  obtain ⟨G1, D1, k1, q1⟩ := h1 F G D t1 F1 c u hP h3 p1
  obtain ⟨G2, D2, k2, q2⟩ := h2 F1 G1 D1 t2 F2 u c' q1 h4 p2
  exact ⟨G2, D2, by unfold Dec.seq; rw [k1, Option.bind_some, k2], q2⟩

theorem Sim.skip {C : Coder σ} {raw : Bool} {P Q : Rel3} (h : ∀ F G D, P F G D → Q F G D) : Sim C raw P Q Enc.skip Dec.skip := by
  intro F G D tr F' c c' hP he hp
  unfold Enc.skip at he
  injection he with he
  injection he with e1 e2
  subst e1 e2
  simp only [Plays] at hp
  subst hp
  exact ⟨G, D, rfl, h _ _ _ hP⟩

theorem Sim.mono {C : Coder σ} {raw : Bool} {P P' Q Q' : Rel3} {a : Enc} {a' : Dec σ} (h : Sim C raw P Q a a') (h1 : ∀ F G D, P' F G D → P F G D)
    (h2 : ∀ F G D, Q F G D → Q' F G D) : Sim C raw P' Q' a a' := by
  intro F G D tr F' c c' hP he hp
  obtain ⟨G', D', k, q⟩ := h F G D tr F' c c' (h1 _ _ _ hP) he hp
  exact ⟨G', D', k, h2 _ _ _ q⟩

/-! ## What the decoder knows of a coefficient -/

/-- Magnitude of a sign-and-magnitude word, without its six fractional bits. -/
def mag (v : Nat) : Nat := v % 2 ^ 31 / 64

/-- The reconstruction from bit plane `b` on: magnitude bits above `b`, then half a step. -/
def lev (v b : Nat) : Int := (if signOf v = 0 then 1 else -1) * (((2 * (mag v / 2 ^ b) + 1) * 2 ^ b : Nat) : Int)

/-- What is known in plane `b` of a coefficient `v` decoded as `d`, from its significance flag, its "coded in this plane"
flag, whether the refinement pass has visited it (`r`) and whether the cleanup pass has (`c`). -/
def Ok (b : Nat) (r c : Bool) (v : Nat) (d : Int) (sg pi : Bool) : Prop :=
  (if sg then d = lev v (if pi || r || c then b else b + 1) ∧ 0 < mag v / 2 ^ (if pi || r || c then b else b + 1) else d = 0 ∧ mag v / 2 ^ (if pi || c then b else b + 1) = 0) ∧
  (c = true → pi = false)

theorem bitOf_eq (b v : Nat) : bitOf (2 ^ (b + 6)) v = mag v / 2 ^ b % 2 := by
  unfold bitOf mag
  have h1 : v &&& 0x7FFFFFFF = v % 2 ^ 31 := Nat.and_two_pow_sub_one_eq_mod v 31
  have h3 : ∀ n k : Nat, n &&& 2 ^ k = (n / 2 ^ k % 2) * 2 ^ k := by
    intro n k
    apply Nat.eq_of_testBit_eq
    intro i
    rw [Nat.testBit_and, Nat.testBit_two_pow, Nat.mul_comm, Nat.testBit_two_pow_mul]
    by_cases hk : k = i
    · subst hk
      simp [Nat.testBit_eq_decide_div_mod_eq]
    · by_cases hk2 : i ≥ k
      · have h5 : (n / 2 ^ k % 2).testBit (i - k) = false := Nat.testBit_lt_two_pow (by
          have h6 : 2 ^ 1 ≤ 2 ^ (i - k) := Nat.pow_le_pow_right (by omega) (by omega)
          omega)
        simp [hk, h5]
      · simp [hk, hk2]
  rw [h1, h3]
  have h2 : v % 2 ^ 31 / 2 ^ (b + 6) = v % 2 ^ 31 / 64 / 2 ^ b := by
    rw [Nat.div_div_eq_div_mul, Nat.pow_add, Nat.mul_comm (2 ^ b)]
  rw [h2]
  generalize v % 2 ^ 31 / 64 / 2 ^ b = m
  have hp : 2 ^ (b + 6) ≠ 0 := by positivity
  rcases Nat.mod_two_eq_zero_or_one m with h | h
  · simp [h]
  · simp [h]

theorem mag_step (v b : Nat) : mag v / 2 ^ b = 2 * (mag v / 2 ^ (b + 1)) + mag v / 2 ^ b % 2 := by
  rw [Nat.pow_succ, ← Nat.div_div_eq_div_mul]
  omega

theorem or_half (b : Nat) : (2 ^ (b + 1) ||| 2 ^ (b + 1) >>> 1) = 3 * 2 ^ b := by
  rw [Nat.shiftRight_eq_div_pow, Nat.pow_one, Nat.pow_succ, Nat.mul_div_cancel _ (by omega)]
  have := Nat.two_pow_add_eq_or_of_lt (i := b + 1) (b := 2 ^ b) (Nat.pow_lt_pow_right (by omega) (by omega)) 1
  rw [Nat.mul_one] at this
  rw [← Nat.pow_succ, ← this, Nat.pow_succ]
  omega

theorem half_eq (b : Nat) : 2 ^ (b + 1) >>> 1 = 2 ^ b := by
  rw [Nat.shiftRight_eq_div_pow, Nat.pow_one, Nat.pow_succ, Nat.mul_div_cancel _ (by omega)]

theorem lev_new {v b : Nat} (h : mag v / 2 ^ (b + 1) = 0) (hb : mag v / 2 ^ b % 2 = 1) :
    lev v b = if signOf v ≠ 0 then -((3 * 2 ^ b : Nat) : Int) else ((3 * 2 ^ b : Nat) : Int) := by
  unfold lev
  rw [mag_step v b, h, hb]
  by_cases hs : signOf v = 0
  · simp [hs]
  · simp [hs]

theorem lev_refine (v b : Nat) : lev v b = lev v (b + 1) + (if signOf v = 0 then 1 else -1) * (2 * (mag v / 2 ^ b % 2 : Nat) - 1) * 2 ^ b := by
  unfold lev
  have h := mag_step v b
  generalize mag v / 2 ^ (b + 1) = q at *
  generalize mag v / 2 ^ b % 2 = t at *
  rw [h]
  push_cast
  ring

theorem lev_neg (v b : Nat) : lev v b < 0 ↔ signOf v ≠ 0 := by
  unfold lev
  have : (0 : Int) < (((2 * (mag v / 2 ^ b) + 1) * 2 ^ b : Nat) : Int) := by positivity
  generalize (((2 * (mag v / 2 ^ b) + 1) * 2 ^ b : Nat) : Int) = z at *
  split
  · rename_i h; simp [h]; omega
  · rename_i h; simp [h]; omega

theorem lev_bound {v b : Nat} (hb : b ≤ 25) : -2 ^ 27 < lev v b ∧ lev v b < 2 ^ 27 := by
  have h1 : mag v < 2 ^ 25 := by
    unfold mag
    have := Nat.mod_lt v (show 0 < 2 ^ 31 by omega)
    omega
  have h2 : mag v / 2 ^ b * 2 ^ b ≤ mag v := Nat.div_mul_le_self _ _
  have h3 : 2 ^ b ≤ 2 ^ 25 := Nat.pow_le_pow_right (by omega) hb
  have h4 : (2 * (mag v / 2 ^ b) + 1) * 2 ^ b < 2 ^ 27 := by
    rw [Nat.add_mul, Nat.mul_assoc, Nat.one_mul]
    omega
  unfold lev
  generalize (2 * (mag v / 2 ^ b) + 1) * 2 ^ b = z at *
  split <;> omega

/-! ## The whole block -/

/-- The flag cell of the coefficient in row `y` and column `x`. -/
def cell (w y x : Nat) : Nat := w + 3 + y / 4 * (w + 2) + x
/-- Where the encoder keeps that coefficient. -/
def eidx (w h y x : Nat) : Nat := if y / 4 < h / 4 then y / 4 * (4 * w) + 4 * x + y % 4 else h / 4 * (4 * w) + h % 4 * x + y % 4

/-- The state of encoder and decoder in plane `b`: the flags agree on `M`, and every coefficient is known as far as it should be. -/
structure St (w h : Nat) (data : List Nat) (M : Nat → Word) (b : Nat) (r c : Nat → Nat → Bool) (F G : List Word) (D : List Int) : Prop where
  eqv : Eqv M F G
  dl : D.length = w * h
  ok : ∀ y < h, ∀ x < w, Ok b (r y x) (c y x) (data.getD (eidx w h y x) 0) (D.getD (y * w + x) 0)
    (sgW (F.getD (cell w y x) 0) (y % 4)) (piW (F.getD (cell w y x) 0) (y % 4))

theorem pair_inj {n a b c d : Nat} (h : a * n + b = c * n + d) (hb : b < n) (hd : d < n) : a = c ∧ b = d := by
  have h1 : (a * n + b) / n = a := by rw [Nat.add_comm, Nat.add_mul_div_right _ _ (by omega), Nat.div_eq_of_lt hb, Nat.zero_add]
  have h2 : (c * n + d) / n = c := by rw [Nat.add_comm, Nat.add_mul_div_right _ _ (by omega), Nat.div_eq_of_lt hd, Nat.zero_add]
  rw [h] at h1
  have : a = c := by omega
  subst this
  exact ⟨rfl, by omega⟩

theorem cell_inj {w y x y' x' : Nat} (hx : x < w) (hx' : x' < w) (h : cell w y' x' = cell w y x) (hc : y' % 4 = y % 4) : y' = y ∧ x' = x := by
  unfold cell at h
  have : y' / 4 * (w + 2) + x' = y / 4 * (w + 2) + x := by omega
  obtain ⟨h1, h2⟩ := pair_inj this (by omega) (by omega)
  exact ⟨by omega, h2⟩

/-- A change of one coefficient. -/
theorem St.upd {w h : Nat} {data : List Nat} {M M' : Nat → Word} {b : Nat} {r c r' c' : Nat → Nat → Bool} {F G F' G' : List Word} {D D' : List Int}
    (hs : St w h data M b r c F G D) {y x : Nat} (hx : x < w) (hE : Eqv M' F' G')
    (hb : ∀ j, ∀ k < 4, ¬ (j = cell w y x ∧ k = y % 4) → sgW (F'.getD j 0) k = sgW (F.getD j 0) k ∧ piW (F'.getD j 0) k = piW (F.getD j 0) k)
    (hl : D'.length = D.length) (hd : ∀ i, i ≠ y * w + x → D'.getD i 0 = D.getD i 0)
    (hr : ∀ y' < h, ∀ x' < w, ¬ (y' = y ∧ x' = x) → r' y' x' = r y' x' ∧ c' y' x' = c y' x')
    (hok : Ok b (r' y x) (c' y x) (data.getD (eidx w h y x) 0) (D'.getD (y * w + x) 0) (sgW (F'.getD (cell w y x) 0) (y % 4))
      (piW (F'.getD (cell w y x) 0) (y % 4))) : St w h data M' b r' c' F' G' D' := by
  refine ⟨hE, hl.trans hs.dl, fun y' hy' x' hx' => ?_⟩
  by_cases hh : y' = y ∧ x' = x
  · rw [hh.1, hh.2]; exact hok
  · have h1 := hb (cell w y' x') (y' % 4) (by omega) (fun hq => hh (cell_inj hx hx' hq.1 hq.2))
    have h2 := hd (y' * w + x') (fun hq => hh (pair_inj hq hx' hx))
    have h3 := hr y' hy' x' hx' hh
    rw [h1.1, h1.2, h2, h3.1, h3.2]
    exact hs.ok y' hy' x' hx'

/-! ## Signs -/

/-- The mask keeps everything but `PI` bits. -/
def Wide (M : Nat → Word) : Prop := ∀ j, NPI &&& M j = NPI

theorem Wide.npi {M : Nat → Word} (hM : Wide M) {F G : List Word} (hE : Eqv M F G) (j : Nat) : F.getD j 0 &&& NPI = G.getD j 0 &&& NPI :=
  sub_mask (hE.eq j) (hM j)

theorem signOf_le {v : Nat} (h : v < 2 ^ 32) : signOf v < 2 := by
  unfold signOf
  rw [Nat.shiftRight_eq_div_pow]
  omega

theorem sign_sim {C : Coder σ} {raw : Bool} {M : Nat → Word} (hM : Wide M) {F F' G : List Word} {D : List Int} {w v f dp ci : Nat} {vsc : Bool}
    {x x' : Word} {tr : List Sym} {c c' : σ} (oph : Int) (hE : Eqv M F G) (hi : ci < 4) (hxy : x &&& NPI = x' &&& NPI) (hd : dp < D.length)
    (he : encSign w raw v f ci vsc x F = some (tr, F')) (hp : Plays C raw c tr c') :
    ∃ G', decSign C w raw oph f dp ci vsc x' ⟨c, G, D⟩ = some ⟨c', G', D.set dp (if signOf v ≠ 0 then -oph else oph)⟩ ∧ Eqv M F' G' ∧
      updateFlags (w + 2) f ci (signOf v) vsc F = some F' := by
  unfold encSign at he
  split at he
  · simp at he
  rename_i hf
  rw [Option.bind_eq_some_iff] at he
  obtain ⟨p, hp1, he⟩ := he
  rw [Option.bind_eq_some_iff] at he
  obtain ⟨n, hn1, he⟩ := he
  rw [Option.bind_eq_some_iff] at he
  obtain ⟨c2, hc2, he⟩ := he
  rw [Option.bind_eq_some_iff] at he
  obtain ⟨spb, hspb, he⟩ := he
  rw [Option.map_eq_some_iff] at he
  obtain ⟨F1, hu, he⟩ := he
  injection he with e1 e2
  subst e1 e2
  obtain ⟨G', hg, hE'⟩ := updateFlags_eqv hE hu
  obtain ⟨hpd, hpl⟩ := get_getD hp1
  obtain ⟨hnd, hnl⟩ := get_getD hn1
  refine ⟨G', ?_, hE', hu⟩
  simp only [Plays] at hp
  obtain ⟨u, hq, hu'⟩ := hp
  subst hu'
  unfold decSign
  cases raw with
  | true =>
    simp only [if_true] at hq ⊢
    simp only [Dec.bit, if_true, hq, Option.bind_some, Dec.seq, Dec.put, Dec.upd, if_pos hd, hg, Option.map_some]
  | false =>
    simp only [Bool.false_eq_true, if_false] at hq ⊢
    have hgp : G[f - 1]? = some (G.getD (f - 1) 0) := get_of_lt (by rw [hE.len]; exact hpl)
    have hgn : G[f + 1]? = some (G.getD (f + 1) 0) := get_of_lt (by rw [hE.len]; exact hnl)
    have hs : sgnIndex x' (G.getD (f - 1) 0) (G.getD (f + 1) 0) ci = sgnIndex x p n ci := by
      rw [sgnIndex_congr hi hxy (hpd ▸ hM.npi hE (f - 1)) (hnd ▸ hM.npi hE (f + 1))]
    rw [if_neg hf, hgp, Option.bind_some, hgn, Option.bind_some, hs, hspb, Option.bind_some, hc2]
    have hx : (signOf v ^^^ spb) ^^^ spb = signOf v := by rw [Nat.xor_assoc, Nat.xor_self, Nat.xor_zero]
    simp only [Dec.bit, Bool.false_eq_true, if_false, Option.bind_some, hq, hx, Dec.seq, Dec.put, Dec.upd, if_pos hd, hg, Option.map_some]

theorem set_getD_ne {D : List Int} {i j : Nat} {a : Int} (h : j ≠ i) : (D.set i a).getD j 0 = D.getD j 0 := by
  rw [getD_set, if_neg (fun hh => h hh.1.symm)]
theorem set_getD_eq {D : List Int} {i : Nat} {a : Int} (h : i < D.length) : (D.set i a).getD i 0 = a := by
  rw [getD_set, if_pos ⟨rfl, h⟩]

theorem didx_lt {w h y x : Nat} (hy : y < h) (hx : x < w) : y * w + x < w * h := by
  have : (y + 1) * w ≤ h * w := Nat.mul_le_mul_right w hy
  rw [Nat.add_mul, Nat.one_mul, Nat.mul_comm h] at this
  omega

/-! ## One step of the significance pass -/

theorem getElem_getD {data : List Nat} {i v : Nat} (h : data[i]? = some v) : data.getD i 0 = v := by
  rw [List.getD_eq_getElem?_getD, h]; rfl

section
variable {C : Coder σ} {w h b : Nat} {data : List Nat} {M : Nat → Word}

theorem sigStep_sim {raw : Bool} (hM : Wide M) (hv : ∀ i, data.getD i 0 < 2 ^ 32) {o y x f dp dp' ci : Nat} {vsc : Bool} {r c : Nat → Nat → Bool}
    (hy : y < h) (hx : x < w) (hf : f = cell w y x) (hdp : dp = eidx w h y x) (hdp' : dp' = y * w + x) (hci : ci = y % 4)
    (hpi : piW (M f) ci = true) (hr : r y x = false) (hc : c y x = false) :
    Sim C raw (St w h data M b r c) (St w h data M b r c) (encSigStep o w raw (2 ^ (b + 6)) data f dp ci vsc)
      (decSigStep C o w raw (((2 ^ (b + 1) ||| 2 ^ (b + 1) >>> 1 : Nat) : Int)) f dp' ci vsc) := by
  intro F G D tr F' s s' hS he hp
  have hi : ci < 4 := by omega
  have hE := hS.eqv
  have hok := hS.ok y hy x hx
  rw [← hf, ← hdp, ← hdp', ← hci, hr, hc] at hok
  have hdl : dp' < D.length := by rw [hS.dl, hdp']; exact didx_lt hy hx
  unfold encSigStep Enc.get at he
  rw [Option.bind_eq_some_iff] at he
  obtain ⟨z, hz, he⟩ := he
  dsimp only at he
  obtain ⟨hz1, hz2⟩ := get_getD hz
  have hgz : G[f]? = some (G.getD f 0) := get_of_lt (by rw [hE.len]; exact hz2)
  have hnz : z &&& NPI = G.getD f 0 &&& NPI := hz1 ▸ hM.npi hE f
  have hsg : sgW (G.getD f 0) ci = sgW z ci := by
    rw [← hz1]; exact (sgW_congr (hM.npi hE f) (by interval_cases ci <;> decide)).symm
  have hpg : piW (G.getD f 0) ci = piW z ci := by
    rw [← hz1]; exact (piW_congr (hE.eq f) hpi).symm
  have hcond : (G.getD f 0 &&& (SIGMA_PI <<< (3 * ci)) = 0 ∧ G.getD f 0 &&& (NEIGHBOURS <<< (3 * ci)) ≠ 0) ↔
      (z &&& (SIGMA_PI <<< (3 * ci)) = 0 ∧ z &&& (NEIGHBOURS <<< (3 * ci)) ≠ 0) := by
    rw [(sigpi_split _ hi).1, (sigpi_split _ hi).1, hsg, hpg, sub_mask hnz (a := NEIGHBOURS <<< (3 * ci)) (by interval_cases ci <;> decide)]
  unfold decSigStep Dec.get
  simp only [hgz, Option.bind_some]
  split at he
  · rename_i hyes
    rw [if_pos (hcond.mpr hyes)]
    have hsp := (sigpi_split z hi).1.mp hyes.1
    rw [Option.bind_eq_some_iff] at he
    obtain ⟨c1, hc1, he⟩ := he
    rw [Option.bind_eq_some_iff] at he
    obtain ⟨v, hvv, he⟩ := he
    have hvd := getElem_getD hvv
    unfold Enc.emit at he
    rw [Option.map_eq_some_iff] at he
    obtain ⟨⟨t1, F1⟩, he, he2⟩ := he
    injection he2 with e1 e2
    subst e1 e2
    unfold Enc.seq at he
    rw [Option.bind_eq_some_iff] at he
    obtain ⟨⟨t2, F2⟩, he1, he⟩ := he
    rw [Option.map_eq_some_iff] at he
    obtain ⟨⟨t3, F3⟩, he3, he⟩ := he
    injection he with e1 e2
    subst e1 e2
    unfold Enc.upd at he3
    rw [Option.map_eq_some_iff] at he3
    obtain ⟨F4, he3, e4⟩ := he3
    injection e4 with e1 e2
    subst e1 e2
    rw [List.append_nil] at hp
    simp only [List.cons_append, List.nil_append, Plays] at hp
    obtain ⟨u, hq, hp⟩ := hp
    have hsgF : sgW (F.getD f 0) ci = false := by rw [hz1]; exact hsp.1
    have hpiF : piW (F.getD f 0) ci = false := by rw [hz1]; exact hsp.2
    rw [hsgF, hpiF, hvd] at hok
    have hok0 : D.getD dp' 0 = 0 ∧ mag v / 2 ^ (b + 1) = 0 := by simpa [Ok] using hok
    have hbit : (if raw then C.raw s else (ctxZc o (G.getD f 0 >>> (3 * ci))).bind (C.mq s)) = some (bitOf (2 ^ (b + 6)) v, u) := by
      rw [ctxZc_congr hi hnz.symm, hc1, Option.bind_some]; exact hq
    simp only [Dec.bit, hbit, Option.bind_some]
    obtain ⟨hlF2, hF4⟩ := orAt_iff.mp he3
    by_cases hb1 : bitOf (2 ^ (b + 6)) v ≠ 0
    · rw [if_pos hb1] at he1 ⊢
      obtain ⟨G2, hd2, hE2, hu2⟩ := sign_sim hM (dp := dp') (((2 ^ (b + 1) ||| 2 ^ (b + 1) >>> 1 : Nat) : Int)) hE hi hnz hdl he1 hp
      obtain ⟨G4, hg4, hE4⟩ := orAt_eqv hE2 he3
      have hsv : signOf v < 2 := signOf_le (hvd ▸ hv dp)
      obtain ⟨hul, hub⟩ := updateFlags_bits hsv hi hu2
      refine ⟨G4, D.set dp' (if signOf v ≠ 0 then -((2 ^ (b + 1) ||| 2 ^ (b + 1) >>> 1 : Nat) : Int) else ((2 ^ (b + 1) ||| 2 ^ (b + 1) >>> 1 : Nat) : Int)), ?_, ?_⟩
      · unfold Dec.seq
        rw [hd2, Option.bind_some]
        simp only [Dec.upd, hg4, Option.map_some]
      · refine hS.upd (y := y) hx hE4 ?_ List.length_set (fun i hi => set_getD_ne (by rw [hdp']; exact hi)) (fun _ _ _ _ _ => ⟨rfl, rfl⟩) ?_
        · intro j k hk hne
          rw [← hf, ← hci] at hne
          rw [hF4, getD_set]
          split
          · rename_i hj
            obtain ⟨rfl, _⟩ := hj
            have hne' : k ≠ ci := fun hh => hne ⟨rfl, hh⟩
            rw [(pi_or _ hi hk).1, (pi_or _ hi hk).2, (hub _ k hk).1, (hub _ k hk).2]
            simp [hne']
          · rw [(hub _ k hk).1, (hub _ k hk).2]
            simp [hne]
        · rw [← hf, ← hdp', ← hdp, ← hci, hr, hc, hvd, set_getD_eq hdl, hF4, getD_set, if_pos (show f = f ∧ f < F2.length from ⟨rfl, hlF2⟩), (pi_or _ hi hi).1, (pi_or _ hi hi).2,
            (hub _ ci hi).1, (hub _ ci hi).2]
          rw [bitOf_eq] at hb1
          rw [or_half, ← lev_new hok0.2 (by omega)]
          have hpos : 0 < mag v / 2 ^ b := by
            rcases Nat.eq_zero_or_pos (mag v / 2 ^ b) with h0 | h0
            · rw [h0] at hb1; exact absurd rfl hb1
            · exact h0
          simp only [Ok, decide_true, Bool.or_true, Bool.true_or, if_true, Bool.false_eq_true, false_imp_iff, and_true, true_and]
          exact hpos
    · rw [if_neg hb1] at he1 ⊢
      unfold Enc.skip at he1
      injection he1 with he1
      injection he1 with e1 e2
      subst e1 e2
      simp only [Plays] at hp
      subst hp
      obtain ⟨G4, hg4, hE4⟩ := orAt_eqv hE he3
      refine ⟨G4, D, ?_, ?_⟩
      · simp only [Dec.seq, Dec.skip, Option.bind_some, Dec.upd, hg4, Option.map_some]
      · refine hS.upd (y := y) hx hE4 ?_ rfl (fun _ _ => rfl) (fun _ _ _ _ _ => ⟨rfl, rfl⟩) ?_
        · intro j k hk hne
          rw [← hf, ← hci] at hne
          rw [hF4, getD_set]
          split
          · rename_i hj
            obtain ⟨rfl, _⟩ := hj
            have hne' : k ≠ ci := fun hh => hne ⟨rfl, hh⟩
            rw [(pi_or _ hi hk).1, (pi_or _ hi hk).2]
            simp [hne']
          · exact ⟨rfl, rfl⟩
        · rw [← hf, ← hdp', ← hdp, ← hci, hr, hc, hvd, hF4, getD_set, if_pos (show f = f ∧ f < F.length from ⟨rfl, hlF2⟩), (pi_or _ hi hi).1, (pi_or _ hi hi).2, hsgF]
          rw [bitOf_eq] at hb1
          have := mag_step v b
          rw [hok0.2] at this
          simp only [Ok, Bool.false_eq_true, if_false, decide_true, Bool.or_true, Bool.or_false, if_true]
          exact ⟨⟨hok0.1, by omega⟩, fun hh => hh.elim⟩
  · rename_i hno
    rw [if_neg (fun hh => hno (hcond.mp hh))]
    injection he with he
    injection he with e1 e2
    subst e1 e2
    simp only [Plays] at hp
    subst hp
    exact ⟨G, D, rfl, hS⟩

theorem refStep_sim {raw : Bool} (hM : Wide M) (hb25 : b < 25) {y x f dp dp' ci : Nat} {r r' c : Nat → Nat → Bool}
    (hy : y < h) (hx : x < w) (hf : f = cell w y x) (hdp : dp = eidx w h y x) (hdp' : dp' = y * w + x) (hci : ci = y % 4)
    (hpi : piW (M f) ci = true) (hr : r y x = false) (hc : c y x = false) (hr' : r' y x = true)
    (hrr : ∀ y' < h, ∀ x' < w, ¬ (y' = y ∧ x' = x) → r' y' x' = r y' x') :
    Sim C raw (St w h data M b r c) (St w h data M b r' c) (encRefStep (2 ^ (b + 6)) data f dp ci)
      (decRefStep C raw (((2 ^ (b + 1) >>> 1 : Nat) : Int)) f dp' ci) := by
  intro F G D tr F' s s' hS he hp
  have hi : ci < 4 := by omega
  have hE := hS.eqv
  have hok := hS.ok y hy x hx
  rw [← hf, ← hdp, ← hdp', ← hci, hr, hc] at hok
  have hdl : dp' < D.length := by rw [hS.dl, hdp']; exact didx_lt hy hx
  unfold encRefStep Enc.get at he
  rw [Option.bind_eq_some_iff] at he
  obtain ⟨z, hz, he⟩ := he
  dsimp only at he
  obtain ⟨hz1, hz2⟩ := get_getD hz
  have hgz : G[f]? = some (G.getD f 0) := get_of_lt (by rw [hE.len]; exact hz2)
  have hnz : z &&& NPI = G.getD f 0 &&& NPI := hz1 ▸ hM.npi hE f
  have hsg : sgW (G.getD f 0) ci = sgW z ci := by
    rw [← hz1]; exact (sgW_congr (hM.npi hE f) (by interval_cases ci <;> decide)).symm
  have hpg : piW (G.getD f 0) ci = piW z ci := by
    rw [← hz1]; exact (piW_congr (hE.eq f) hpi).symm
  have hcond : (G.getD f 0 &&& (SIGMA_PI <<< (3 * ci)) = SIGMA_THIS <<< (3 * ci)) ↔ (z &&& (SIGMA_PI <<< (3 * ci)) = SIGMA_THIS <<< (3 * ci)) := by
    rw [(sigpi_split _ hi).2, (sigpi_split _ hi).2, hsg, hpg]
  unfold decRefStep Dec.get
  simp only [hgz, Option.bind_some]
  split at he
  · rename_i hyes
    rw [if_pos (hcond.mpr hyes)]
    have hsp := (sigpi_split z hi).2.mp hyes
    rw [Option.bind_eq_some_iff] at he
    obtain ⟨v, hvv, he⟩ := he
    have hvd := getElem_getD hvv
    rw [Option.map_eq_some_iff] at he
    obtain ⟨F1, he1, he⟩ := he
    injection he with e1 e2
    subst e1 e2
    simp only [Plays] at hp
    obtain ⟨u, hq, hp⟩ := hp
    subst hp
    have hsgF : sgW (F.getD f 0) ci = true := by rw [hz1]; exact hsp.1
    have hpiF : piW (F.getD f 0) ci = false := by rw [hz1]; exact hsp.2
    rw [hsgF, hpiF, hvd] at hok
    have hok0 : D.getD dp' 0 = lev v (b + 1) ∧ 0 < mag v / 2 ^ (b + 1) := by
      simp only [Ok, if_true, Bool.or_false, Bool.false_eq_true, if_false] at hok
      exact hok.1
    have hpos : 0 < mag v / 2 ^ b := by have := mag_step v b; omega
    replace hok0 := hok0.1
    obtain ⟨G1, hg1, hE1⟩ := orAt_eqv hE he1
    have hbit : (if raw then C.raw s else C.mq s (ctxMag (G.getD f 0 >>> (3 * ci)))) = some (bitOf (2 ^ (b + 6)) v, u) := by
      rw [ctxMag_congr hi hnz.symm]; exact hq
    have hDd : D[dp']? = some (lev v (b + 1)) := by
      rw [List.getElem?_eq_getElem hdl]
      rw [List.getD_eq_getElem?_getD, List.getElem?_eq_getElem hdl] at hok0
      exact congrArg some hok0
    have hlv : lev v (b + 1) + (if bitOf (2 ^ (b + 6)) v ^^^ (if lev v (b + 1) < 0 then 1 else 0) ≠ 0 then ((2 ^ (b + 1) >>> 1 : Nat) : Int)
        else -((2 ^ (b + 1) >>> 1 : Nat) : Int)) = lev v b := by
      rw [lev_refine v b, bitOf_eq, half_eq]
      simp only [lev_neg]
      have h2 : mag v / 2 ^ b % 2 < 2 := Nat.mod_lt _ (by omega)
      generalize mag v / 2 ^ b % 2 = t at *
      by_cases hsn : signOf v = 0
      · interval_cases t <;> simp [hsn]
      · interval_cases t <;> simp [hsn]
    have hbd := lev_bound (v := v) (b := b) (by omega)
    refine ⟨G1, D.set dp' (lev v b), ?_, ?_⟩
    · simp only [Dec.bit, Option.bind_some, hbit, Dec.seq, Dec.add, hDd, hlv]
      rw [if_pos (by omega)]
      simp only [Option.bind_some, Dec.upd, hg1, Option.map_some]
    · obtain ⟨hlF, hF1⟩ := orAt_iff.mp he1
      refine hS.upd (y := y) hx hE1 ?_ List.length_set (fun i hi => set_getD_ne (by rw [hdp']; exact hi))
        (fun y' h1 x' h2 h3 => ⟨hrr y' h1 x' h2 h3, rfl⟩) ?_
      · intro j k hk hne
        rw [hF1, getD_set]
        split
        · rename_i hj
          obtain ⟨rfl, _⟩ := hj
          exact mu_or _ hi hk
        · exact ⟨rfl, rfl⟩
      · rw [← hf, ← hdp', ← hdp, ← hci, hr', hc, hvd, set_getD_eq hdl, hF1, getD_set, if_pos (show f = f ∧ f < F.length from ⟨rfl, hlF⟩), (mu_or _ hi hi).1,
          (mu_or _ hi hi).2, hsgF, hpiF]
        simp only [Ok, Bool.or_true, Bool.true_or, if_true, Bool.false_eq_true, false_imp_iff, and_true, true_and]
        exact hpos
  · rename_i hno
    rw [if_neg (fun hh => hno (hcond.mp hh))]
    injection he with he
    injection he with e1 e2
    subst e1 e2
    simp only [Plays] at hp
    subst hp
    refine ⟨G, D, rfl, hS.upd (y := y) hx hE (fun _ _ _ _ => ⟨rfl, rfl⟩) rfl (fun _ _ => rfl) (fun y' h1 x' h2 h3 => ⟨hrr y' h1 x' h2 h3, rfl⟩) ?_⟩
    rw [← hf, ← hdp', ← hdp, ← hci, hr', hc]
    rw [(sigpi_split _ hi).2] at hno
    rw [hz1] at hok ⊢
    revert hok hno
    cases sgW z ci <;> cases piW z ci <;> simp [Ok]

end
end Jp2.T1

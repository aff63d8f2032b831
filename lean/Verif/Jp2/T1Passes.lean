import Verif.Jp2.T1Sim
/-!
# Whole passes
-/
namespace Jp2.T1
variable {σ : Type}

/-! ## Loops -/

theorem rows_sim {C : Coder σ} {raw : Bool} {w : Nat} {sE : Nat → Nat → Enc} {sD : Nat → Nat → Dec σ} (P : Nat → Rel3) : ∀ (n ci dp dp' : Nat),
    (∀ k < n, Sim C raw (P (ci + k)) (P (ci + k + 1)) (sE (dp + k) (ci + k)) (sD (dp' + k * w) (ci + k))) →
    Sim C raw (P ci) (P (ci + n)) (rowsE sE n ci dp) (rowsD w sD n ci dp') := by
  intro n
  induction n with
  | zero => intro ci dp dp' _; exact Sim.skip (fun _ _ _ h => h)
  | succ n ih =>
    intro ci dp dp' h
    have h0 := h 0 (by omega)
    rw [Nat.add_zero, Nat.add_zero, Nat.zero_mul, Nat.add_zero] at h0
    have h1 := ih (ci + 1) (dp + 1) (dp' + w) (fun k hk => by
      have := h (k + 1) (by omega)
      rw [show ci + 1 + k = ci + (k + 1) by omega, show dp + 1 + k = dp + (k + 1) by omega, show dp' + w + k * w = dp' + (k + 1) * w by ring]
      exact this)
    rw [show ci + 1 + n = ci + (n + 1) by omega] at h1
    exact h0.seq h1

theorem cols_sim {C : Coder σ} {raw : Bool} {d : Nat} {cE : Nat → Nat → Enc} {cD : Nat → Nat → Dec σ} (P : Nat → Rel3) : ∀ (n i f dp dp' : Nat),
    (∀ k < n, Sim C raw (P (i + k)) (P (i + k + 1)) (cE (f + k) (dp + d * k)) (cD (f + k) (dp' + k))) →
    Sim C raw (P i) (P (i + n)) (colsE cE d n f dp) (colsD cD n f dp') := by
  intro n
  induction n with
  | zero => intro i f dp dp' _; exact Sim.skip (fun _ _ _ h => h)
  | succ n ih =>
    intro i f dp dp' h
    have h0 := h 0 (by omega)
    rw [Nat.add_zero, Nat.add_zero, Nat.mul_zero, Nat.add_zero, Nat.add_zero] at h0
    have h1 := ih (i + 1) (f + 1) (dp + d) (dp' + 1) (fun k hk => by
      have := h (k + 1) (by omega)
      rw [show i + 1 + k = i + (k + 1) by omega, show f + 1 + k = f + (k + 1) by omega, show dp + d + d * k = dp + d * (k + 1) by ring,
        show dp' + 1 + k = dp' + (k + 1) by omega]
      exact this)
    rw [show i + 1 + n = i + (n + 1) by omega] at h1
    exact h0.seq h1

theorem stripes_sim {C : Coder σ} {raw : Bool} {w : Nat} {cE : Nat → Nat → Enc} {cD : Nat → Nat → Dec σ} (P : Nat → Nat → Rel3)
    (hw : ∀ k F G D, P k w F G D → P (k + 1) 0 F G D) : ∀ (n k f dp dp' : Nat),
    (∀ j < n, ∀ i < w, Sim C raw (P (k + j) i) (P (k + j) (i + 1)) (cE (f + j * (w + 2) + i) (dp + j * (4 * w) + 4 * i))
      (cD (f + j * (w + 2) + i) (dp' + j * (4 * w) + i))) →
    Sim C raw (P k 0) (P (k + n) 0) (stripesE cE w n f dp) (stripesD cD w n f dp') := by
  intro n
  induction n with
  | zero => intro k f dp dp' _; exact Sim.skip (fun _ _ _ h => h)
  | succ n ih =>
    intro k f dp dp' h
    have h0 : Sim C raw (P k 0) (P k (0 + w)) (colsE cE 4 w f dp) (colsD cD w f dp') := by
      apply cols_sim
      intro i hi
      have := h 0 (by omega) i hi
      rw [Nat.zero_mul, Nat.zero_mul, Nat.add_zero, Nat.add_zero, Nat.add_zero, Nat.add_zero] at this
      rw [Nat.zero_add]
      exact this
    rw [Nat.zero_add] at h0
    have h1 := ih (k + 1) (f + w + 2) (dp + 4 * w) (dp' + w + 3 * w) (fun j hj i hi => by
      have := h (j + 1) (by omega) i hi
      rw [show k + 1 + j = k + (j + 1) by omega, show f + w + 2 + j * (w + 2) + i = f + (j + 1) * (w + 2) + i by ring,
        show dp + 4 * w + j * (4 * w) + 4 * i = dp + (j + 1) * (4 * w) + 4 * i by ring,
        show dp' + w + 3 * w + j * (4 * w) + i = dp' + (j + 1) * (4 * w) + i by ring]
      exact this)
    rw [show k + 1 + n = k + (n + 1) by omega] at h1
    exact (h0.mono (fun _ _ _ h => h) (fun _ _ _ h => hw k _ _ _ h)).seq h1

theorem pass_sim {C : Coder σ} {raw : Bool} {w h : Nat} {fE pE : Nat → Nat → Enc} {fD pD : Nat → Nat → Dec σ} (P : Nat → Nat → Rel3)
    (hw : ∀ k F G D, P k w F G D → P (k + 1) 0 F G D)
    (hfull : ∀ k < h / 4, ∀ i < w, Sim C raw (P k i) (P k (i + 1)) (fE (w + 3 + k * (w + 2) + i) (k * (4 * w) + 4 * i))
      (fD (w + 3 + k * (w + 2) + i) (k * (4 * w) + i)))
    (hpart : h % 4 ≠ 0 → ∀ i < w, Sim C raw (P (h / 4) i) (P (h / 4) (i + 1)) (pE (w + 3 + h / 4 * (w + 2) + i) (h / 4 * (4 * w) + h % 4 * i))
      (pD (w + 3 + h / 4 * (w + 2) + i) (h / 4 * (4 * w) + i))) :
    Sim C raw (P 0 0) (if h % 4 = 0 then P (h / 4) 0 else P (h / 4) w) (passE w h fE pE) (passD w h fD pD) := by
  have h0 : Sim C raw (P 0 0) (P (0 + h / 4) 0) (stripesE fE w (h / 4) (w + 3) 0) (stripesD fD w (h / 4) (w + 3) 0) := by
    apply stripes_sim P hw
    intro j hj i hi
    have := hfull j hj i hi
    rw [Nat.zero_add, Nat.zero_add]
    exact this
  rw [Nat.zero_add] at h0
  unfold passE passD
  by_cases h4 : h % 4 = 0
  · rw [if_pos h4, if_pos h4, if_pos h4]
    exact h0.seq (Sim.skip (fun _ _ _ h => h))
  · rw [if_neg h4, if_neg h4, if_neg h4]
    refine h0.seq ?_
    have h1 : Sim C raw (P (h / 4) 0) (P (h / 4) (0 + w)) (colsE pE (h % 4) w (w + 3 + h / 4 * (w + 2)) (h / 4 * (4 * w)))
        (colsD pD w (w + 3 + h / 4 * (w + 2)) (h / 4 * (w + 3 * w))) := by
      apply cols_sim
      intro i hi
      rw [Nat.zero_add, show h / 4 * (w + 3 * w) = h / 4 * (4 * w) by ring]
      exact hpart h4 i hi
    rw [Nat.zero_add] at h1
    exact h1

/-- Replace both sides by parts that behave the same. -/
theorem Sim.of {C : Coder σ} {raw : Bool} {P Q : Rel3} {e e' : Enc} {d d' : Dec σ} (hs : Sim C raw P Q e' d')
    (h : ∀ F G D r c, P F G D → e F = some r → e' F = some r ∧ d ⟨c, G, D⟩ = d' ⟨c, G, D⟩) : Sim C raw P Q e d := by
  intro F G D tr F' c c' hP he hp
  obtain ⟨h1, h2⟩ := h F G D _ c hP he
  rw [h2]
  exact hs F G D tr F' c c' hP h1 hp

/-- Case distinction on the state. -/
theorem Sim.cases {C : Coder σ} {raw : Bool} {P Q : Rel3} {e : Enc} {d : Dec σ} (A : Rel3)
    (h1 : Sim C raw (fun F G D => P F G D ∧ A F G D) Q e d) (h2 : Sim C raw (fun F G D => P F G D ∧ ¬ A F G D) Q e d) : Sim C raw P Q e d := by
  intro F G D tr F' c c' hP he hp
  by_cases hA : A F G D
  · exact h1 F G D tr F' c c' ⟨hP, hA⟩ he hp
  · exact h2 F G D tr F' c c' ⟨hP, hA⟩ he hp

/-! ## Geometry and masks -/

/-- `PI` bits of the missing rows of an incomplete stripe. -/
def missing (n : Nat) : Word := if n = 1 then 0x49000000#32 else if n = 2 then 0x48000000#32 else 0x40000000#32

/-- The bits on which encoder and decoder agree between passes: all, but for the missing rows. -/
def maskOf (w h : Nat) (j : Nat) : Word := if h % 4 ≠ 0 ∧ j / (w + 2) = h / 4 + 1 then ~~~(missing (h % 4)) else ~~~0#32

theorem missing_npi (n : Nat) : NPI &&& ~~~(missing n) = NPI := by
  unfold missing; split <;> [skip; split] <;> decide

theorem mask_wide (w h : Nat) : Wide (maskOf w h) := by
  intro j
  unfold maskOf
  split
  · exact missing_npi _
  · decide

theorem cell_div {w k i : Nat} (hi : i < w) : (w + 3 + k * (w + 2) + i) / (w + 2) = k + 1 := by
  rw [show w + 3 + k * (w + 2) + i = (i + 1) + (k + 1) * (w + 2) by ring, Nat.add_mul_div_right _ _ (by omega), Nat.div_eq_of_lt (by omega), Nat.zero_add]

theorem mask_full {w h k i : Nat} (hi : i < w) (hk : k < h / 4) : maskOf w h (w + 3 + k * (w + 2) + i) = ~~~0#32 := by
  unfold maskOf
  rw [cell_div hi, if_neg (by omega)]

theorem mask_part {w h i : Nat} (hi : i < w) (h4 : h % 4 ≠ 0) : maskOf w h (w + 3 + h / 4 * (w + 2) + i) = ~~~(missing (h % 4)) := by
  unfold maskOf
  rw [cell_div hi, if_pos ⟨h4, rfl⟩]

theorem ones_pi : ∀ c < 4, piW (~~~0#32) c = true := by decide
theorem part_pi : ∀ n < 4, n ≠ 0 → ∀ c < n, piW (~~~(missing n)) c = true := by decide

theorem cell_eq (w k i : Nat) {j : Nat} (hj : j < 4) : w + 3 + k * (w + 2) + i = cell w (4 * k + j) i := by
  unfold cell
  rw [show (4 * k + j) / 4 = k by omega]

theorem eidx_full {w h k : Nat} (i : Nat) {j : Nat} (hk : k < h / 4) (hj : j < 4) : k * (4 * w) + 4 * i + j = eidx w h (4 * k + j) i := by
  unfold eidx
  rw [show (4 * k + j) / 4 = k by omega, if_pos hk, show (4 * k + j) % 4 = j by omega]

theorem eidx_part {w h : Nat} (i : Nat) {j : Nat} (hj : j < 4) : h / 4 * (4 * w) + h % 4 * i + j = eidx w h (4 * (h / 4) + j) i := by
  unfold eidx
  rw [show (4 * (h / 4) + j) / 4 = h / 4 by omega, if_neg (by omega), show (4 * (h / 4) + j) % 4 = j by omega]

theorem didx_eq (w k i j : Nat) : k * (4 * w) + i + j * w = (4 * k + j) * w + i := by ring

/-- Has the pass got past a coefficient, being at stripe `k`, column `i`, row `j`? -/
def prog (k i j : Nat) (y x : Nat) : Bool := decide (y / 4 < k ∨ (y / 4 = k ∧ (x < i ∨ (x = i ∧ y % 4 < j))))

theorem prog_row (k i j y x : Nat) (h : ¬ (y = 4 * k + j ∧ x = i)) (_hj : j < 4) : prog k i (j + 1) y x = prog k i j y x := by
  unfold prog
  apply decide_eq_decide.mpr
  omega

theorem prog_at (k i j : Nat) (hj : j < 4) : prog k i j (4 * k + j) i = false ∧ prog k i (j + 1) (4 * k + j) i = true := by
  unfold prog
  constructor
  · apply decide_eq_false; omega
  · apply decide_eq_true; omega

theorem St.congr {w h b : Nat} {data : List Nat} {M : Nat → Word} {r r' c c' : Nat → Nat → Bool} {F G : List Word} {D : List Int}
    (hs : St w h data M b r c F G D) (hr : ∀ y < h, ∀ x < w, r y x = r' y x) (hc : ∀ y < h, ∀ x < w, c y x = c' y x) :
    St w h data M b r' c' F G D :=
  ⟨hs.eqv, hs.dl, fun y hy x hx => by rw [← hr y hy x hx, ← hc y hy x hx]; exact hs.ok y hy x hx⟩

/-! ## Shortcuts -/

theorem rowsE_idle {sE : Nat → Nat → Enc} {F : List Word} : ∀ (n ci dp : Nat), (∀ k < n, ∀ p, sE p (ci + k) F = some ([], F)) →
    rowsE sE n ci dp F = some ([], F) := by
  intro n
  induction n with
  | zero => intro ci dp _; rfl
  | succ n ih =>
    intro ci dp h
    have h0 := h 0 (by omega) dp
    have h1 := ih (ci + 1) (dp + 1) (fun k hk p => by
      have := h (k + 1) (by omega) p
      rw [show ci + 1 + k = ci + (k + 1) by omega]; exact this)
    unfold rowsE Enc.seq
    rw [Nat.add_zero] at h0
    rw [h0, Option.bind_some]
    simp only [h1, Option.map_some, List.nil_append]

theorem rowsD_idle {w : Nat} {sD : Nat → Nat → Dec σ} {s : DS σ} : ∀ (n ci dp : Nat), (∀ k < n, ∀ p, sD p (ci + k) s = some s) →
    rowsD w sD n ci dp s = some s := by
  intro n
  induction n with
  | zero => intro ci dp _; rfl
  | succ n ih =>
    intro ci dp h
    have h0 := h 0 (by omega) dp
    have h1 := ih (ci + 1) (dp + w) (fun k hk p => by
      have := h (k + 1) (by omega) p
      rw [show ci + 1 + k = ci + (k + 1) by omega]; exact this)
    unfold rowsD Dec.seq
    rw [Nat.add_zero] at h0
    rw [h0, Option.bind_some, h1]

theorem encSigStep_idle {o w one f dp ci : Nat} {raw vsc : Bool} {data : List Nat} {F : List Word} {x : Word} (hx : F[f]? = some x) (h : x = 0) :
    encSigStep o w raw one data f dp ci vsc F = some ([], F) := by
  unfold encSigStep Enc.get
  rw [hx, Option.bind_some]
  dsimp only
  rw [if_neg (by rw [h]; simp)]

theorem decSigStep_idle {C : Coder σ} {o w f dp ci : Nat} {raw vsc : Bool} {oph : Int} {s : DS σ} {x : Word} (hx : s.g[f]? = some x) (h : x = 0) :
    decSigStep C o w raw oph f dp ci vsc s = some s := by
  unfold decSigStep Dec.get
  rw [hx, Option.bind_some]
  dsimp only
  rw [if_neg (by rw [h]; simp)]
  rfl

theorem encRefStep_idle {one f dp ci : Nat} {data : List Nat} {F : List Word} {x : Word} (hx : F[f]? = some x) (hi : ci < 4)
    (h : sgW x ci = false ∨ piW x ci = true) : encRefStep one data f dp ci F = some ([], F) := by
  unfold encRefStep Enc.get
  rw [hx, Option.bind_some]
  dsimp only
  rw [if_neg]
  rw [(sigpi_split x hi).2]
  rintro ⟨h1, h2⟩
  rcases h with h | h
  · rw [h1] at h; simp at h
  · rw [h2] at h; simp at h

theorem decRefStep_idle {C : Coder σ} {f dp ci : Nat} {raw : Bool} {ph : Int} {s : DS σ} {x : Word} (hx : s.g[f]? = some x) (h : x = 0) (hi : ci < 4) :
    decRefStep C raw ph f dp ci s = some s := by
  unfold decRefStep Dec.get
  rw [hx, Option.bind_some]
  dsimp only
  rw [if_neg]
  · rfl
  · rw [(sigpi_split x hi).2, h, (zero_bits (c := ci)).1]
    simp

theorem eqv_ones {M : Nat → Word} {F G : List Word} {f : Nat} (h : Eqv M F G) (hM : M f = ~~~0#32) : G.getD f 0 = F.getD f 0 := by
  have := h.eq f
  have ho : ∀ z : Word, z &&& ~~~0#32 = z := fun z => by rw [show ~~~0#32 = BitVec.allOnes 32 by decide, BitVec.and_allOnes]
  rw [hM, ho, ho] at this
  exact this.symm

theorem sigma_all {x : Word} (h : x &&& SIGMA_ALL = 0) {c : Nat} (hc : c < 4) : sgW x c = false := by
  have h1 : x &&& SIGMA_ALL = 0 &&& SIGMA_ALL := by rw [h]; decide
  rw [sgW_congr h1 (by interval_cases c <;> decide)]
  exact zero_bits.1

theorem pi_all {x : Word} (h : x &&& PI_ALL = PI_ALL) {c : Nat} (hc : c < 4) : piW x c = true := by
  have h1 : x &&& PI_ALL = PI_ALL &&& PI_ALL := by rw [h]; decide
  rw [piW_congr h1 (by interval_cases c <;> decide)]
  interval_cases c <;> decide

/-- In which rows the vertically causal flag matters. -/
theorem updateFlags_vsc (stride f ci s : Nat) (vsc : Bool) (F : List Word) :
    updateFlags stride f ci s (vsc && ci == 0) F = updateFlags stride f ci s vsc F := by
  by_cases h : ci = 0
  · subst h; simp
  · unfold updateFlags
    simp [h]

theorem decSign_vsc (C : Coder σ) (w : Nat) (raw : Bool) (oph : Int) (f dp ci : Nat) (vsc : Bool) (x : Word) :
    decSign C w raw oph f dp ci (vsc && ci == 0) x = decSign C w raw oph f dp ci vsc x := by
  funext s
  unfold decSign
  have : ∀ v, updateFlags (w + 2) f ci v (vsc && ci == 0) = updateFlags (w + 2) f ci v vsc := fun v => funext (updateFlags_vsc _ _ _ _ _)
  simp only [this]

theorem decSigStep_vsc (C : Coder σ) (o w : Nat) (raw : Bool) (oph : Int) (f dp ci : Nat) (vsc : Bool) :
    decSigStep C o w raw oph f dp ci (vsc && ci == 0) = decSigStep C o w raw oph f dp ci vsc := by
  unfold decSigStep
  simp only [decSign_vsc]

theorem decClnStep_vsc (C : Coder σ) (o w : Nat) (check part : Bool) (oph : Int) (f dp ci : Nat) (vsc : Bool) :
    decClnStep C o w check part oph f dp ci (vsc && ci == 0) = decClnStep C o w check part oph f dp ci vsc := by
  unfold decClnStep
  simp only [decSign_vsc]

/-! ## The significance and refinement passes -/

section
variable {C : Coder σ} {w h b : Nat} {data : List Nat}

theorem sigPass_sim {raw : Bool} (hv : ∀ i, data.getD i 0 < 2 ^ 32) {o : Nat} {vsc : Bool} :
    Sim C raw (St w h data (maskOf w h) b (fun _ _ => false) (fun _ _ => false)) (St w h data (maskOf w h) b (fun _ _ => false) (fun _ _ => false))
      (encSigPass o w h raw (2 ^ (b + 6)) vsc data) (decSigPass C o w h raw (((2 ^ (b + 1) ||| 2 ^ (b + 1) >>> 1 : Nat) : Int)) vsc) := by
  obtain ⟨P, hP⟩ : ∃ P, P = St w h data (maskOf w h) b (fun _ _ => false) (fun _ _ => false) := ⟨_, rfl⟩
  rw [← hP]
  have key := pass_sim (C := C) (raw := raw) (w := w) (h := h) (fE := fun f dp => Enc.get f fun x => if x = 0 then Enc.skip else
      rowsE (fun dp ci => encSigStep o w raw (2 ^ (b + 6)) data f dp ci (vsc && ci == 0)) 4 0 dp)
    (pE := fun f dp => Enc.get f fun x => if x = 0 then Enc.skip else
      rowsE (fun dp ci => encSigStep o w raw (2 ^ (b + 6)) data f dp ci (vsc && ci == 0)) (h % 4) 0 dp)
    (fD := fun f dp => Dec.get f fun x => if x ≠ 0 then
      rowsD w (fun dp ci => decSigStep C o w raw (((2 ^ (b + 1) ||| 2 ^ (b + 1) >>> 1 : Nat) : Int)) f dp ci (vsc && ci == 0)) 4 0 dp else Dec.skip)
    (pD := fun f dp => rowsD w (fun dp ci => decSigStep C o w raw (((2 ^ (b + 1) ||| 2 ^ (b + 1) >>> 1 : Nat) : Int)) f dp ci vsc) (h % 4) 0 dp)
    (fun _ _ => P) (fun _ _ _ _ h => h) ?_ ?_
  · have : (if h % 4 = 0 then P else P) = P := by split <;> rfl
    rw [this] at key
    exact key
  · intro k hk i hi
    obtain ⟨f, hf⟩ : ∃ f, f = w + 3 + k * (w + 2) + i := ⟨_, rfl⟩
    rw [← hf]
    have hones : maskOf w h f = ~~~0#32 := by rw [hf]; exact mask_full hi hk
    refine Sim.of (e' := rowsE (fun dp ci => encSigStep o w raw (2 ^ (b + 6)) data f dp ci (vsc && ci == 0)) 4 0 (k * (4 * w) + 4 * i))
      (d' := rowsD w (fun dp ci => decSigStep C o w raw (((2 ^ (b + 1) ||| 2 ^ (b + 1) >>> 1 : Nat) : Int)) f dp ci (vsc && ci == 0)) 4 0 (k * (4 * w) + i)) ?_ ?_
    · apply rows_sim (fun _ => P)
      intro j hj
      rw [hP, Nat.zero_add]
      exact sigStep_sim (y := 4 * k + j) (mask_wide w h) hv (by omega) hi (by rw [hf]; exact cell_eq w k i hj) (eidx_full i hk hj) (didx_eq w k i j) (by omega)
        (by rw [hones]; exact ones_pi j hj) rfl rfl
    · intro F G D r c hPP he
      unfold Enc.get at he
      rw [Option.bind_eq_some_iff] at he
      obtain ⟨x, hx, he⟩ := he
      obtain ⟨hx1, hx2⟩ := get_getD hx
      rw [hP] at hPP
      have hgx : G[f]? = some x := by rw [get_of_lt (by rw [hPP.eqv.len]; exact hx2), eqv_ones hPP.eqv hones, hx1]
      dsimp only at he
      unfold Dec.get
      simp only [hgx, Option.bind_some]
      split at he
      · rename_i h0
        rw [if_neg (by simp [h0])]
        refine ⟨?_, ?_⟩
        · rw [rowsE_idle]
          · exact he
          · intro k _ p; exact encSigStep_idle hx h0
        · rw [rowsD_idle]
          · rfl
          · intro k _ p; exact decSigStep_idle hgx h0
      · rename_i h0
        rw [if_pos h0]
        exact ⟨he, rfl⟩
  · intro h4 i hi
    obtain ⟨f, hf⟩ : ∃ f, f = w + 3 + h / 4 * (w + 2) + i := ⟨_, rfl⟩
    rw [← hf]
    have hmask : maskOf w h f = ~~~(missing (h % 4)) := by rw [hf]; exact mask_part hi h4
    refine Sim.of (e' := rowsE (fun dp ci => encSigStep o w raw (2 ^ (b + 6)) data f dp ci (vsc && ci == 0)) (h % 4) 0 (h / 4 * (4 * w) + h % 4 * i))
      (d' := rowsD w (fun dp ci => decSigStep C o w raw (((2 ^ (b + 1) ||| 2 ^ (b + 1) >>> 1 : Nat) : Int)) f dp ci (vsc && ci == 0)) (h % 4) 0 (h / 4 * (4 * w) + i)) ?_ ?_
    · apply rows_sim (fun _ => P)
      intro j hj
      rw [hP, Nat.zero_add]
      exact sigStep_sim (y := 4 * (h / 4) + j) (mask_wide w h) hv (by omega) hi (by rw [hf]; exact cell_eq w _ i (by omega)) (eidx_part i (by omega))
        (didx_eq w _ i j) (by omega) (by rw [hmask]; exact part_pi _ (by omega) h4 j hj) rfl rfl
    · intro F G D r c hPP he
      unfold Enc.get at he
      rw [Option.bind_eq_some_iff] at he
      obtain ⟨x, hx, he⟩ := he
      dsimp only at he
      simp only [decSigStep_vsc, and_true]
      split at he
      · rename_i h0
        rw [rowsE_idle]
        · exact he
        · intro k _ p; exact encSigStep_idle hx h0
      · exact he

theorem refPass_sim {raw : Bool} (hb : b < 25) :
    Sim C raw (St w h data (maskOf w h) b (fun _ _ => false) (fun _ _ => false)) (St w h data (maskOf w h) b (fun _ _ => true) (fun _ _ => false))
      (encRefPass w h (2 ^ (b + 6)) data) (decRefPass C w h raw (((2 ^ (b + 1) >>> 1 : Nat) : Int))) := by
  obtain ⟨P, hP⟩ : ∃ P : Nat → Nat → Rel3, P = fun k i => St w h data (maskOf w h) b (prog k i 0) (fun _ _ => false) := ⟨_, rfl⟩
  have key := pass_sim (C := C) (raw := raw) (w := w) (h := h) (fE := fun f dp => Enc.get f fun x =>
      if x &&& SIGMA_ALL = 0 then Enc.skip
      else if x &&& PI_ALL = PI_ALL then Enc.skip
      else rowsE (fun dp ci => encRefStep (2 ^ (b + 6)) data f dp ci) 4 0 dp)
    (pE := fun f dp => Enc.get f fun x =>
      if x &&& SIGMA_ALL = 0 then Enc.skip
      else rowsE (fun dp ci => encRefStep (2 ^ (b + 6)) data f dp ci) (h % 4) 0 dp)
    (fD := fun f dp => Dec.get f fun x => if x ≠ 0 then
      rowsD w (fun dp ci => decRefStep C raw (((2 ^ (b + 1) >>> 1 : Nat) : Int)) f dp ci) 4 0 dp else Dec.skip)
    (pD := fun f dp => rowsD w (fun dp ci => decRefStep C raw (((2 ^ (b + 1) >>> 1 : Nat) : Int)) f dp ci) (h % 4) 0 dp)
    P ?_ ?_ ?_
  · refine key.mono ?_ ?_
    · intro F G D hs
      rw [hP]
      exact hs.congr (fun y _ x _ => by unfold prog; symm; apply decide_eq_false; omega) (fun _ _ _ _ => rfl)
    · intro F G D hs
      split at hs
      · rw [hP] at hs
        exact hs.congr (fun y hy x hx => by unfold prog; apply decide_eq_true; omega) (fun _ _ _ _ => rfl)
      · rw [hP] at hs
        exact hs.congr (fun y hy x hx => by unfold prog; apply decide_eq_true; omega) (fun _ _ _ _ => rfl)
  · intro k F G D hs
    rw [hP] at hs ⊢
    exact hs.congr (fun y hy x hx => by unfold prog; apply decide_eq_decide.mpr; omega) (fun _ _ _ _ => rfl)
  · intro k hk i hi
    obtain ⟨f, hf⟩ : ∃ f, f = w + 3 + k * (w + 2) + i := ⟨_, rfl⟩
    rw [← hf]
    have hones : maskOf w h f = ~~~0#32 := by rw [hf]; exact mask_full hi hk
    refine Sim.of (e' := rowsE (fun dp ci => encRefStep (2 ^ (b + 6)) data f dp ci) 4 0 (k * (4 * w) + 4 * i))
      (d' := rowsD w (fun dp ci => decRefStep C raw (((2 ^ (b + 1) >>> 1 : Nat) : Int)) f dp ci) 4 0 (k * (4 * w) + i)) ?_ ?_
    · refine Sim.mono (rows_sim (fun j => St w h data (maskOf w h) b (prog k i j) (fun _ _ => false)) 4 0 _ _ ?_) ?_ ?_
      · intro j hj
        rw [Nat.zero_add]
        exact refStep_sim (y := 4 * k + j) (mask_wide w h) hb (by omega) hi (by rw [hf]; exact cell_eq w k i hj) (eidx_full i hk hj) (didx_eq w k i j) (by omega)
          (by rw [hones]; exact ones_pi j hj) (prog_at k i j hj).1 rfl (prog_at k i j hj).2 (fun y _ x _ hne => prog_row k i j y x hne hj)
      · intro F G D hs; rw [hP] at hs; exact hs
      · intro F G D hs
        rw [hP]
        exact hs.congr (fun y hy x hx => by unfold prog; apply decide_eq_decide.mpr; omega) (fun _ _ _ _ => rfl)
    · intro F G D r c hPP he
      unfold Enc.get at he
      rw [Option.bind_eq_some_iff] at he
      obtain ⟨x, hx, he⟩ := he
      obtain ⟨hx1, hx2⟩ := get_getD hx
      rw [hP] at hPP
      have hgx : G[f]? = some x := by rw [get_of_lt (by rw [hPP.eqv.len]; exact hx2), eqv_ones hPP.eqv hones, hx1]
      dsimp only at he
      unfold Dec.get
      simp only [hgx, Option.bind_some]
      refine ⟨?_, ?_⟩
      · split at he
        · rename_i h0
          rw [rowsE_idle]
          · exact he
          · intro k hk p; exact encRefStep_idle hx (by omega) (Or.inl (sigma_all h0 (by omega)))
        · split at he
          · rename_i h0
            rw [rowsE_idle]
            · exact he
            · intro k hk p; exact encRefStep_idle hx (by omega) (Or.inr (pi_all h0 (by omega)))
          · exact he
      · split
        · rfl
        · rename_i h0
          rw [rowsD_idle]
          · rfl
          · intro k hk p; exact decRefStep_idle hgx (by simpa using h0) (by omega)
  · intro h4 i hi
    obtain ⟨f, hf⟩ : ∃ f, f = w + 3 + h / 4 * (w + 2) + i := ⟨_, rfl⟩
    rw [← hf]
    have hmask : maskOf w h f = ~~~(missing (h % 4)) := by rw [hf]; exact mask_part hi h4
    refine Sim.of (e' := rowsE (fun dp ci => encRefStep (2 ^ (b + 6)) data f dp ci) (h % 4) 0 (h / 4 * (4 * w) + h % 4 * i))
      (d' := rowsD w (fun dp ci => decRefStep C raw (((2 ^ (b + 1) >>> 1 : Nat) : Int)) f dp ci) (h % 4) 0 (h / 4 * (4 * w) + i)) ?_ ?_
    · refine Sim.mono (rows_sim (fun j => St w h data (maskOf w h) b (prog (h / 4) i j) (fun _ _ => false)) (h % 4) 0 _ _ ?_) ?_ ?_
      · intro j hj
        rw [Nat.zero_add]
        exact refStep_sim (y := 4 * (h / 4) + j) (mask_wide w h) hb (by omega) hi (by rw [hf]; exact cell_eq w _ i (by omega)) (eidx_part i (by omega))
          (didx_eq w _ i j) (by omega) (by rw [hmask]; exact part_pi _ (by omega) h4 j hj) (prog_at _ i j (by omega)).1 rfl (prog_at _ i j (by omega)).2
          (fun y _ x _ hne => prog_row _ i j y x hne (by omega))
      · intro F G D hs; rw [hP] at hs; exact hs
      · intro F G D hs
        rw [hP]
        exact hs.congr (fun y hy x hx => by unfold prog; apply decide_eq_decide.mpr; omega) (fun _ _ _ _ => rfl)
    · intro F G D r c hPP he
      unfold Enc.get at he
      rw [Option.bind_eq_some_iff] at he
      obtain ⟨x, hx, he⟩ := he
      dsimp only at he
      refine ⟨?_, rfl⟩
      split at he
      · rename_i h0
        rw [rowsE_idle]
        · exact he
        · intro k hk p; exact encRefStep_idle hx (by omega) (Or.inl (sigma_all h0 (by omega)))
      · exact he

end
end Jp2.T1

import Verif.Jp2.T1Passes
/-!
# The cleanup pass
-/
namespace Jp2.T1
variable {σ : Type}

/-- `PI` bits of the rows before `j`. -/
def below (j : Nat) : Word :=
  if j = 0 then 0 else if j = 1 then 0x200000#32 else if j = 2 then 0x1200000#32 else if j = 3 then 0x9200000#32 else PI_ALL

/-- Inside a column the encoder has already cleared the `PI` bits of the rows done; the decoder clears them at the end. -/
def Mc (M : Nat → Word) (f j : Nat) : Nat → Word := fun i => if i = f then M f &&& ~~~(below j) else M i

theorem below_npi (j : Nat) : NPI &&& ~~~(below j) = NPI := by
  unfold below
  split <;> [decide; split <;> [decide; split <;> [decide; split <;> decide]]]

theorem mc_wide {M : Nat → Word} (h : Wide M) (f j : Nat) : Wide (Mc M f j) := by
  intro i
  unfold Mc
  split
  · rw [← BitVec.and_assoc, h f, below_npi]
  · exact h i

theorem mc_pi {M : Nat → Word} {f j : Nat} (hj : j < 4) (h : piW (M f) j = true) : piW (Mc M f j f) j = true := by
  unfold Mc
  rw [if_pos rfl]
  unfold piW at *
  rw [BitVec.getLsbD_and, h, Bool.true_and]
  interval_cases j <;> decide

theorem mc_zero (M : Nat → Word) (f : Nat) : Mc M f 0 = M := by
  funext i
  unfold Mc
  split
  · rename_i h
    rw [show ~~~(below 0) = BitVec.allOnes 32 by decide, BitVec.and_allOnes, h]
  · rfl

/-- After row `j` has been done: the encoder clears its bit, the mask forgets it. -/
theorem eqv_clear {M : Nat → Word} {f j : Nat} {F G F' : List Word} (hj : j < 4) (h : Eqv (Mc M f j) F G)
    (hc : clrAt F f (PI_THIS <<< (3 * j)) = some F') : Eqv (Mc M f (j + 1)) F' G := by
  obtain ⟨h1, h2⟩ := clrAt_iff.mp hc
  subst h2
  refine ⟨by rw [List.length_set]; exact h.len, fun i => ?_⟩
  have hi := h.eq i
  rw [getD_set]
  unfold Mc at hi ⊢
  by_cases hif : i = f
  · subst hif
    rw [if_pos rfl] at hi
    rw [if_pos ⟨rfl, h1⟩, if_pos rfl, BitVec.and_assoc]
    have e1 : ~~~(PI_THIS <<< (3 * j)) &&& (M i &&& ~~~(below (j + 1))) = M i &&& ~~~(below (j + 1)) := by
      rw [BitVec.and_comm, BitVec.and_assoc]
      congr 1
      interval_cases j <;> decide
    rw [e1]
    apply sub_mask hi
    have e2 : ~~~(below (j + 1)) &&& ~~~(below j) = ~~~(below (j + 1)) := by interval_cases j <;> decide
    rw [BitVec.and_assoc, BitVec.and_comm (~~~(below (j + 1))), BitVec.and_assoc (M i), BitVec.and_comm (~~~(below j)), e2, ← BitVec.and_assoc,
      BitVec.and_self]
  · rw [if_neg hif] at hi
    rw [if_neg (fun hh => hif hh.1.symm), if_neg hif]
    exact hi

section
variable {C : Coder σ} {w h b : Nat} {data : List Nat} {M : Nat → Word}

/-- The state inside a column: with `agg` all rows from `j` on are untouched. -/
def Col (w h b : Nat) (data : List Nat) (M : Nat → Word) (c : Nat → Nat → Bool) (f j : Nat) (agg : Bool) : Rel3 := fun F G D =>
  St w h data (Mc M f j) b (fun _ _ => true) c F G D ∧ f < F.length ∧
  (agg = true → ∀ k < 4, j ≤ k → sgW (F.getD f 0) k = false ∧ piW (F.getD f 0) k = false)

theorem clnStep_sim (hM : Wide M) (hv : ∀ i, data.getD i 0 < 2 ^ 32) {o y x f dp dp' ci : Nat} {vsc agg part : Bool} {c c' : Nat → Nat → Bool}
    (hy : y < h) (hx : x < w) (hf : f = cell w y x) (hdp : dp = eidx w h y x) (hdp' : dp' = y * w + x) (hci : ci = y % 4)
    (hpi : piW (M f) ci = true) (hc : c y x = false) (hc' : c' y x = true)
    (hcc : ∀ y' < h, ∀ x' < w, ¬ (y' = y ∧ x' = x) → c' y' x' = c y' x')
    (hpart : part = true → agg = true ∧ bitOf (2 ^ (b + 6)) (data.getD dp 0) = 1) :
    Sim C false (Col w h b data M c f ci agg) (Col w h b data M c' f (ci + 1) agg) (encClnStep o w (2 ^ (b + 6)) data f vsc part dp ci)
      (decClnStep C o w (!agg) part (((2 ^ (b + 1) ||| 2 ^ (b + 1) >>> 1 : Nat) : Int)) f dp' ci (vsc && ci == 0)) := by
  intro F G D tr F' s s' hS he hp
  obtain ⟨hS, _, hagg⟩ := hS
  have hi : ci < 4 := by omega
  have hE := hS.eqv
  have hW := mc_wide hM f ci
  have hok := hS.ok y hy x hx
  rw [← hf, ← hdp, ← hdp', ← hci, hc] at hok
  have hdl : dp' < D.length := by rw [hS.dl, hdp']; exact didx_lt hy hx
  unfold encClnStep Enc.seq at he
  rw [Option.bind_eq_some_iff] at he
  obtain ⟨⟨t1, F1⟩, he, he2⟩ := he
  rw [Option.map_eq_some_iff] at he2
  obtain ⟨⟨t2, F2⟩, he2, he3⟩ := he2
  injection he3 with e1 e2
  subst e1 e2
  unfold Enc.upd at he2
  rw [Option.map_eq_some_iff] at he2
  obtain ⟨F3, hclr, he3⟩ := he2
  injection he3 with e1 e2
  subst e1 e2
  rw [List.append_nil] at hp
  unfold Enc.get at he
  rw [Option.bind_eq_some_iff] at he
  obtain ⟨z, hz, he⟩ := he
  dsimp only at he
  obtain ⟨hz1, hz2⟩ := get_getD hz
  have hgz : G[f]? = some (G.getD f 0) := get_of_lt (by rw [hE.len]; exact hz2)
  have hnz : z &&& NPI = G.getD f 0 &&& NPI := hz1 ▸ hW.npi hE f
  have hsg : sgW (G.getD f 0) ci = sgW z ci := by
    rw [← hz1]; exact (sgW_congr (hW.npi hE f) (by interval_cases ci <;> decide)).symm
  have hpg : piW (G.getD f 0) ci = piW z ci := by
    rw [← hz1]; exact (piW_congr (hE.eq f) (mc_pi hi hpi)).symm
  have hcond : (G.getD f 0 &&& (SIGMA_PI <<< (3 * ci)) = 0) ↔ (z &&& (SIGMA_PI <<< (3 * ci)) = 0) := by
    rw [(sigpi_split _ hi).1, (sigpi_split _ hi).1, hsg, hpg]
  -- the coefficient itself
  obtain ⟨v, hvd⟩ : ∃ v, v = data.getD dp 0 := ⟨_, rfl⟩
  rw [← hvd] at hok hpart
  have core : ∃ G1 D1, decClnStep C o w (!agg) part (((2 ^ (b + 1) ||| 2 ^ (b + 1) >>> 1 : Nat) : Int)) f dp' ci (vsc && ci == 0) ⟨s, G, D⟩ = some ⟨s', G1, D1⟩ ∧
      Eqv (Mc M f ci) F1 G1 ∧ F1.length = F.length ∧ (∀ j, ∀ k < 4, ¬ (j = f ∧ k = ci) → sgW (F1.getD j 0) k = sgW (F.getD j 0) k) ∧
      (∀ j, ∀ k < 4, piW (F1.getD j 0) k = piW (F.getD j 0) k) ∧ D1.length = D.length ∧ (∀ i, i ≠ dp' → D1.getD i 0 = D.getD i 0) ∧
      Ok b true true v (D1.getD dp' 0) (sgW (F1.getD f 0) ci) false := by
    have hsv : signOf v < 2 := signOf_le (hvd ▸ hv dp)
    -- coding the sign
    have hsign : ∀ {t : List Sym} {u : σ}, encSign w false v f ci (vsc && ci == 0) z F = some (t, F1) → Plays C false u t s' →
        sgW z ci = false → piW z ci = false → bitOf (2 ^ (b + 6)) v = 1 →
        ∃ G1 D1, decSign C w false (((2 ^ (b + 1) ||| 2 ^ (b + 1) >>> 1 : Nat) : Int)) f dp' ci (vsc && ci == 0) (G.getD f 0) ⟨u, G, D⟩ = some ⟨s', G1, D1⟩ ∧
          Eqv (Mc M f ci) F1 G1 ∧ F1.length = F.length ∧ (∀ j, ∀ k < 4, ¬ (j = f ∧ k = ci) → sgW (F1.getD j 0) k = sgW (F.getD j 0) k) ∧
          (∀ j, ∀ k < 4, piW (F1.getD j 0) k = piW (F.getD j 0) k) ∧ D1.length = D.length ∧ (∀ i, i ≠ dp' → D1.getD i 0 = D.getD i 0) ∧
          Ok b true true v (D1.getD dp' 0) (sgW (F1.getD f 0) ci) false := by
      intro t u hes hpl hsf hpf hb1
      obtain ⟨G1, hd1, hE1, hu1⟩ := sign_sim hW (dp := dp') (((2 ^ (b + 1) ||| 2 ^ (b + 1) >>> 1 : Nat) : Int)) hE hi hnz hdl hes hpl
      obtain ⟨hul, hub⟩ := updateFlags_bits hsv hi hu1
      refine ⟨G1, _, hd1, hE1, hul, ?_, fun j k hk => (hub j k hk).2, List.length_set, fun i hi => set_getD_ne hi, ?_⟩
      · intro j k hk hne
        rw [(hub j k hk).1]; simp [hne]
      · rw [hz1, hsf, hpf] at hok
        have hok0 : D.getD dp' 0 = 0 ∧ mag v / 2 ^ (b + 1) = 0 := by simpa [Ok] using hok
        rw [bitOf_eq] at hb1
        rw [set_getD_eq hdl, (hub _ ci hi).1, or_half, ← lev_new hok0.2 hb1]
        have hpos : 0 < mag v / 2 ^ b := by
          rcases Nat.eq_zero_or_pos (mag v / 2 ^ b) with h0 | h0
          · rw [h0] at hb1; simp at hb1
          · exact h0
        simp only [Ok, decide_true, Bool.or_true, if_true, true_and, implies_true, and_true]
        exact hpos
    unfold decClnStep Dec.get
    simp only [hgz, Option.bind_some]
    cases hpt : part with
    | true =>
      obtain ⟨ha, hb1⟩ := hpart hpt
      rw [hpt, if_pos rfl, Option.bind_eq_some_iff] at he
      obtain ⟨v', hvv, he⟩ := he
      have hvv' := getElem_getD hvv
      rw [← hvd] at hvv'
      subst hvv'
      obtain ⟨a1, a2⟩ := hagg ha ci hi (Nat.le_refl _)
      rw [hz1] at a1 a2
      rw [if_pos (Or.inl (by simp [ha])), if_pos rfl]
      exact hsign he hp a1 a2 hb1
    | false =>
      rw [hpt, if_neg (by simp)] at he
      split at he
      · rename_i hyes
        have hsp := (sigpi_split z hi).1.mp hyes
        rw [if_pos (Or.inr (hcond.mpr hyes)), if_neg (by simp)]
        rw [Option.bind_eq_some_iff] at he
        obtain ⟨c1, hc1, he⟩ := he
        rw [Option.bind_eq_some_iff] at he
        obtain ⟨v', hvv, he⟩ := he
        have hvv' := getElem_getD hvv
        rw [← hvd] at hvv'
        subst hvv'
        unfold Enc.emit at he
        rw [Option.map_eq_some_iff] at he
        obtain ⟨⟨t3, F4⟩, he, he2⟩ := he
        injection he2 with e1 e2
        subst e1 e2
        simp only [List.cons_append, List.nil_append, Plays] at hp
        obtain ⟨u, hq, hp⟩ := hp
        have hbit : (if false = true then C.raw s else (ctxZc o (G.getD f 0 >>> (3 * ci))).bind (C.mq s)) = some (bitOf (2 ^ (b + 6)) v, u) := by
          rw [ctxZc_congr hi hnz.symm, hc1, Option.bind_some]; exact hq
        simp only [Dec.bit, hbit, Option.bind_some]
        by_cases hb1 : bitOf (2 ^ (b + 6)) v ≠ 0
        · rw [if_pos hb1] at he
          rw [if_neg hb1]
          refine hsign he hp hsp.1 hsp.2 ?_
          rw [bitOf_eq] at hb1 ⊢
          omega
        · rw [if_neg hb1] at he
          rw [if_pos (by simpa using hb1)]
          unfold Enc.skip at he
          injection he with he
          injection he with e1 e2
          subst e1 e2
          simp only [Plays] at hp
          subst hp
          refine ⟨G, D, rfl, hE, rfl, fun _ _ _ _ => rfl, fun _ _ _ => rfl, rfl, fun _ _ => rfl, ?_⟩
          rw [hz1, hsp.1, hsp.2] at hok
          have hok0 : D.getD dp' 0 = 0 ∧ mag v / 2 ^ (b + 1) = 0 := by simpa [Ok] using hok
          rw [bitOf_eq] at hb1
          have := mag_step v b
          rw [hok0.2] at this
          rw [hz1, hsp.1]
          simp only [Ok, Bool.false_eq_true, if_false, Bool.or_true, if_true]
          exact ⟨⟨hok0.1, by omega⟩, fun _ => trivial⟩
      · rename_i hno
        have hna : agg = false := by
          rcases ha : agg with _ | _
          · rfl
          · obtain ⟨a1, a2⟩ := hagg ha ci hi (Nat.le_refl _)
            rw [hz1] at a1 a2
            exact absurd ((sigpi_split z hi).1.mpr ⟨a1, a2⟩) hno
        rw [if_neg (by rw [hna, hcond]; simpa using hno)]
        injection he with he
        injection he with e1 e2
        subst e1 e2
        simp only [Plays] at hp
        subst hp
        refine ⟨G, D, rfl, hE, rfl, fun _ _ _ _ => rfl, fun _ _ _ => rfl, rfl, fun _ _ => rfl, ?_⟩
        rw [(sigpi_split _ hi).1] at hno
        rw [hz1] at hok ⊢
        revert hok hno
        cases sgW z ci <;> cases piW z ci <;> simp [Ok]
  obtain ⟨G1, D1, k1, k2, k3, k4, k5, k6, k7, k8⟩ := core
  obtain ⟨hlF, hF3⟩ := clrAt_iff.mp hclr
  refine ⟨G1, D1, k1, ?_, by rw [hF3, List.length_set]; exact hlF, ?_⟩
  · refine hS.upd (y := y) hx (eqv_clear hi k2 hclr) ?_ k6 (fun i hi => k7 i (by rw [hdp']; exact hi)) (fun y' h1 x' h2 h3 => ⟨rfl, hcc y' h1 x' h2 h3⟩) ?_
    · intro j k hk hne
      rw [← hf, ← hci] at hne
      rw [hF3, getD_set]
      split
      · rename_i hj
        obtain ⟨rfl, _⟩ := hj
        have hne' : k ≠ ci := fun hh => hne ⟨rfl, hh⟩
        rw [(pi_clr _ hi hk).1, (pi_clr _ hi hk).2, k4 _ k hk hne, k5 _ k hk]
        simp [hne']
      · exact ⟨k4 j k hk hne, k5 j k hk⟩
    · rw [← hf, ← hdp', ← hdp, ← hci, hc', ← hvd, hF3, getD_set, if_pos (show f = f ∧ f < F1.length from ⟨rfl, hlF⟩), (pi_clr _ hi hi).1, (pi_clr _ hi hi).2]
      simpa using k8
  · intro ha k hk hck
    obtain ⟨a1, a2⟩ := hagg ha k hk (by omega)
    rw [hF3, getD_set, if_pos (show f = f ∧ f < F1.length from ⟨rfl, hlF⟩), (pi_clr _ hi hk).1, (pi_clr _ hi hk).2, k4 _ k hk (fun hh => by omega), k5 _ k hk, a1, a2]
    exact ⟨rfl, rfl⟩

/-- The decoder's steps in one column. -/
def decClnRows (C : Coder σ) (o w : Nat) (check : Bool) (oph : Int) (f : Nat) (vsc : Bool) : Nat → Bool → Nat → Nat → Dec σ
  | 0, _, _, _ => Dec.skip
  | n + 1, part, ci, dp => Dec.seq (decClnStep C o w check part oph f dp ci (vsc && ci == 0)) (decClnRows C o w check oph f vsc n false (ci + 1) (dp + w))

theorem clnRows_sim (hM : Wide M) (hv : ∀ i, data.getD i 0 < 2 ^ 32) {o k i f e0 d0 : Nat} {vsc agg : Bool} {lim : Nat} (hlim : lim ≤ 4) (hx : i < w)
    (hrow : ∀ j < lim, 4 * k + j < h) (hf : f = w + 3 + k * (w + 2) + i) (he : ∀ j < lim, e0 + j = eidx w h (4 * k + j) i)
    (hd : d0 = k * (4 * w) + i) (hpi : ∀ j < lim, piW (M f) j = true) : ∀ (n ci dp dp' : Nat) (part : Bool), ci + n = lim → dp = e0 + ci → dp' = d0 + ci * w →
    (part = true → agg = true ∧ bitOf (2 ^ (b + 6)) (data.getD dp 0) = 1) →
    Sim C false (Col w h b data M (prog k i ci) f ci agg) (Col w h b data M (prog k i lim) f lim agg) (encClnRows o w (2 ^ (b + 6)) data f vsc n part ci dp)
      (decClnRows C o w (!agg) (((2 ^ (b + 1) ||| 2 ^ (b + 1) >>> 1 : Nat) : Int)) f vsc n part ci dp') := by
  intro n
  induction n with
  | zero =>
    intro ci dp dp' part h1 _ _ _
    rw [Nat.add_zero] at h1
    subst h1
    exact Sim.skip (fun _ _ _ h => h)
  | succ n ih =>
    intro ci dp dp' part h1 h2 h3 h4
    have hi : ci < 4 := by omega
    have s1 := clnStep_sim (C := C) (b := b) (o := o) (vsc := vsc) (agg := agg) (part := part) (y := 4 * k + ci) (x := i) (f := f) (dp := dp) (dp' := dp') (ci := ci)
      (c := prog k i ci) (c' := prog k i (ci + 1)) hM hv (hrow ci (by omega)) hx (by rw [hf]; exact cell_eq w k i hi) (by rw [h2]; exact he ci (by omega))
      (by rw [h3, hd]; exact didx_eq w k i ci) (by omega) (hpi ci (by omega)) (prog_at k i ci hi).1 (prog_at k i ci hi).2
      (fun y _ x _ hne => prog_row k i ci y x hne hi) h4
    have s2 := ih (ci + 1) (dp + 1) (dp' + w) false (by omega) (by omega) (by rw [h3]; ring) (by simp)
    exact s1.seq s2

theorem below_zero {x : Word} {lim : Nat} (hl : lim ≤ 4) (h : ∀ c < lim, piW x c = false) : x &&& below lim = 0 := by
  have hbit : ∀ c < lim, x &&& BitVec.twoPow 32 (21 + 3 * c) = 0 := by
    intro c hc
    rw [BitVec.and_twoPow]
    have := h c hc
    unfold piW at this
    rw [this]; rfl
  interval_cases lim
  · rw [show below 0 = 0#32 from rfl]; simp
  · rw [show below 1 = BitVec.twoPow 32 (21 + 3 * 0) by decide]; exact hbit 0 (by omega)
  · rw [show below 2 = BitVec.twoPow 32 (21 + 3 * 0) ||| BitVec.twoPow 32 (21 + 3 * 1) by decide, BitVec.and_or_distrib_left, hbit 0 (by omega), hbit 1 (by omega)]
    rfl
  · rw [show below 3 = BitVec.twoPow 32 (21 + 3 * 0) ||| (BitVec.twoPow 32 (21 + 3 * 1) ||| BitVec.twoPow 32 (21 + 3 * 2)) by decide, BitVec.and_or_distrib_left,
      BitVec.and_or_distrib_left, hbit 0 (by omega), hbit 1 (by omega), hbit 2 (by omega)]
    rfl
  · rw [show below 4 = BitVec.twoPow 32 (21 + 3 * 0) ||| (BitVec.twoPow 32 (21 + 3 * 1) ||| (BitVec.twoPow 32 (21 + 3 * 2) ||| BitVec.twoPow 32 (21 + 3 * 3))) by decide,
      BitVec.and_or_distrib_left, BitVec.and_or_distrib_left, BitVec.and_or_distrib_left, hbit 0 (by omega), hbit 1 (by omega), hbit 2 (by omega), hbit 3 (by omega)]
    rfl

theorem clear_word {x y m p : Word} (h1 : x &&& ~~~p = y &&& ~~~p) (h2 : x &&& (m &&& p) = 0) : x &&& m = (y &&& ~~~p) &&& m := by
  rw [← h1]
  apply BitVec.eq_of_getLsbD_eq
  intro i hi
  have := congrArg (fun z => BitVec.getLsbD z i) h2
  simp only [BitVec.getLsbD_and, BitVec.getLsbD_not, hi, decide_true, Bool.true_and, BitVec.ofNat_eq_ofNat, BitVec.getLsbD_zero] at this ⊢
  revert this
  cases x.getLsbD i <;> cases m.getLsbD i <;> cases p.getLsbD i <;> simp

/-- The end of a column: the decoder clears the `PI` bits. -/
theorem clnEnd_sim {raw : Bool} (hM : Wide M) {k i f lim : Nat} {agg : Bool} (hlim : lim ≤ 4) (hx : i < w) (hf : f = w + 3 + k * (w + 2) + i)
    (hrow : ∀ j < lim, 4 * k + j < h) (hrest : ∀ y < h, y / 4 = k → y % 4 < lim) (hmask : M f &&& PI_ALL = below lim) :
    Sim C raw (Col w h b data M (prog k i lim) f lim agg) (St w h data M b (fun _ _ => true) (prog k (i + 1) 0)) Enc.skip (Dec.upd fun F => clrAt F f PI_ALL) := by
  intro F G D tr F' c c' hP he hp
  unfold Enc.skip at he
  injection he with he
  injection he with e1 e2
  subst e1 e2
  simp only [Plays] at hp
  subst hp
  obtain ⟨hS, hl, _⟩ := hP
  have hlG : f < G.length := by rw [hS.eqv.len]; exact hl
  refine ⟨G.set f (G.getD f 0 &&& ~~~PI_ALL), D, ?_, ?_, hS.dl, ?_⟩
  · simp only [Dec.upd, clrAt_iff.mpr ⟨hlG, rfl⟩, Option.map_some]
  · refine ⟨by rw [List.length_set]; exact hS.eqv.len, fun j => ?_⟩
    rw [getD_set]
    split
    · rename_i hj
      obtain ⟨rfl, _⟩ := hj
      apply clear_word ((mc_wide hM f lim).npi hS.eqv f)
      rw [hmask]
      apply below_zero hlim
      intro c hc
      have h1 := (hS.ok (4 * k + c) (hrow c hc) i hx).2 (by unfold prog; apply decide_eq_true; omega)
      rw [← cell_eq w k i (by omega : c < 4), ← hf, show (4 * k + c) % 4 = c by omega] at h1
      exact h1
    · rename_i hj
      have h1 := hS.eqv.eq j
      unfold Mc at h1
      rw [if_neg (fun hh => hj ⟨hh.symm, hlG⟩)] at h1
      exact h1
  · intro y hy x hx'
    have h1 := hS.ok y hy x hx'
    have h2 : prog k i lim y x = prog k (i + 1) 0 y x := by
      unfold prog
      apply decide_eq_decide.mpr
      have := hrest y hy
      constructor
      · omega
      · intro hh
        by_cases h5 : y / 4 = k
        · have := this h5; omega
        · omega
    rw [← h2]
    exact h1

/-- Rows known to be zero can be ticked off. -/
theorem clean_zero {k i f r : Nat} {F G : List Word} {D : List Int} (hr : r ≤ 4) (hS : St w h data M b (fun _ _ => true) (prog k i 0) F G D)
    (hf : f = w + 3 + k * (w + 2) + i) (hF : F.getD f 0 = 0) (hbits : ∀ j < r, bitOf (2 ^ (b + 6)) (data.getD (eidx w h (4 * k + j) i) 0) = 0) :
    St w h data M b (fun _ _ => true) (prog k i r) F G D := by
  refine ⟨hS.eqv, hS.dl, fun y hy x hx => ?_⟩
  have h1 := hS.ok y hy x hx
  by_cases hp : prog k i r y x = prog k i 0 y x
  · rw [hp]; exact h1
  · have hk : y / 4 = k ∧ x = i ∧ y % 4 < r := by
      by_contra hcon
      apply hp
      unfold prog
      apply decide_eq_decide.mpr
      omega
    obtain ⟨hk1, hk2, hk3⟩ := hk
    have hy' : y = 4 * k + y % 4 := by omega
    have h0 : prog k i 0 y x = false := by unfold prog; apply decide_eq_false; omega
    have h3 : prog k i r y x = true := by unfold prog; apply decide_eq_true; omega
    have hcell : cell w y x = f := by rw [hy', hk2, hf]; exact (cell_eq w k i (by omega)).symm
    have hb := hbits (y % 4) hk3
    rw [← hy', ← hk2, bitOf_eq] at hb
    rw [h0, hcell, hF, (zero_bits (c := y % 4)).1, (zero_bits (c := y % 4)).2] at h1
    rw [h3, hcell, hF, (zero_bits (c := y % 4)).1, (zero_bits (c := y % 4)).2]
    simp only [Ok, Bool.false_eq_true, if_false, Bool.or_false, Bool.or_true, if_true] at h1 ⊢
    have := mag_step (data.getD (eidx w h y x) 0) b
    rw [h1.1.2] at this
    exact ⟨⟨h1.1.1, by omega⟩, fun _ => trivial⟩

theorem eqv_mc {f j : Nat} {F G : List Word} (h : Eqv M F G) : Eqv (Mc M f j) F G := by
  refine ⟨h.len, fun i => ?_⟩
  unfold Mc
  split
  · rename_i hi
    rw [hi, ← BitVec.and_assoc, ← BitVec.and_assoc, h.eq f]
  · exact h.eq i

theorem runLen_spec {one : Nat} : ∀ (n dp r : Nat), runLen one data n dp = some r →
    r ≤ n ∧ (∀ j < r, bitOf one (data.getD (dp + j) 0) = 0) ∧ (r < n → bitOf one (data.getD (dp + r) 0) = 1) := by
  intro n
  induction n with
  | zero => intro dp r h; injection h with h; subst h; exact ⟨Nat.le_refl _, fun _ h => by omega, fun h => by omega⟩
  | succ n ih =>
    intro dp r h
    unfold runLen at h
    rw [Option.bind_eq_some_iff] at h
    obtain ⟨v, hv, h⟩ := h
    have hvd := getElem_getD hv
    split at h
    · rename_i hb
      injection h with h
      subst h
      refine ⟨by omega, fun _ h => by omega, fun _ => ?_⟩
      rw [Nat.add_zero, hvd]
      unfold bitOf at hb ⊢
      split
      · rfl
      · rename_i h0; simp [h0] at hb
    · rename_i hb
      rw [Option.map_eq_some_iff] at h
      obtain ⟨r', h, hr⟩ := h
      subst hr
      obtain ⟨g1, g2, g3⟩ := ih _ _ h
      refine ⟨by omega, ?_, ?_⟩
      · intro j hj
        rcases j with _ | j
        · rw [Nat.add_zero, hvd]; simpa using hb
        · rw [show dp + (j + 1) = dp + 1 + j by omega]; exact g2 j (by omega)
      · intro hr
        rw [show dp + (r' + 1) = dp + 1 + r' by omega]; exact g3 (by omega)

theorem check_bits {x : Word} (h : x &&& (SIGMA_ALL ||| PI_ALL) = SIGMA_ALL ||| PI_ALL) {c : Nat} (hc : c < 4) : sgW x c = true ∧ piW x c = true := by
  have h1 : x &&& (SIGMA_ALL ||| PI_ALL) = (SIGMA_ALL ||| PI_ALL) &&& (SIGMA_ALL ||| PI_ALL) := by rw [h]; decide
  rw [sgW_congr h1 (by interval_cases c <;> decide), piW_congr h1 (by interval_cases c <;> decide)]
  interval_cases c <;> decide

theorem decClnRows_idle {o f : Nat} {oph : Int} {vsc : Bool} {s : DS σ} {g : Word} (hg : s.g[f]? = some g) : ∀ (n ci dp : Nat), ci + n ≤ 4 →
    (∀ j < n, sgW g (ci + j) = true) → decClnRows C o w true oph f vsc n false ci dp s = some s := by
  intro n
  induction n with
  | zero => intro ci dp _ _; rfl
  | succ n ih =>
    intro ci dp hn hs
    unfold decClnRows Dec.seq
    have h1 : decClnStep C o w true false oph f dp ci (vsc && ci == 0) s = some s := by
      unfold decClnStep Dec.get
      rw [hg, Option.bind_some]
      dsimp only
      rw [if_neg]
      · rfl
      · rw [(sigpi_split g (by omega)).1]
        have := hs 0 (by omega)
        rw [Nat.add_zero] at this
        rw [this]
        simp
    rw [h1, Option.bind_some]
    exact ih (ci + 1) (dp + w) (by omega) (fun j hj => by have := hs (j + 1) (by omega); rw [show ci + 1 + j = ci + (j + 1) by omega]; exact this)

/-- A column without run-length coding. -/
theorem clnMacro_sim (hM : Wide M) (hv : ∀ i, data.getD i 0 < 2 ^ 32) {o k i f e0 d0 : Nat} {vsc : Bool} {lim : Nat} (hlim : lim ≤ 4) (hx : i < w)
    (hrow : ∀ j < lim, 4 * k + j < h) (hrest : ∀ y < h, y / 4 = k → y % 4 < lim) (hf : f = w + 3 + k * (w + 2) + i) (he : ∀ j < lim, e0 + j = eidx w h (4 * k + j) i)
    (hd : d0 = k * (4 * w) + i) (hpi : ∀ j < lim, piW (M f) j = true) (hmask : M f &&& PI_ALL = below lim) :
    Sim C false (St w h data M b (fun _ _ => true) (prog k i 0)) (St w h data M b (fun _ _ => true) (prog k (i + 1) 0))
      (encClnMacro o w (2 ^ (b + 6)) data f vsc false 0 lim e0)
      (Dec.seq (decClnRows C o w true (((2 ^ (b + 1) ||| 2 ^ (b + 1) >>> 1 : Nat) : Int)) f vsc lim false 0 d0) (Dec.upd fun F => clrAt F f PI_ALL)) := by
  intro F G D tr F' c c' hS hen hp
  unfold encClnMacro Enc.get at hen
  rw [Option.bind_eq_some_iff] at hen
  obtain ⟨x, hxx, hen⟩ := hen
  obtain ⟨hx1, hx2⟩ := get_getD hxx
  dsimp only at hen
  have hgx : G[f]? = some (G.getD f 0) := get_of_lt (by rw [hS.eqv.len]; exact hx2)
  split at hen
  · rename_i hck
    unfold Enc.upd at hen
    rw [Option.map_eq_some_iff] at hen
    obtain ⟨F1, hc1, hen⟩ := hen
    injection hen with e1 e2
    subst e1 e2
    simp only [Plays] at hp
    subst hp
    have hclr : clrAt F f PI_ALL = some F1 := hc1
    obtain ⟨hlF, hF1⟩ := clrAt_iff.mp hclr
    have hsg : ∀ j < 4, sgW (G.getD f 0) j = true := by
      intro j hj
      rw [← sgW_congr (hM.npi hS.eqv f) (by interval_cases j <;> decide), hx1]
      exact (check_bits hck hj).1
    refine ⟨G.set f (G.getD f 0 &&& ~~~PI_ALL), D, ?_, ?_, hS.dl, ?_⟩
    · unfold Dec.seq
      rw [decClnRows_idle hgx _ _ _ (by omega) (fun j hj => hsg _ (by omega)), Option.bind_some]
      simp only [Dec.upd, clrAt_iff.mpr ⟨show f < G.length by rw [hS.eqv.len]; exact hx2, rfl⟩, Option.map_some]
    · rw [hF1]
      exact hS.eqv.set f (and_and_congr (hS.eqv.eq f))
    · intro y hy x' hx'
      have h1 := hS.ok y hy x' hx'
      rw [hF1, getD_set]
      by_cases hcx : f = cell w y x'
      · rw [if_pos ⟨hcx, hlF⟩, (all_clr _ (by omega : y % 4 < 4)).1, (all_clr _ (by omega : y % 4 < 4)).2, hx1]
        rw [← hcx, hx1, (check_bits hck (by omega : y % 4 < 4)).1, (check_bits hck (by omega : y % 4 < 4)).2] at h1
        rw [(check_bits hck (by omega : y % 4 < 4)).1]
        simp only [Ok, if_true, Bool.true_or, Bool.or_true, Bool.false_or] at h1 ⊢
        exact ⟨h1.1, fun _ => trivial⟩
      · rw [if_neg (fun hh => hcx hh.1)]
        have h2 : prog k (i + 1) 0 y x' = prog k i 0 y x' := by
          unfold prog
          apply decide_eq_decide.mpr
          by_cases h5 : y / 4 = k ∧ x' = i
          · exfalso
            apply hcx
            rw [hf]
            unfold cell
            rw [h5.1, h5.2]
          · omega
        rw [h2]
        exact h1
  · have s1 := clnRows_sim (C := C) (b := b) (o := o) (vsc := vsc) (agg := false) hM hv hlim hx hrow hf he hd hpi lim 0 e0 d0 false (by omega) rfl (by omega) (by simp)
    have s2 := s1.seq (clnEnd_sim (C := C) (raw := false) hM hlim hx hf hrow hrest hmask)
    have h3 : (encClnRows o w (2 ^ (b + 6)) data f vsc lim false 0 e0).seq Enc.skip F = some (tr, F') := by
      unfold Enc.seq
      rw [Nat.sub_zero] at hen
      rw [hen, Option.bind_some]
      simp [Enc.skip]
    exact s2 F G D tr F' c c' ⟨by rw [mc_zero]; exact hS, hx2, by simp⟩ h3 hp

theorem dseq_skip (a : Dec σ) : Dec.seq Dec.skip a = a := by
  funext s; rfl
theorem dseq_skip' (a : Dec σ) : Dec.seq a Dec.skip = a := by
  funext s
  unfold Dec.seq Dec.skip
  cases a s <;> rfl
theorem dseq_assoc (a b c : Dec σ) : Dec.seq (Dec.seq a b) c = Dec.seq a (Dec.seq b c) := by
  funext s
  unfold Dec.seq
  cases a s <;> rfl

theorem decFull_eq (o f dp : Nat) (oph : Int) (vsc : Bool) (z : Dec σ) :
    Dec.seq (decClnStep C o w true false oph f dp 0 vsc) (
    Dec.seq (decClnStep C o w true false oph f (dp + w) 1 false) (
    Dec.seq (decClnStep C o w true false oph f (dp + 2 * w) 2 false) (
    Dec.seq (decClnStep C o w true false oph f (dp + 3 * w) 3 false) z))) =
    Dec.seq (decClnRows C o w true oph f vsc 4 false 0 dp) z := by
  simp only [decClnRows, dseq_assoc, dseq_skip, show dp + w + w = dp + 2 * w by ring, show dp + 2 * w + w = dp + 3 * w by ring]
  simp

theorem decAgg_eq (o f dp r : Nat) (oph : Int) (vsc : Bool) (z : Dec σ) (hr : r < 4) :
    (Dec.seq (if r = 0 then decClnStep C o w false true oph f dp 0 vsc else Dec.skip) <|
      Dec.seq (if r ≤ 1 then decClnStep C o w false (r != 0) oph f (dp + w) 1 false else Dec.skip) <|
      Dec.seq (if r ≤ 2 then decClnStep C o w false (decide (1 < r)) oph f (dp + 2 * w) 2 false else Dec.skip) <|
      Dec.seq (if r ≤ 3 then decClnStep C o w false (decide (2 < r)) oph f (dp + 3 * w) 3 false else Dec.skip) z) =
    Dec.seq (decClnRows C o w false oph f vsc (4 - r) true r (dp + r * w)) z := by
  interval_cases r <;>
  · simp only [decClnRows, dseq_assoc, dseq_skip, show dp + w + w = dp + 2 * w by ring, show dp + 2 * w + w = dp + 3 * w by ring, Nat.zero_mul, Nat.one_mul, Nat.add_zero]
    simp [dseq_skip]

/-- A column of a full stripe. -/
theorem clnCol_sim (hM : Wide M) (hv : ∀ i, data.getD i 0 < 2 ^ 32) {o k i f e0 d0 : Nat} {vsc : Bool} (hx : i < w)
    (hrow : 4 * k + 4 ≤ h) (hf : f = w + 3 + k * (w + 2) + i) (he : ∀ j < 4, e0 + j = eidx w h (4 * k + j) i)
    (hd : d0 = k * (4 * w) + i) (hones : M f = ~~~0#32) :
    Sim C false (St w h data M b (fun _ _ => true) (prog k i 0)) (St w h data M b (fun _ _ => true) (prog k (i + 1) 0))
      (encClnCol o w (2 ^ (b + 6)) data vsc f e0) (decClnCol C o w (((2 ^ (b + 1) ||| 2 ^ (b + 1) >>> 1 : Nat) : Int)) vsc f d0) := by
  intro F G D tr F' c c' hS hen hp
  unfold encClnCol Enc.get at hen
  rw [Option.bind_eq_some_iff] at hen
  obtain ⟨x, hxx, hen⟩ := hen
  obtain ⟨hx1, hx2⟩ := get_getD hxx
  dsimp only at hen
  have hgx : G[f]? = some x := by rw [get_of_lt (by rw [hS.eqv.len]; exact hx2), eqv_ones hS.eqv hones, hx1]
  unfold decClnCol Dec.get
  simp only [hgx, Option.bind_some]
  have hpi : ∀ j < 4, piW (M f) j = true := fun j hj => by rw [hones]; exact ones_pi j hj
  have hmask : M f &&& PI_ALL = below 4 := by rw [hones]; decide
  split at hen
  · rename_i h0
    rw [if_pos h0]
    rw [Option.bind_eq_some_iff] at hen
    obtain ⟨r, hr, hen⟩ := hen
    obtain ⟨hr1, hr2, hr3⟩ := runLen_spec 4 e0 r hr
    unfold Enc.emit at hen
    rw [Option.map_eq_some_iff] at hen
    obtain ⟨⟨t, F1⟩, hen, hen2⟩ := hen
    injection hen2 with e1 e2
    subst e1 e2
    unfold encClnMacro Enc.get at hen
    rw [hxx, Option.bind_some] at hen
    dsimp only at hen
    rw [if_neg (by rw [h0]; decide)] at hen
    have hS1 := clean_zero hr1 hS hf (hx1.trans h0) (fun j hj => by rw [← he j (by omega)]; exact hr2 j hj)
    by_cases h4 : r = 4
    · subst h4
      rw [Nat.sub_self] at hen
      unfold encClnRows Enc.skip at hen
      injection hen with hen
      injection hen with e1 e2
      subst e1 e2
      simp only [ne_eq, not_true_eq_false, if_false, List.append_nil, Plays] at hp
      obtain ⟨u, hq, hp⟩ := hp
      subst hp
      simp only [Bool.false_eq_true, if_false] at hq
      refine ⟨G, D, ?_, ?_⟩
      · simp only [Dec.bit, Bool.false_eq_true, if_false, Option.bind_some, hq, if_true]
        rfl
      · exact hS1.congr (fun _ _ _ _ => rfl) (fun y hy x hx => by unfold prog; apply decide_eq_decide.mpr; omega)
    · have hr4 : r < 4 := by omega
      simp only [ne_eq, h4, not_false_eq_true, if_true, List.cons_append, List.nil_append, Plays, Bool.false_eq_true, if_false] at hp
      obtain ⟨u1, q1, u2, q2, u3, q3, hp⟩ := hp
      have hr' : (r >>> 1) <<< 1 ||| (r &&& 1) = r := by interval_cases r <;> decide
      have s1 := clnRows_sim (C := C) (b := b) (o := o) (vsc := vsc) (agg := true) hM hv (Nat.le_refl 4) hx (fun j hj => by omega) hf he hd hpi (4 - r) r (e0 + r)
        (d0 + r * w) true (by omega) rfl rfl (fun _ => ⟨rfl, hr3 hr4⟩)
      have s2 := s1.seq (clnEnd_sim (C := C) (raw := false) hM (Nat.le_refl 4) hx hf (fun j hj => by omega) (fun y hy hk => by omega) hmask)
      have h3 : (encClnRows o w (2 ^ (b + 6)) data f vsc (4 - r) true r (e0 + r)).seq Enc.skip F = some (t, F1) := by
        unfold Enc.seq
        rw [hen, Option.bind_some]
        simp [Enc.skip]
      have hcol : Col w h b data M (prog k i r) f r true F G D := by
        refine ⟨⟨eqv_mc hS1.eqv, hS1.dl, hS1.ok⟩, hx2, fun _ j hj _ => ?_⟩
        rw [hx1, h0]
        exact zero_bits
      obtain ⟨G', D', k1, k2⟩ := s2 F G D t F1 u3 c' hcol h3 hp
      refine ⟨G', D', ?_, k2⟩
      simp only [Dec.bit, Bool.false_eq_true, if_false, Option.bind_some, q1, one_ne_zero, q2, q3, hr']
      rw [decAgg_eq _ _ _ _ _ _ _ hr4]
      exact k1
  · rename_i h0
    rw [if_neg h0, decFull_eq]
    exact clnMacro_sim (C := C) hM hv (Nat.le_refl 4) hx (fun j hj => by omega) (fun y hy hk => by omega) hf he hd hpi hmask F G D tr F' c c' hS hen hp

theorem decPart_eq (o f : Nat) (oph : Int) (vsc : Bool) : ∀ (n ci dp : Nat),
    rowsD w (fun dp ci => decClnStep C o w true false oph f dp ci vsc) n ci dp = decClnRows C o w true oph f vsc n false ci dp := by
  intro n
  induction n with
  | zero => intro ci dp; rfl
  | succ n ih =>
    intro ci dp
    unfold rowsD decClnRows
    rw [ih, decClnStep_vsc]

theorem clnPass_sim (hv : ∀ i, data.getD i 0 < 2 ^ 32) {o : Nat} {vsc : Bool} :
    Sim C false (St w h data (maskOf w h) b (fun _ _ => true) (fun _ _ => false)) (St w h data (maskOf w h) b (fun _ _ => true) (fun _ _ => true))
      (encClnPass o w h (2 ^ (b + 6)) vsc data) (decClnPass C o w h (((2 ^ (b + 1) ||| 2 ^ (b + 1) >>> 1 : Nat) : Int)) vsc) := by
  obtain ⟨P, hP⟩ : ∃ P : Nat → Nat → Rel3, P = fun k i => St w h data (maskOf w h) b (fun _ _ => true) (prog k i 0) := ⟨_, rfl⟩
  have key := pass_sim (C := C) (raw := false) (w := w) (h := h) (fE := encClnCol o w (2 ^ (b + 6)) data vsc)
    (pE := fun f dp => encClnMacro o w (2 ^ (b + 6)) data f vsc false 0 (h % 4) dp)
    (fD := decClnCol C o w (((2 ^ (b + 1) ||| 2 ^ (b + 1) >>> 1 : Nat) : Int)) vsc)
    (pD := fun f dp => Dec.seq (rowsD w (fun dp ci => decClnStep C o w true false (((2 ^ (b + 1) ||| 2 ^ (b + 1) >>> 1 : Nat) : Int)) f dp ci vsc) (h % 4) 0 dp)
      (Dec.upd fun F => clrAt F f PI_ALL))
    P ?_ ?_ ?_
  · refine key.mono ?_ ?_
    · intro F G D hs
      rw [hP]
      exact hs.congr (fun _ _ _ _ => rfl) (fun y _ x _ => by unfold prog; symm; apply decide_eq_false; omega)
    · intro F G D hs
      split at hs
      · rw [hP] at hs
        exact hs.congr (fun _ _ _ _ => rfl) (fun y hy x hx => by unfold prog; apply decide_eq_true; omega)
      · rw [hP] at hs
        exact hs.congr (fun _ _ _ _ => rfl) (fun y hy x hx => by unfold prog; apply decide_eq_true; omega)
  · intro k F G D hs
    rw [hP] at hs ⊢
    exact hs.congr (fun _ _ _ _ => rfl) (fun y hy x hx => by unfold prog; apply decide_eq_decide.mpr; omega)
  · intro k hk i hi
    rw [hP]
    exact clnCol_sim (mask_wide w h) hv hi (by omega) rfl (fun j hj => eidx_full i hk hj) rfl (mask_full hi hk)
  · intro h4 i hi
    rw [hP]
    have hmp := mask_part (h := h) hi h4
    have h5 := clnMacro_sim (C := C) (b := b) (o := o) (k := h / 4) (i := i) (e0 := h / 4 * (4 * w) + h % 4 * i) (vsc := vsc) (lim := h % 4) (mask_wide w h) hv (by omega) hi
      (fun j hj => by omega) (fun y hy hk => by omega) rfl (fun j hj => eidx_part i (by omega)) rfl
      (fun j hj => by rw [hmp]; exact part_pi _ (by omega) h4 j hj) (by rw [hmp]; have : h % 4 < 4 := by omega
                                                                        generalize h % 4 = n at *
                                                                        interval_cases n
                                                                        · exact absurd rfl h4
                                                                        all_goals decide)
    simp only [decPart_eq]
    exact h5

end
end Jp2.T1

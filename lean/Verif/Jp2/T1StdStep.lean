import Verif.Jp2.T1Ctx
/-!
# Each step of the encoder makes the decisions of the standard
-/
namespace Jp2.T1
open Std (Block one near)

/-- A call of the coder as a decision. -/
def lab (raw : Bool) (p : Sym) : Std.Dcs := (if raw then none else some p.1, p.2)

/-- The encoder's samples are the block's. -/
structure Dat (B : Block) (data : List Nat) : Prop where
  len : data.length = B.w * B.h
  mag : ∀ y < B.h, ∀ x < B.w, B.mag y x = mag (data.getD (eidx B.w B.h y x) 0)
  sgn : ∀ y < B.h, ∀ x < B.w, signOf (data.getD (eidx B.w B.h y x) 0) = one (B.neg y x)

variable {B : Block} {s : Std.St} {F : List Word} {y x b : Nat} {data : List Nat} {raw : Bool}

theorem dat_get (hD : Dat B data) (hy : y < B.h) (hx : x < B.w) : data[eidx B.w B.h y x]? = some (data.getD (eidx B.w B.h y x) 0) := by
  have : eidx B.w B.h y x < data.length := by rw [hD.len]; exact eidx_lt hy hx
  rw [List.getD_eq_getElem?_getD, List.getElem?_eq_getElem this]; rfl

theorem dat_bit (hD : Dat B data) (hy : y < B.h) (hx : x < B.w) : bitOf (2 ^ (b + 6)) (data.getD (eidx B.w B.h y x) 0) = Std.bit B b y x := by
  rw [bitOf_eq, Std.bit, hD.mag y hy x hx]

/-! ## Changes of the flags -/

theorem rep_vis_change (hR : Rep B s F) {F' : List Word} {v' : Nat → Nat → Bool} (hl : F'.length = F.length)
    (hb : ∀ g b, (∀ j < 4, b ≠ 21 + 3 * j) → (F'.getD g 0).getLsbD b = (F.getD g 0).getLsbD b)
    (hpi : ∀ k < (B.h + 3) / 4, ∀ X, 1 ≤ X → X ≤ B.w → ∀ j < 4, 4 * k + j < B.h → (wd F' B.w k X).getLsbD (21 + 3 * j) = v' (4 * k + j) (X - 1)) :
    Rep B { s with vis := v' } F' := by
  refine ⟨by rw [hl, hR.len], ?_, ?_, ?_, ?_, ?_, hpi, hR.rs⟩
  · intro k hk X h1 h2 j hj c hc
    unfold wd
    rw [hb _ _ (by omega)]
    exact hR.sg k hk X h1 h2 j hj c hc
  · intro k hk X h2 j hj
    unfold wd
    rw [hb _ _ (by omega)]
    exact hR.own k hk X h2 j hj
  · intro k hk X h1 h2
    unfold wd
    rw [hb _ _ (by omega)]
    exact hR.no k hk X h1 h2
  · intro k hk X h1 h2
    unfold wd
    rw [hb _ _ (by omega)]
    exact hR.so k hk X h1 h2
  · intro k hk X h1 h2 j hj
    unfold wd
    rw [hb _ _ (by omega)]
    exact hR.mu k hk X h1 h2 j hj

/-- Cells are told apart. -/
theorem wd_cell {k X : Nat} (hx : x < B.w) (h1 : 1 ≤ X) (h2 : X ≤ B.w) : (k + 1) * (B.w + 2) + X = cell B.w y x ↔ k = y / 4 ∧ X = x + 1 := by
  rw [cell_wd]
  constructor
  · intro h
    have := pair_inj h (by omega) (by omega)
    omega
  · rintro ⟨rfl, rfl⟩; rfl

theorem pi_bits : ∀ ci < 4, ∀ b < 32, (PI_THIS <<< (3 * ci)).getLsbD b = decide (b = 21 + 3 * ci) ∧ (MU_THIS <<< (3 * ci)).getLsbD b = decide (b = 20 + 3 * ci) := by
  decide +kernel

theorem pi_bit {ci b : Nat} (hi : ci < 4) : (PI_THIS <<< (3 * ci)).getLsbD b = decide (b = 21 + 3 * ci) := by
  by_cases hb : b < 32
  · exact (pi_bits ci hi b hb).1
  · rw [BitVec.getLsbD_of_ge _ _ (by omega), decide_eq_false (by omega)]

theorem mu_bit' {ci b : Nat} (hi : ci < 4) : (MU_THIS <<< (3 * ci)).getLsbD b = decide (b = 20 + 3 * ci) := by
  by_cases hb : b < 32
  · exact (pi_bits ci hi b hb).2
  · rw [BitVec.getLsbD_of_ge _ _ (by omega), decide_eq_false (by omega)]

theorem rep_pi (hR : Rep B s F) (hy : y < B.h) (hx : x < B.w) :
    ∃ F', orAt F (cell B.w y x) (PI_THIS <<< (3 * (y % 4))) = some F' ∧ Rep B { s with vis := Std.put s.vis y x true } F' := by
  have hi : y % 4 < 4 := Nat.mod_lt _ (by omega)
  obtain ⟨F', e⟩ := orAt_some (F := F) (i := cell B.w y x) (v := PI_THIS <<< (3 * (y % 4))) (by rw [cell_wd]; exact rep_lt hR hy (by omega))
  obtain ⟨l, g⟩ := orAt_getD e
  refine ⟨F', e, rep_vis_change hR l ?_ ?_⟩
  · intro c b hb
    rw [g, BitVec.getLsbD_or, ite_bit, pi_bit hi, decide_eq_false (hb _ hi), Bool.and_false, Bool.or_false]
  · intro k hk X h1 h2 j hj hjh
    have := hR.pi k hk X h1 h2 j hj hjh
    unfold wd at this ⊢
    rw [g, BitVec.getLsbD_or, this, ite_bit, pi_bit hi]
    unfold Std.put
    by_cases h : 4 * k + j = y ∧ X - 1 = x
    · rw [if_pos h, decide_eq_true ((wd_cell hx h1 h2).mpr (by omega)), decide_eq_true (by omega)]
      simp
    · rw [if_neg h]
      by_cases h' : (k + 1) * (B.w + 2) + X = cell B.w y x
      · have := (wd_cell hx h1 h2).mp h'
        rw [decide_eq_false (show ¬ 21 + 3 * j = 21 + 3 * (y % 4) by omega)]
        simp
      · rw [decide_eq_false h']; simp

theorem rep_clr (hR : Rep B s F) (hy : y < B.h) (hx : x < B.w) :
    ∃ F', clrAt F (cell B.w y x) (PI_THIS <<< (3 * (y % 4))) = some F' ∧ Rep B { s with vis := Std.put s.vis y x false } F' := by
  have hi : y % 4 < 4 := Nat.mod_lt _ (by omega)
  obtain ⟨F', e⟩ := clrAt_some (F := F) (i := cell B.w y x) (v := PI_THIS <<< (3 * (y % 4))) (by rw [cell_wd]; exact rep_lt hR hy (by omega))
  obtain ⟨l, g⟩ := clrAt_getD e
  have bitn : ∀ (v : Word) b, (v &&& ~~~(PI_THIS <<< (3 * (y % 4)))).getLsbD b = (v.getLsbD b && !decide (b = 21 + 3 * (y % 4))) := by
    intro v b
    rw [BitVec.getLsbD_and, BitVec.getLsbD_not, pi_bit hi]
    by_cases hb : b < 32
    · simp [hb]
    · rw [BitVec.getLsbD_of_ge v _ (by omega)]; simp
  refine ⟨F', e, rep_vis_change hR l ?_ ?_⟩
  · intro c b hb
    rw [g]
    split
    · rw [bitn, decide_eq_false (hb _ hi)]; simp
    · rfl
  · intro k hk X h1 h2 j hj hjh
    have := hR.pi k hk X h1 h2 j hj hjh
    unfold wd at this ⊢
    rw [g]
    unfold Std.put
    by_cases h' : (k + 1) * (B.w + 2) + X = cell B.w y x
    · have hkx := (wd_cell hx h1 h2).mp h'
      rw [if_pos h', bitn, this]
      by_cases h : 4 * k + j = y ∧ X - 1 = x
      · rw [if_pos h, decide_eq_true (by omega)]; simp
      · rw [if_neg h, decide_eq_false (by omega)]; simp
    · rw [if_neg h', this, if_neg (fun h => h' ((wd_cell hx h1 h2).mpr (by omega)))]

/-- All four `PI` bits of a column cleared. -/
theorem rep_clr_all (hR : Rep B s F) {k : Nat} (hk4 : 4 * k < B.h) (hx : x < B.w) :
    ∃ F', clrAt F (cell B.w (4 * k) x) PI_ALL = some F' ∧ Rep B { s with vis := fun y' x' => if y' / 4 = k ∧ x' = x then false else s.vis y' x' } F' := by
  obtain ⟨F', e⟩ := clrAt_some (F := F) (i := cell B.w (4 * k) x) (v := PI_ALL) (by rw [cell_wd]; exact rep_lt hR hk4 (by omega))
  obtain ⟨l, g⟩ := clrAt_getD e
  have key : ∀ b < 32, (∀ j < 4, b ≠ 21 + 3 * j) → (PI_ALL).getLsbD b = false := by decide +kernel
  have key2 : ∀ j < 4, (PI_ALL).getLsbD (21 + 3 * j) = true := by decide
  refine ⟨F', e, rep_vis_change hR l ?_ ?_⟩
  · intro c b hb
    rw [g]
    split
    · rw [BitVec.getLsbD_and, BitVec.getLsbD_not]
      by_cases h : b < 32
      · rw [key b h hb]; simp [h]
      · rw [BitVec.getLsbD_of_ge (F.getD c 0) _ (by omega)]; simp
    · rfl
  · intro k' hk X h1 h2 j hj hjh
    have := hR.pi k' hk X h1 h2 j hj hjh
    unfold wd at this ⊢
    rw [g]
    by_cases h' : (k' + 1) * (B.w + 2) + X = cell B.w (4 * k) x
    · have hkx := (wd_cell hx h1 h2).mp h'
      rw [if_pos h', if_pos (by omega), BitVec.getLsbD_and, BitVec.getLsbD_not, key2 j hj]; simp
    · rw [if_neg h', this, if_neg (fun h => h' ((wd_cell hx h1 h2).mpr (by omega)))]

theorem rep_mu (hR : Rep B s F) (hy : y < B.h) (hx : x < B.w) (hs : s.sig y x = true) :
    ∃ F', orAt F (cell B.w y x) (MU_THIS <<< (3 * (y % 4))) = some F' ∧ Rep B { s with ref := Std.put s.ref y x true } F' := by
  have hi : y % 4 < 4 := Nat.mod_lt _ (by omega)
  obtain ⟨F', e⟩ := orAt_some (F := F) (i := cell B.w y x) (v := MU_THIS <<< (3 * (y % 4))) (by rw [cell_wd]; exact rep_lt hR hy (by omega))
  obtain ⟨l, g⟩ := orAt_getD e
  have hb : ∀ g b, (∀ j < 4, b ≠ 20 + 3 * j) → (F'.getD g 0).getLsbD b = (F.getD g 0).getLsbD b := by
    intro c b hb
    rw [g, BitVec.getLsbD_or, ite_bit, mu_bit' hi, decide_eq_false (hb _ hi), Bool.and_false, Bool.or_false]
  refine ⟨F', e, ⟨by rw [l, hR.len], ?_, ?_, ?_, ?_, ?_, ?_, ?_⟩⟩
  · intro k hk X h1 h2 j hj c hc
    unfold wd
    rw [hb _ _ (by omega)]
    exact hR.sg k hk X h1 h2 j hj c hc
  · intro k hk X h2 j hj
    unfold wd
    rw [hb _ _ (by omega)]
    exact hR.own k hk X h2 j hj
  · intro k hk X h1 h2
    unfold wd
    rw [hb _ _ (by omega)]
    exact hR.no k hk X h1 h2
  · intro k hk X h1 h2
    unfold wd
    rw [hb _ _ (by omega)]
    exact hR.so k hk X h1 h2
  · intro k hk X h1 h2 j hj
    have := hR.mu k hk X h1 h2 j hj
    unfold wd at this ⊢
    rw [g, BitVec.getLsbD_or, this, ite_bit, mu_bit' hi]
    unfold Std.put
    dsimp only
    by_cases h : 4 * k + j = y ∧ X - 1 = x
    · rw [if_pos h, decide_eq_true ((wd_cell hx h1 h2).mpr (by omega)), decide_eq_true (by omega)]
      simp
    · rw [if_neg h]
      by_cases h' : (k + 1) * (B.w + 2) + X = cell B.w y x
      · have := (wd_cell hx h1 h2).mp h'
        rw [decide_eq_false (show ¬ 20 + 3 * j = 20 + 3 * (y % 4) by omega)]
        simp
      · rw [decide_eq_false h']; simp
  · intro k hk X h1 h2 j hj
    unfold wd
    rw [hb _ _ (by omega)]
    exact hR.pi k hk X h1 h2 j hj
  · intro y' x' h
    unfold Std.put at h
    dsimp only at h ⊢
    split at h
    · rename_i hh; rw [hh.1, hh.2]; exact hs
    · exact hR.rs _ _ h

/-! ## Steps -/

theorem xor_bits : ∀ a < 2, ∀ b < 2, a ^^^ b = (a + b) % 2 := by decide

theorem one_lt (b : Bool) : one b < 2 := by cases b <;> decide

theorem sc_lt (B : Block) (s : Std.St) (y x : Nat) : (Std.sc B s y x).2 < 2 := by
  unfold Std.sc Std.tableD3
  split_ifs <;> decide

theorem sign_step (hR : Rep B s F) (hD : Dat B data) (hy : y < B.h) (hx : x < B.w) {vsc : Bool} (hv : y % 4 = 0 → vsc = B.causal) :
    ∃ t F', encSign B.w raw (data.getD (eidx B.w B.h y x) 0) (cell B.w y x) (y % 4) vsc (wd F B.w (y / 4) (x + 1)) F = some ([t], F') ∧
      lab raw t = Std.signDcs B raw s y x ∧ Rep B { s with sig := Std.put s.sig y x true } F' := by
  obtain ⟨F', u1, u2⟩ := rep_update hR hy hx rfl hv
  unfold encSign
  rw [if_neg (by unfold cell; omega)]
  have hp : F[cell B.w y x - 1]? = some (wd F B.w (y / 4) x) := by
    rw [cell_wd, show (y / 4 + 1) * (B.w + 2) + (x + 1) - 1 = (y / 4 + 1) * (B.w + 2) + x by omega]
    exact get_of_lt (rep_lt hR hy (by omega))
  have hn : F[cell B.w y x + 1]? = some (wd F B.w (y / 4) (x + 2)) := by
    rw [cell_wd, show (y / 4 + 1) * (B.w + 2) + (x + 1) + 1 = (y / 4 + 1) * (B.w + 2) + (x + 2) by omega]
    exact get_of_lt (rep_lt hR hy (by omega))
  obtain ⟨c1, c2⟩ := rep_sc hR hy hx
  rw [hp, Option.bind_some, hn, Option.bind_some, c1, Option.bind_some, c2, Option.bind_some, hD.sgn y hy x hx, u1, Option.map_some]
  refine ⟨_, F', rfl, ?_, u2⟩
  unfold lab Std.signDcs
  cases raw
  · simp only [Bool.false_eq_true, if_false]
    rw [xor_bits _ (one_lt _) _ (sc_lt _ _ _ _)]
  · simp only [if_true]

theorem sigpi_rep (hR : Rep B s F) (hy : y < B.h) (hx : x < B.w) :
    (wd F B.w (y / 4) (x + 1) &&& (SIGMA_PI <<< (3 * (y % 4))) = 0 ↔ s.sig y x = false ∧ s.vis y x = false) ∧
    (wd F B.w (y / 4) (x + 1) &&& (SIGMA_PI <<< (3 * (y % 4))) = SIGMA_THIS <<< (3 * (y % 4)) ↔ s.sig y x = true ∧ s.vis y x = false) := by
  have := sigpi_split (wd F B.w (y / 4) (x + 1)) (ci := y % 4) (by omega)
  rw [rep_sig hR hy hx, rep_vis hR hy hx] at this
  exact this

theorem bit_cases (B : Block) (b y x : Nat) : Std.bit B b y x = 0 ∨ Std.bit B b y x = 1 := by
  unfold Std.bit; omega

theorem sig_step (hR : Rep B s F) (hD : Dat B data) (hb : B.band < 4) (hy : y < B.h) (hx : x < B.w) (hvis : s.vis y x = false) {vsc : Bool}
    (hv : y % 4 = 0 → vsc = B.causal) :
    ∃ tr F', encSigStep B.band B.w raw (2 ^ (b + 6)) data (cell B.w y x) (eidx B.w B.h y x) (y % 4) vsc F = some (tr, F') ∧
      tr.map (lab raw) = (Std.sigCoef B raw b y x s).1 ∧ Rep B (Std.sigCoef B raw b y x s).2 F' := by
  unfold encSigStep Enc.get Std.sigCoef
  rw [rep_cell hR hy hx, Option.bind_some]
  dsimp only
  have hcond : (wd F B.w (y / 4) (x + 1) &&& (SIGMA_PI <<< (3 * (y % 4))) = 0 ∧ wd F B.w (y / 4) (x + 1) &&& (NEIGHBOURS <<< (3 * (y % 4))) ≠ 0) ↔
      (s.sig y x = false ∧ Std.zc B s y x ≠ 0) := by
    rw [(sigpi_rep hR hy hx).1, ne_eq, idx_zero _ (Nat.mod_lt _ (by omega)), ← rep_zc_zero hR hb hy hx]
    simp [hvis]
  by_cases hc : s.sig y x = false ∧ Std.zc B s y x ≠ 0
  · rw [if_pos (hcond.mpr hc), if_pos hc, rep_zc hR hb hy hx, Option.bind_some, dat_get hD hy hx, Option.bind_some, dat_bit hD hy hx]
    unfold Enc.emit Enc.seq Std.codeBit
    rcases bit_cases B b y x with h0 | h1
    · obtain ⟨F', p1, p2⟩ := rep_pi hR hy hx
      rw [h0, if_neg (by simp), if_neg (by simp)]
      refine ⟨[(Std.zc B s y x, 0)], F', ?_, rfl, p2⟩
      simp [Enc.skip, Enc.upd, p1]
    · obtain ⟨t, F1, e1, e2, e3⟩ := sign_step (raw := raw) hR hD hy hx hv
      obtain ⟨F', p1, p2⟩ := rep_pi e3 hy hx
      rw [h1, if_pos (by simp), if_pos rfl]
      refine ⟨[(Std.zc B s y x, 1), t], F', ?_, ?_, p2⟩
      · rw [e1]; simp [Enc.upd, p1]
      · simp only [List.map_cons, List.map_nil, e2]; rfl
  · rw [if_neg (fun h => hc (hcond.mp h)), if_neg hc]
    exact ⟨[], F, rfl, rfl, hR⟩

theorem ref_step (hR : Rep B s F) (hD : Dat B data) (hy : y < B.h) (hx : x < B.w) :
    ∃ tr F', encRefStep (2 ^ (b + 6)) data (cell B.w y x) (eidx B.w B.h y x) (y % 4) F = some (tr, F') ∧
      tr.map (lab raw) = (Std.refCoef B raw b y x s).1 ∧ Rep B (Std.refCoef B raw b y x s).2 F' := by
  unfold encRefStep Enc.get Std.refCoef
  rw [rep_cell hR hy hx, Option.bind_some]
  dsimp only
  by_cases hc : s.sig y x = true ∧ s.vis y x = false
  · obtain ⟨F', m1, m2⟩ := rep_mu hR hy hx hc.1
    rw [if_pos ((sigpi_rep hR hy hx).2.mpr hc), if_pos hc, dat_get hD hy hx, Option.bind_some, dat_bit hD hy hx, m1, Option.map_some, rep_mr hR hy hx]
    exact ⟨_, F', rfl, rfl, m2⟩
  · rw [if_neg (fun h => hc ((sigpi_rep hR hy hx).2.mp h)), if_neg hc]
    exact ⟨[], F, rfl, rfl, hR⟩

/-- `s` with the visits of the coefficients in `D` forgotten: the encoder's cleanup pass forgets them one by one. -/
def hide (D : Nat → Nat → Bool) (s : Std.St) : Std.St := { s with vis := fun y x => s.vis y x && !D y x }

theorem hide_put {D : Nat → Nat → Bool} : { hide D s with vis := Std.put (hide D s).vis y x false } = hide (Std.put D y x true) s := by
  unfold hide Std.put
  dsimp only
  congr 1
  funext y' x'
  split <;> simp

theorem cln_step {D : Nat → Nat → Bool} (hR : Rep B (hide D s) F) (hD : Dat B data) (hb : B.band < 4) (hy : y < B.h) (hx : x < B.w) (hd : D y x = false) :
    ∃ tr F', encClnStep B.band B.w (2 ^ (b + 6)) data (cell B.w y x) B.causal false (eidx B.w B.h y x) (y % 4) F = some (tr, F') ∧
      tr.map (lab false) = (Std.clnCoef B b y x s).1 ∧ Rep B (hide (Std.put D y x true) (Std.clnCoef B b y x s).2) F' := by
  unfold encClnStep Enc.get Enc.seq Std.clnCoef
  dsimp only
  rw [rep_cell hR hy hx, Option.bind_some]
  have hcond := (sigpi_rep hR hy hx).1
  have hv1 : (hide D s).vis y x = s.vis y x := by unfold hide; simp [hd]
  have hs1 : (hide D s).sig = s.sig := rfl
  rw [hv1, hs1] at hcond
  have hvsc : y % 4 = 0 → (B.causal && (y % 4 == 0)) = B.causal := by intro h; simp [h]
  rw [if_neg (show ¬ (false = true) by simp)]
  by_cases hc : s.sig y x = false ∧ s.vis y x = false
  · have hz : Std.zc B (hide D s) y x = Std.zc B s y x := rfl
    have hsd : Std.signDcs B false (hide D s) y x = Std.signDcs B false s y x := rfl
    rw [if_pos (hcond.mpr hc), if_pos hc, rep_zc hR hb hy hx, Option.bind_some, dat_get hD hy hx, Option.bind_some, dat_bit hD hy hx, hz]
    unfold Enc.emit Std.codeBit
    rcases bit_cases B b y x with h0 | h1
    · obtain ⟨F', p1, p2⟩ := rep_clr hR hy hx
      rw [h0, if_neg (by simp), if_neg (by simp)]
      rw [hide_put] at p2
      refine ⟨[(Std.zc B s y x, 0)], F', ?_, rfl, p2⟩
      simp [Enc.skip, Enc.upd, p1]
    · obtain ⟨t, F1, e1, e2, e3⟩ := sign_step (raw := false) hR hD hy hx hvsc
      obtain ⟨F', p1, p2⟩ := rep_clr e3 hy hx
      rw [h1, if_pos (by simp), if_pos rfl]
      have : Rep B (hide (Std.put D y x true) { s with sig := Std.put s.sig y x true }) F' := by
        rw [← hide_put]; exact p2
      refine ⟨[(Std.zc B s y x, 1), t], F', ?_, ?_, this⟩
      · rw [e1]; simp [Enc.upd, p1]
      · simp only [List.map_cons, List.map_nil, e2, hsd]; rfl
  · rw [if_neg (fun h => hc (hcond.mp h)), if_neg hc]
    obtain ⟨F', p1, p2⟩ := rep_clr hR hy hx
    rw [hide_put] at p2
    exact ⟨[], F', by simp [Enc.upd, p1], rfl, p2⟩

/-- The coefficient ending a run. -/
theorem part_step {D : Nat → Nat → Bool} (hR : Rep B (hide D s) F) (hD : Dat B data) (hy : y < B.h) (hx : x < B.w) :
    ∃ t F', encClnStep B.band B.w (2 ^ (b + 6)) data (cell B.w y x) B.causal true (eidx B.w B.h y x) (y % 4) F = some ([t], F') ∧
      lab false t = Std.signDcs B false s y x ∧ Rep B (hide (Std.put D y x true) { s with sig := Std.put s.sig y x true }) F' := by
  unfold encClnStep Enc.get Enc.seq
  dsimp only
  rw [rep_cell hR hy hx, Option.bind_some]
  have hvsc : y % 4 = 0 → (B.causal && (y % 4 == 0)) = B.causal := by intro h; simp [h]
  obtain ⟨t, F1, e1, e2, e3⟩ := sign_step (raw := false) hR hD hy hx hvsc
  obtain ⟨F', p1, p2⟩ := rep_clr e3 hy hx
  have : Rep B (hide (Std.put D y x true) { s with sig := Std.put s.sig y x true }) F' := by
    rw [← hide_put]; exact p2
  rw [if_pos rfl, dat_get hD hy hx, Option.bind_some, e1]
  exact ⟨t, F', by simp [Enc.upd, p1], e2, this⟩

end Jp2.T1

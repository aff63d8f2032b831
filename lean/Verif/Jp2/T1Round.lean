import Verif.Jp2.T1Whole
import Verif.Jp2.T1Spec
import Mathlib.Algebra.Order.Group.Unbundled.Int
/-!
# From the encoder's result to the decoder's
-/
namespace Jp2.T1
open Jp2.Mqc (Mqc startCtxs RE0 bytes Fresh)

/-! ## Sign and magnitude -/

theorem smr_lt {x : Int} (h1 : -2 ^ 31 ≤ x) (h2 : x < 2 ^ 31) : toSmr x < 2 ^ 32 := by
  unfold toSmr
  split
  · omega
  · split
    · decide
    · omega

theorem smr_mag {x : Int} (h1 : -2 ^ 31 ≤ x) (h2 : x < 2 ^ 31) : toSmr x % 2 ^ 31 = magOf x := by
  unfold toSmr magOf
  split
  · rw [if_neg (by omega)]; omega
  · split
    · decide
    · omega

theorem smr_sign {x : Int} (h1 : -2 ^ 31 ≤ x) (h2 : x < 2 ^ 31) : signOf (toSmr x) = if x < 0 then 1 else 0 := by
  unfold signOf
  rw [Nat.shiftRight_eq_div_pow]
  unfold toSmr
  split
  · rw [if_neg (by omega)]
    apply Nat.div_eq_of_lt
    omega
  · rename_i hx
    rw [if_pos (show x < 0 by omega)]
    split
    · decide
    · omega

theorem foldl_max {l : List Nat} : ∀ {a : Nat}, a ≤ l.foldl max a ∧ (∀ x ∈ l, x ≤ l.foldl max a) ∧ (l.foldl max a = a ∨ l.foldl max a ∈ l) := by
  induction l with
  | nil => intro a; simp
  | cons y l ih =>
    intro a
    obtain ⟨h1, h2, h3⟩ := ih (a := max a y)
    rw [List.foldl_cons]
    refine ⟨by omega, fun x hx => ?_, ?_⟩
    · rcases List.mem_cons.mp hx with rfl | hx
      · omega
      · exact h2 x hx
    · rcases h3 with h3 | h3
      · rcases Nat.le_total a y with hle | hle
        · right; rw [h3, Nat.max_eq_right hle]; exact List.mem_cons_self
        · left; rw [h3, Nat.max_eq_left hle]
      · right; exact List.mem_cons_of_mem _ h3

/-- What the encoder finds of the largest magnitude. -/
theorem numbps_cases {data : List Int} (hr : ∀ x ∈ data, -2 ^ 31 ≤ x ∧ x < 2 ^ 31) :
    ((numbpsOf ((data.map magOf).foldl max 0) = 0 ∨ 2 ^ 31 + 1 ≤ numbpsOf ((data.map magOf).foldl max 0) ∧ numbpsOf ((data.map magOf).foldl max 0) < 2 ^ 32) ∧ ∀ x ∈ data, magOf x / 64 = 0) ∨
    (1 ≤ numbpsOf ((data.map magOf).foldl max 0) ∧ numbpsOf ((data.map magOf).foldl max 0) ≤ 25 ∧
      ∀ x ∈ data, magOf x / 64 / 2 ^ numbpsOf ((data.map magOf).foldl max 0) = 0) := by
  obtain ⟨mx, hmx⟩ : ∃ mx, mx = (data.map magOf).foldl max 0 := ⟨_, rfl⟩
  rw [← hmx]
  obtain ⟨_, h2, h3⟩ := foldl_max (l := data.map magOf) (a := 0)
  rw [← hmx] at h2 h3
  have hle : ∀ x ∈ data, magOf x ≤ mx := fun x hx => h2 _ (List.mem_map_of_mem hx)
  have hbd : mx < 2 ^ 31 := by
    rcases h3 with h3 | h3
    · rw [h3]; decide
    · obtain ⟨x, hx, h4⟩ := List.mem_map.mp h3
      have := hr x hx
      rw [← h4]
      unfold magOf
      split <;> omega
  unfold numbpsOf
  by_cases h0 : mx = 0
  · left
    rw [if_pos h0]
    exact ⟨Or.inl rfl, fun x hx => by have := hle x hx; omega⟩
  · rw [if_neg h0]
    have l1 : Nat.log2 mx < 31 := (Nat.log2_lt h0).mpr hbd
    rcases Nat.lt_or_ge mx 64 with hs | hs
    · left
      have l2 : Nat.log2 mx < 6 := (Nat.log2_lt h0).mpr hs
      refine ⟨?_, fun x hx => by have := hle x hx; omega⟩
      rcases Nat.lt_or_ge (Nat.log2 mx) 5 with h5 | h5
      · right; omega
      · left; rw [show Nat.log2 mx = 5 by omega]
    · right
      have l2 : 6 ≤ Nat.log2 mx := (Nat.le_log2 h0).mpr hs
      have hn : (2 ^ 32 + Nat.log2 mx + 1 - 6) % 2 ^ 32 = Nat.log2 mx - 5 := by omega
      rw [hn]
      refine ⟨by omega, by omega, fun x hx => ?_⟩
      rw [Nat.div_div_eq_div_mul, show 64 = 2 ^ 6 from rfl, ← Nat.pow_add]
      apply Nat.div_eq_of_lt
      have h4 : mx < 2 ^ (Nat.log2 mx + 1) := Nat.lt_log2_self
      rw [show 6 + (Nat.log2 mx - 5) = Nat.log2 mx + 1 by omega]
      have := hle x hx
      omega

/-! ## The flags before the first pass -/

theorem init_len (w h : Nat) : (initFlags w h).length = (w + 2) + (h / 4 * (w + 2) + ((if h % 4 = 0 then 0 else w + 2) + (w + 2))) := by
  unfold initFlags
  simp only [List.length_append, List.length_replicate]
  split <;> simp <;> omega

theorem rep_getD {n i : Nat} {a d : Word} (h : i < n) : (List.replicate n a).getD i d = a := by
  simp [List.getD, h]

theorem app_getD_right {l m : List Word} {i : Nat} {d : Word} (h : l.length ≤ i) : (l ++ m).getD i d = m.getD (i - l.length) d := by
  simp only [List.getD_eq_getElem?_getD]
  rw [List.getElem?_append_right h]

theorem app_getD_left {l m : List Word} {i : Nat} {d : Word} (h : i < l.length) : (l ++ m).getD i d = l.getD i d := by
  simp only [List.getD_eq_getElem?_getD]
  rw [List.getElem?_append_left h]

theorem init_bits {w h y x : Nat} (hy : y < h) (hx : x < w) :
    sgW ((initFlags w h).getD (cell w y x) 0) (y % 4) = false ∧ piW ((initFlags w h).getD (cell w y x) 0) (y % 4) = false := by
  have hc : cell w y x = (w + 2) + (y / 4 * (w + 2) + (x + 1)) := by unfold cell; omega
  rw [hc]
  unfold initFlags
  rw [List.append_assoc, List.append_assoc, app_getD_right (by simp), List.length_replicate, Nat.add_sub_cancel_left]
  rcases Nat.lt_or_ge (y / 4) (h / 4) with hl | hl
  · have hlt : y / 4 * (w + 2) + (x + 1) < h / 4 * (w + 2) := by
      have : (y / 4 + 1) * (w + 2) ≤ h / 4 * (w + 2) := Nat.mul_le_mul_right _ hl
      rw [Nat.add_mul] at this
      omega
    rw [app_getD_left (by simpa using hlt), rep_getD hlt]
    exact zero_bits
  · have he : y / 4 = h / 4 := by omega
    rw [he, app_getD_right (by simp), List.length_replicate, Nat.add_sub_cancel_left, if_neg (by omega), app_getD_left (by simp; omega), rep_getD (by omega)]
    have h1 : y % 4 < h % 4 := by omega
    have h2 : h % 4 < 4 := by omega
    generalize y % 4 = a at h1
    generalize h % 4 = b at h1 h2
    interval_cases b <;> interval_cases a <;> decide

theorem inv_start {w h n : Nat} {data : List Nat} (hn : 1 ≤ n) (hd : ∀ y < h, ∀ x < w, mag (data.getD (eidx w h y x) 0) / 2 ^ n = 0) :
    Inv w h data n 2 (initFlags w h) (initFlags w h) (List.replicate (w * h) 0) := by
  unfold Inv
  rw [if_neg (by omega), if_pos rfl]
  refine ⟨⟨rfl, fun _ => rfl⟩, by simp, fun y hy x hx => ?_⟩
  rw [(init_bits hy hx).1, (init_bits hy hx).2]
  have h1 : (List.replicate (w * h) (0 : Int)).getD (y * w + x) 0 = 0 := by
    simp only [List.getD_eq_getElem?_getD, List.getElem?_replicate]
    split <;> rfl
  rw [h1]
  simp only [Ok, Bool.false_eq_true, if_false, Bool.or_self, implies_true, and_true, true_and]
  rw [show n - 1 + 1 = n by omega]
  exact hd y hy x hx

/-! ## Order of the samples -/

theorem eidx_lt {w h y x : Nat} (hy : y < h) (hx : x < w) : eidx w h y x < w * h := by
  unfold eidx
  have e : w * h = h / 4 * (4 * w) + h % 4 * w := by
    conv_lhs => rw [← Nat.div_add_mod h 4, Nat.mul_add]
    rw [Nat.mul_comm w (h % 4), ← Nat.mul_assoc, Nat.mul_comm (w * 4), Nat.mul_comm w 4]
  rw [e]
  split
  · rename_i hl
    have h1 : (y / 4 + 1) * (4 * w) ≤ h / 4 * (4 * w) := Nat.mul_le_mul_right _ hl
    rw [Nat.add_mul] at h1
    omega
  · have h1 : h % 4 * (x + 1) ≤ h % 4 * w := Nat.mul_le_mul_left _ hx
    rw [Nat.mul_add] at h1
    omega

/-! ## What a state of the decoder says about a coefficient -/

theorem mag_smr {x : Int} (h1 : -2 ^ 31 ≤ x) (h2 : x < 2 ^ 31) : mag (toSmr x) = min x.natAbs (2 ^ 31 - 1) / 64 := by
  unfold mag
  rw [smr_mag h1 h2]
  unfold magOf
  split
  · rename_i h; subst h; decide
  · rw [Nat.min_eq_left (by omega)]

theorem lev_recon {x : Int} {e : Nat} (h1 : -2 ^ 31 ≤ x) (h2 : x < 2 ^ 31) (h : 0 < mag (toSmr x) / 2 ^ e) : lev (toSmr x) e = recon e x := by
  unfold lev recon
  rw [smr_sign h1 h2]
  rw [mag_smr h1 h2] at h ⊢
  dsimp only
  generalize hm : min x.natAbs (2 ^ 31 - 1) / 64 / 2 ^ e = m at h
  rw [if_neg (show ¬ m = 0 by omega)]
  have hx : x ≠ 0 := by
    intro hx
    subst hx
    simp at hm
    omega
  rcases lt_or_gt_of_ne hx with hn | hp
  · rw [if_pos hn, if_neg (show ¬ (1 : Nat) = 0 by omega), Int.sign_eq_neg_one_of_neg hn]; push_cast; ring
  · rw [if_neg (show ¬ x < 0 by omega), if_pos rfl, Int.sign_eq_one_of_pos hp]; push_cast; ring

theorem recon_zero {x : Int} {e : Nat} (h1 : -2 ^ 31 ≤ x) (h2 : x < 2 ^ 31) (h : mag (toSmr x) / 2 ^ e = 0) : recon e x = 0 := by
  unfold recon
  rw [mag_smr h1 h2] at h
  dsimp only
  rw [if_pos h]

theorem ok_recon {x d : Int} {b : Nat} {r c sg pi : Bool} (h1 : -2 ^ 31 ≤ x) (h2 : x < 2 ^ 31) (h : Ok b r c (toSmr x) d sg pi) :
    ∃ e, b ≤ e ∧ e ≤ (if c then b else b + 1) ∧ d = recon e x := by
  unfold Ok at h
  obtain ⟨h, _⟩ := h
  cases sg with
  | true =>
    simp only [if_true] at h
    by_cases hq : (pi || r || c) = true
    · rw [if_pos hq] at h
      refine ⟨b, Nat.le_refl _, by split <;> omega, ?_⟩
      rw [h.1]; exact lev_recon h1 h2 h.2
    · rw [if_neg hq] at h
      have hc : c = false := by cases c <;> simp_all
      refine ⟨b + 1, by omega, by rw [hc]; simp, ?_⟩
      rw [h.1]; exact lev_recon h1 h2 h.2
  | false =>
    simp only [Bool.false_eq_true, if_false] at h
    by_cases hq : (pi || c) = true
    · rw [if_pos hq] at h
      refine ⟨b, Nat.le_refl _, by split <;> omega, ?_⟩
      rw [h.1, recon_zero h1 h2 h.2]
    · rw [if_neg hq] at h
      have hc : c = false := by cases c <;> simp_all
      refine ⟨b + 1, by omega, by rw [hc]; simp, ?_⟩
      rw [h.1, recon_zero h1 h2 h.2]

theorem inv_recon {w h b1 t : Nat} {data : List Int} {F G : List Word} {D : List Int} (hr : ∀ x ∈ data, -2 ^ 31 ≤ x ∧ x < 2 ^ 31) (hl : data.length = w * h)
    (ht : t < 3) (hI : Inv w h (data.map toSmr) b1 t F G D) {R : Nat} (hR : (b1 = 0 ∧ R = 0) ∨ R + t = 3 * b1) :
    D.length = w * h ∧ ∀ y < h, ∀ x < w, ∃ e v, R / 3 ≤ e ∧ e ≤ (R + 2) / 3 ∧ data[eidx w h y x]? = some v ∧ D[y * w + x]? = some (recon e v) := by
  have key : ∀ (b : Nat) (r c : Bool), St w h (data.map toSmr) (maskOf w h) b (fun _ _ => r) (fun _ _ => c) F G D →
      R / 3 ≤ b → (if c then b else b + 1) ≤ (R + 2) / 3 →
      D.length = w * h ∧ ∀ y < h, ∀ x < w, ∃ e v, R / 3 ≤ e ∧ e ≤ (R + 2) / 3 ∧ data[eidx w h y x]? = some v ∧ D[y * w + x]? = some (recon e v) := by
    intro b r c hS hb1 hb2
    refine ⟨hS.dl, fun y hy x hx => ?_⟩
    have hlt : eidx w h y x < data.length := by rw [hl]; exact eidx_lt hy hx
    have hok := hS.ok y hy x hx
    have hv : (data.map toSmr).getD (eidx w h y x) 0 = toSmr data[eidx w h y x] := by
      rw [List.getD_eq_getElem?_getD, List.getElem?_map, List.getElem?_eq_getElem hlt]; rfl
    rw [hv] at hok
    obtain ⟨v1, v2⟩ := hr _ (List.getElem_mem hlt)
    obtain ⟨e, e1, e2, e3⟩ := ok_recon v1 v2 hok
    refine ⟨e, data[eidx w h y x], by omega, by omega, List.getElem?_eq_getElem hlt, ?_⟩
    have hd : y * w + x < D.length := by rw [hS.dl]; exact didx_lt hy hx
    rw [List.getElem?_eq_getElem hd, ← e3, List.getD_eq_getElem?_getD, List.getElem?_eq_getElem hd]
    rfl
  unfold Inv at hI
  split at hI
  · rename_i h0
    exact key b1 true true hI (by omega) (by simp; omega)
  · rename_i h0
    split at hI
    · exact key (b1 - 1) true false hI (by omega) (by simp; omega)
    · exact key (b1 - 1) false false hI (by omega) (by simp; omega)

/-! ## Numbers of passes -/

theorem trace_len {o w h n : Nat} {st : Style} {data : List Nat} : ∀ (fuel b1 t : Nat) {F F' : List Word} {items : List PI}, t < 3 →
    traceLoop o w h n st data fuel b1 t F = some (items, F') → (b1 = 0 ∧ items = []) ∨ items.length + t = 3 * b1 := by
  intro fuel
  induction fuel with
  | zero =>
    intro b1 t F F' items ht he
    cases b1 with
    | zero => left; injection he with he; injection he with h1 h2; exact ⟨rfl, h1.symm⟩
    | succ b => simp [traceLoop] at he
  | succ fuel ih =>
    intro b1 t F F' items ht he
    cases b1 with
    | zero => left; injection he with he; injection he with h1 h2; exact ⟨rfl, h1.symm⟩
    | succ b =>
      right
      unfold traceLoop at he
      rw [Option.bind_eq_some_iff] at he
      obtain ⟨⟨tr, F1⟩, h1, he⟩ := he
      rw [Option.map_eq_some_iff] at he
      obtain ⟨⟨l, F2⟩, h2, he⟩ := he
      injection he with e1 e2
      subst e1
      rw [List.length_cons]
      split at h2
      · rcases ih b 0 (by omega) h2 with ⟨h5, h6⟩ | h5
        · rw [h6]; simp; omega
        · omega
      · rcases ih (b + 1) (t + 1) (by omega) h2 with ⟨h5, h6⟩ | h5
        · omega
        · omega

theorem segs_cnt : ∀ (ps : List Pass) (len k : Nat), ((segsOf len k ps).map Prod.snd).sum = k + ps.length := by
  intro ps
  induction ps with
  | nil =>
    intro len k
    unfold segsOf
    split
    · rename_i h; simp [h]
    · simp
  | cons p l ih =>
    intro len k
    rw [segsOf]
    split
    · simp only [List.map_cons, List.sum_cons, ih, List.length_cons]; omega
    · rw [ih, List.length_cons]; omega

theorem finish_len {mem : List UInt8} {start : Nat} : ∀ {ps out : List Pass} {prev : Nat}, finishRates mem start prev ps = some out →
    out.length = ps.length ∧ ∀ p ∈ ps, p.rate ≠ 0 := by
  intro ps
  induction ps with
  | nil => intro out prev h; injection h with h; subst h; simp
  | cons p l ih =>
    intro out prev h
    unfold finishRates at h
    split at h
    · simp at h
    rename_i hr0
    rw [Option.bind_eq_some_iff] at h
    obtain ⟨b, hb, h⟩ := h
    dsimp only at h
    rw [Option.map_eq_some_iff] at h
    obtain ⟨o1, h, he⟩ := h
    subst he
    obtain ⟨h1, h2⟩ := ih h
    refine ⟨by simp [h1], fun q hq => ?_⟩
    rcases List.mem_cons.mp hq with rfl | hq
    · exact hr0
    · exact h2 q hq

theorem segs_pos {mem : List UInt8} {start : Nat} {ps out : List Pass} {segs : List (Nat × Nat)} (h : RatesC mem start 0 ps segs)
    (hf : finishRates mem start 0 ps = some out) : ∀ sg rest, segs = sg :: rest → 0 < sg.1 := by
  intro sg rest hs
  cases h with
  | nil => simp at hs
  | @seg _ r' qs ps' segs' h hr hg ht =>
    injection hs with h1 h2
    have := (finish_len hf).2 ⟨true, r', 0⟩ (by simp)
    rw [← h1]
    simp at this ⊢
    omega

/-! ## Encoder and decoder -/

theorem flat_bytes {mem ch : List UInt8} {start L : Nat} (x : List UInt8) (h : ch = (mem.drop start).take L) (hl : start + L ≤ mem.length) :
    ch.length = L ∧ bytes (ch ++ x) 0 (0 + L) = bytes mem start (start + L) := by
  have h1 : ch.length = L := by rw [h]; simp; omega
  refine ⟨h1, ?_⟩
  unfold bytes
  rw [Nat.add_sub_cancel_left, Nat.add_sub_cancel_left, List.drop_zero, List.take_left' h1, h]

theorem block_round {o w h : Nat} {st : Style} {data : List Int} {mem : List UInt8} {start : Nat} {c : Coded} (hroom : mem.length + 4 ≤ 2 ^ 32)
    (hr : ∀ x ∈ data, -2 ^ 31 ≤ x ∧ x < 2 ^ 31) (he : encodeCblk o w h st data mem start = some c) {segs : List (Nat × Nat)} (hsegs : segs = segsOf 0 0 c.passes)
    {m : Nat} (hm : m ≤ segs.length) {chunks : List (List UInt8)} (x0 x1 : UInt8)
    (hch : chunks.flatten = (c.mem.drop start).take ((segs.take m).map Prod.fst).sum) {R : Nat} (hR : R + ((segs.take m).map Prod.snd).sum = c.passes.length) :
    ∃ D, decodeCblk o w h 0 c.numbps st chunks x0 x1 (segs.take m) = some (some D) ∧ D.length = w * h ∧
      ∀ y < h, ∀ x < w, ∃ e v, R / 3 ≤ e ∧ e ≤ (R + 2) / 3 ∧ data[eidx w h y x]? = some v ∧ D[y * w + x]? = some (recon e v) := by
  unfold encodeCblk at he
  split at he
  · simp at he
  rename_i hsz
  have hsz1 : sizesOk w h = true := by
    cases hh : sizesOk w h with
    | true => rfl
    | false => exact absurd (Or.inl hh) hsz
  have hlen : data.length = w * h := by
    by_contra hh
    exact hsz (Or.inr hh)
  clear hsz
  dsimp only at he
  have hcase := numbps_cases hr
  generalize numbpsOf ((data.map magOf).foldl max 0) = n at he hcase
  rcases hcase with ⟨hn, hz⟩ | ⟨hn1, hn25, hz⟩
  · -- nothing is coded
    have hc : c = ⟨n, [], mem⟩ := by
      rcases hn with hn | hn
      · rw [if_pos hn] at he
        injection he with he
        rw [← he, hn]
      · rw [if_neg (by omega), if_pos (by omega)] at he
        injection he with he
        exact he.symm
    subst hc
    have hs0 : segs = [] := by rw [hsegs]; rfl
    subst hs0
    rw [List.take_nil] at hR ⊢
    have hR0 : R = 0 := by simpa using hR
    refine ⟨List.replicate (w * h) 0, ?_, by simp, fun y hy x hx => ?_⟩
    · unfold decodeCblk
      rw [if_neg (by rw [hsz1]; simp)]
      dsimp only
      rw [if_neg (by omega)]
      split
      · rfl
      · unfold decSegments
        rfl
    · have hlt : eidx w h y x < data.length := by rw [hlen]; exact eidx_lt hy hx
      refine ⟨0, data[eidx w h y x], by omega, by omega, List.getElem?_eq_getElem hlt, ?_⟩
      obtain ⟨v1, v2⟩ := hr _ (List.getElem_mem hlt)
      rw [recon_zero v1 v2 (by unfold mag; rw [smr_mag v1 v2, hz _ (List.getElem_mem hlt)]; rfl), List.getElem?_replicate, if_pos (didx_lt hy hx)]
  · rw [if_neg (by omega), if_neg (by omega), Option.bind_eq_some_iff] at he
    obtain ⟨s0, hi, he⟩ := he
    rw [Option.bind_eq_some_iff] at he
    obtain ⟨e, hl, he⟩ := he
    rw [Option.map_eq_some_iff] at he
    obtain ⟨out, hfin, he⟩ := he
    subst he
    dsimp only at hsegs hch hR ⊢
    obtain ⟨i1, i2, i3, i4, i5⟩ := Mqc.initEnc_fresh hi
    have hd : ∀ i, (data.map toSmr).getD i 0 < 2 ^ 32 := by
      intro i
      rw [List.getD_eq_getElem?_getD, List.getElem?_map]
      cases hg : data[i]? with
      | none => simp
      | some v =>
        obtain ⟨v1, v2⟩ := hr v (List.mem_of_getElem? hg)
        exact smr_lt v1 v2
    obtain ⟨items, ps, h1, h2, h3⟩ := encLoop_split (3 * n) n 2 hl
    dsimp only at h1 h2 h3
    rw [List.nil_append] at h3
    obtain ⟨hchain, hbits⟩ := trace_chain hd (3 * n) n 2 (by omega) h1
    have hil : items.length + 2 = 3 * n := by
      rcases trace_len (3 * n) n 2 (by omega) h1 with h | h <;> omega
    have hrawh : ∀ x, items.head? = some x → x.raw = false := by
      intro x hx
      rcases trace_head h1 with ⟨g1, g2⟩ | ⟨b, p, l, g1, g2, g3, g4⟩
      · rw [g2] at hx; simp at hx
      · rw [g2] at hx
        injection hx with hx
        rw [← hx, g3]
        unfold rawE
        simp
    obtain ⟨segs', hok⟩ := block_all (o := o) (w := w) (h := h) (n := n) hd i1 (by omega) i4 (by rw [i3]; exact hroom)
      (by intro h0; rw [h0] at hil; simp at hil; omega) hchain hrawh hbits h2
    rw [i3, i5] at hok
    have hbp := hok.le
    have hfit := hok.fits
    have hmlen := hok.len
    have hrates := hok.rates
    rw [Nat.sub_self] at hrates
    obtain ⟨ps', mm, k1, k2, k3⟩ := clamp_rates hrates
    have hnb : numbytes32 e.s = 0 + (segs'.map Prod.fst).sum := by
      unfold numbytes32
      rw [hok.startEq, hok.sum]
      omega
    rw [hnb, h3, k1] at hfin
    dsimp only at hfin
    have hseg' : segs = segs' := by
      rw [hsegs]
      exact finish_rates (by omega) k3 (fun h0 => absurd h0 (by omega)) hfin
    have hpl : out.length = items.length := by
      rw [← hok.cnt, ← hseg', hsegs, segs_cnt]
      omega
    subst hseg'
    obtain ⟨L, hL⟩ : ∃ L, L = ((segs.take m).map Prod.fst).sum := ⟨_, rfl⟩
    have hLle : L ≤ e.s.bp - start := by
      rw [hL, ← hok.sum]
      conv_rhs => rw [← List.take_append_drop m segs]
      rw [List.map_append, List.sum_append]
      omega
    rw [← hL] at hch
    obtain ⟨f1, f2⟩ := flat_bytes [x0, x1] hch (by omega)
    have hinv : Inv w h (data.map toSmr) n 2 (initFlags w h) (initFlags w h) (List.replicate (w * h) 0) := by
      apply inv_start hn1
      intro y hy x hx
      have hlt : eidx w h y x < data.length := by rw [hlen]; exact eidx_lt hy hx
      obtain ⟨v1, v2⟩ := hr _ (List.getElem_mem hlt)
      rw [List.getD_eq_getElem?_getD, List.getElem?_map, List.getElem?_eq_getElem hlt, Option.map_some, Option.getD_some]
      unfold mag
      rw [smr_mag v1 v2]
      exact hz _ (List.getElem_mem hlt)
    obtain ⟨q, fuel', F'', g1, g2, g3, g4, g5⟩ := hok.dec (3 * n) n 2 _ _ _ _ (by omega) hn25 h1 hinv m (chunks.flatten ++ [x0, x1]) 0 hm
      (by rw [← hL]; exact f2) (by rw [← hL]; simp [f1])
    have hcases : (q.bp1 = 0 ∧ R = 0) ∨ R + q.t = 3 * q.bp1 := by
      have hdl : (items.drop ((segs.take m).map Prod.snd).sum).length = R := by
        rw [List.length_drop]
        omega
      rcases trace_len fuel' q.bp1 q.t g2 g4 with ⟨t1, t2⟩ | t2
      · left
        rw [t2] at hdl
        exact ⟨t1, by simpa using hdl.symm⟩
      · right; omega
    have hend := inv_recon hr hlen g2 g5 hcases
    refine ⟨q.d, ?_, hend⟩
    unfold decodeCblk
    rw [if_neg (by rw [hsz1]; simp)]
    dsimp only
    have hbp1 : (0 + n) % 2 ^ 32 = n := by omega
    rw [hbp1, if_neg (by omega), if_pos (show n < 2 ^ 31 by omega)]
    split
    · rename_i hnil
      -- no data: no segment
      have hm0 : segs.take m = [] := by
        cases hsg : segs.take m with
        | nil => rfl
        | cons sg rest =>
          exfalso
          have hpos : 0 < sg.1 := by
            cases hs2 : segs with
            | nil => rw [hs2] at hsg; simp at hsg
            | cons a b =>
              have ha := segs_pos k3 hfin a b hs2
              rw [hs2] at hsg
              cases m with
              | zero => simp at hsg
              | succ m =>
                rw [List.take_succ_cons] at hsg
                injection hsg with h1 h2
                rw [← h1]; exact ha
          rw [hsg] at hL
          simp only [List.map_cons, List.sum_cons] at hL
          rw [hnil] at f1
          simp at f1
          omega
      rw [hm0] at g1
      injection g1 with g1
      rw [← g1]
    · rw [g1]; rfl

end Jp2.T1

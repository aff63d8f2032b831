import Verif.Jp2.HdrMore
import Verif.Jp2.HdrStd
/-!
# Standard segments: what the encoder writes, and what the decoder makes of one more segment
-/
namespace Jp2.Hdr

theorem be_mod (nb v : Nat) : be nb v = be nb (v % 256 ^ nb) := by
  have h := Cio.toBe_fromBe (Cio.toBe nb v)
  rw [Cio.toBe_length, Cio.fromBe_toBe] at h
  exact h.symm

theorem be_congr {nb v w : Nat} (h : v % 256 ^ nb = w % 256 ^ nb) : be nb v = be nb w := by
  rw [be_mod nb v, be_mod nb w, h]

theorem compNumber_eq (n i : Nat) : compNumber n i = be (room n) i := by
  unfold compNumber room
  by_cases h : n < 257
  · rw [if_pos h, if_pos (by omega)]
  · rw [if_neg h, if_neg (by omega)]

/-! ## Bytes of the encoder -/

theorem spBytes_std {t : Tccp} (h : StyleOk {} t) : spBytes t = (styleOf t).bytes := by
  have h1 := h.numres
  have h2 := h.cblkw
  have h3 := h.cblkh
  have h4 := h.qmfbid
  unfold spBytes Style.bytes styleOf
  dsimp only
  have hq : (if (t.qmfbid == 1) = true then 1 else 0) = t.qmfbid := by
    by_cases hq : t.qmfbid = 1
    · rw [hq]; rfl
    · rw [if_neg (by simpa using hq)]; omega
  rw [hq, be_congr (v := t.numres + (2 ^ 32 - 1)) (w := t.numres - 1) (by omega),
    be_congr (v := t.cblkw + (2 ^ 32 - 2)) (w := t.cblkw - 2) (by omega),
    be_congr (v := t.cblkh + (2 ^ 32 - 2)) (w := t.cblkh - 2) (by omega)]
  by_cases hc : t.csty % 2 = 1
  · rw [if_pos (by omega), if_pos hc]
    simp only [Nat.mul_comm 16]
  · rw [if_neg (by omega), if_neg hc]

theorem sqBytes_std {t : Tccp} (h : 1 ≤ t.numres ∧ t.numres ≤ 33) (hq : t.qntsty ≤ 2) (hl : t.steps.length = 97) :
    sqBytes t = (quantOf t).bytes := by
  unfold sqBytes Quant.bytes quantOf
  dsimp only
  by_cases h0 : t.qntsty = 0
  · rw [if_pos h0, if_pos h0, numBands_eq h (by omega), h0]
    unfold Steps.tag Steps.bytes
    dsimp only
    rw [List.flatMap_map]
    simp only [Nat.mul_comm 8, Nat.mul_comm 32, Nat.zero_add, Nat.add_zero]
    rfl
  rw [if_neg h0, if_neg h0]
  by_cases h1 : t.qntsty = 1
  · rw [if_pos h1]
    unfold numBands
    rw [if_pos h1]
    unfold Steps.tag Steps.bytes
    dsimp only
    cases hs : t.steps with
    | nil => rw [hs] at hl; simp at hl
    | cons s l =>
      simp only [List.take_succ_cons, List.take_zero, List.flatMap_cons, List.flatMap_nil, List.append_nil, List.headD_cons]
      rw [h1, show 1 + t.numgbits * 2 ^ 5 = 32 * t.numgbits + 1 by omega, show s.1 * 2 ^ 11 + s.2 = 2048 * s.1 + s.2 by omega]
  · rw [if_neg h1, numBands_eq h h1]
    unfold Steps.tag Steps.bytes
    dsimp only
    rw [show t.qntsty + t.numgbits * 2 ^ 5 = 32 * t.numgbits + 2 by omega]
    simp only [Nat.mul_comm 2048]
    rfl

theorem sameQuant_iff {a b : Tccp} (hn : a.numres = b.numres) (hr : 1 ≤ a.numres ∧ a.numres ≤ 33) (ha : a.qntsty ≤ 2)
    (hb : b.qntsty ≤ 2) (hla : a.steps.length = 97) (hlb : b.steps.length = 97) : sameQuant a b = true ↔ quantOf b = quantOf a := by
  unfold sameQuant quantOf
  simp only [Bool.and_eq_true, Bool.or_eq_true, beq_iff_eq, Quant.mk.injEq]
  constructor
  · rintro ⟨⟨⟨⟨h1, h2⟩, h3⟩, h4⟩, h5⟩
    refine ⟨h2.symm, ?_⟩
    rw [← h1, ← hn]
    by_cases h0 : a.qntsty = 0
    · rw [if_pos h0, if_pos h0]
      rw [numBands_eq hr (by omega)] at h4
      rw [List.map_take, List.map_take] at h4 ⊢
      rw [h4]
    rw [if_neg h0, if_neg h0]
    have h5' := h5.resolve_left h0
    by_cases h1' : a.qntsty = 1
    · rw [if_pos h1', if_pos h1']
      unfold numBands at h4 h5'
      rw [if_pos h1'] at h4 h5'
      cases hs : a.steps with
      | nil => rw [hs] at hla; simp at hla
      | cons s l =>
        cases hs' : b.steps with
        | nil => rw [hs'] at hlb; simp at hlb
        | cons s' l' =>
          rw [hs, hs'] at h4 h5'
          simp at h4 h5'
          simp [h4, h5']
    · rw [if_neg h1', if_neg h1']
      rw [numBands_eq hr h1'] at h4 h5'
      congr 1
      refine List.ext_getElem? fun i => ?_
      have e1 := congrArg (fun l => l[i]?) h4
      have e2 := congrArg (fun l => l[i]?) h5'
      simp only [List.getElem?_map] at e1 e2
      cases ha' : (a.steps.take (3 * a.numres - 2))[i]? with
      | none => rw [ha'] at e1; cases hb' : (b.steps.take (3 * a.numres - 2))[i]? with
        | none => rfl
        | some y => rw [hb'] at e1; cases e1
      | some x =>
        cases hb' : (b.steps.take (3 * a.numres - 2))[i]? with
        | none => rw [ha', hb'] at e1; cases e1
        | some y =>
          rw [ha', hb'] at e1 e2
          simp at e1 e2
          rw [Prod.ext_iff.2 ⟨e1, e2⟩]
  · rintro ⟨h2, h⟩
    have hq : a.qntsty = b.qntsty := by
      by_cases a0 : a.qntsty = 0
      · rw [if_pos a0] at h
        by_cases b0 : b.qntsty = 0
        · omega
        · rw [if_neg b0] at h
          by_cases b1 : b.qntsty = 1
          · rw [if_pos b1] at h; cases h
          · rw [if_neg b1] at h; cases h
      · rw [if_neg a0] at h
        by_cases a1 : a.qntsty = 1
        · rw [if_pos a1] at h
          by_cases b0 : b.qntsty = 0
          · rw [if_pos b0] at h; cases h
          · rw [if_neg b0] at h
            by_cases b1 : b.qntsty = 1
            · omega
            · rw [if_neg b1] at h; cases h
        · rw [if_neg a1] at h
          by_cases b0 : b.qntsty = 0
          · rw [if_pos b0] at h; cases h
          · rw [if_neg b0] at h
            by_cases b1 : b.qntsty = 1
            · rw [if_pos b1] at h; cases h
            · omega
    rw [← hq, ← hn] at h
    have hnb : numBands a = numBands b := by unfold numBands; rw [hq, hn]
    by_cases h0 : a.qntsty = 0
    · rw [if_pos h0, if_pos h0] at h
      injection h with h
      rw [numBands_eq hr (by omega)]
      refine ⟨⟨⟨⟨hq, h2.symm⟩, Or.inr ?_⟩, h.symm⟩, Or.inl h0⟩
      rw [← hnb, numBands_eq hr (by omega)]
    rw [if_neg h0, if_neg h0] at h
    by_cases h1 : a.qntsty = 1
    · rw [if_pos h1, if_pos h1] at h
      injection h with e1 e2
      have : numBands a = 1 := by unfold numBands; rw [if_pos h1]
      rw [this]
      cases hs : a.steps with
      | nil => rw [hs] at hla; simp at hla
      | cons s l =>
        cases hs' : b.steps with
        | nil => rw [hs'] at hlb; simp at hlb
        | cons s' l' =>
          rw [hs, hs'] at e1 e2
          simp at e1 e2
          refine ⟨⟨⟨⟨hq, h2.symm⟩, Or.inl h1⟩, ?_⟩, Or.inr ?_⟩
          · simp [e1]
          · simp [e2]
    · rw [if_neg h1, if_neg h1] at h
      injection h with h
      refine ⟨⟨⟨⟨hq, h2.symm⟩, Or.inr hnb⟩, ?_⟩, Or.inr ?_⟩
      · rw [numBands_eq hr h1, h]
      · rw [numBands_eq hr h1, h]

theorem writeQccs_std {e : Enc} {t : Tccp} {ts : List Tccp} (hw : Writable e) (hsh : SharedStyle e) (ht : e.tccps = t :: ts)
    (hq : ∀ x ∈ e.tccps, x.qntsty ≤ 2) : ∀ (l : List Tccp) (i : Nat), (∀ x ∈ l, x ∈ e.tccps) →
    writeQccs e i l = .ok (stdQccs e.comps.length t i l)
  | [], _, _ => rfl
  | x :: l, i, h => by
    have hm : t ∈ e.tccps := by rw [ht]; simp
    have hx := h x (by simp)
    have hr := (hw.style t hm).numres
    have hrx := (hw.style x hx).numres
    have hlt := (hw.quant t hm).steps_len
    have hlx := (hw.quant x hx).steps_len
    have iff := sameQuant_iff (hsh t hm x hx).1 hr (hq t hm) (hq x hx) hlt hlx
    unfold writeQccs stdQccs first
    rw [ht]
    dsimp only
    rw [ok_bind, writeQccs_std hw hsh ht hq l (i + 1) (fun y hy => h y (by simp [hy]))]
    by_cases hs : sameQuant t x = true
    · rw [if_pos hs, if_pos (iff.1 hs)]; rfl
    · rw [if_neg hs, if_neg (fun hc => hs (iff.2 hc)), (writeQcc_eq hrx hlx).1]
      unfold qccBody qccBodyStd
      rw [compNumber_eq, sqBytes_std hrx (hq x hx) hlx]
      rfl

theorem writeRgns_std {e : Enc} : ∀ (l : List Tccp) (i : Nat), writeRgns e i l = stdRgns e.comps.length i l
  | [], _ => rfl
  | t :: l, i => by
    unfold writeRgns stdRgns
    rw [writeRgns_std l (i + 1)]
    congr 1
    by_cases h : t.roishift = 0
    · rw [if_neg (by simpa using h), if_pos h]
    · rw [if_pos h, if_neg h]
      unfold writeRgn segment rgnBodyStd
      rw [compNumber_eq]
      simp only [List.length_append, be_len, List.append_assoc]
      rw [show room e.comps.length + (1 + 1) + 2 = 4 + room e.comps.length by omega]

theorem writeTlm_std {o : Option Nat} (h : ∀ n, o = some n → n ≤ 10921) : writeTlmIf o = .ok (stdTlm o) := by
  cases o with
  | none => rfl
  | some n =>
    have := h n rfl
    unfold writeTlmIf writeTlm stdTlm segment
    dsimp only
    rw [refuse_bind (by omega)]
    by_cases hn : n ≤ 255
    · rw [if_pos hn, if_pos hn, if_pos hn]
      simp only [List.length_append, be_len, List.append_assoc, List.length_replicate]
      rw [show 1 + (1 + 5 * n) + 2 = 4 + 5 * n by omega]
      rfl
    · rw [if_neg hn, if_neg hn, if_neg hn]
      simp only [List.length_append, be_len, List.append_assoc, List.length_replicate]
      rw [show 1 + (1 + 6 * n) + 2 = 4 + 6 * n by omega]
      rfl

theorem writeCom_std (o : Option (List UInt8)) : writeComIf o = stdCom o := by
  cases o with
  | none => rfl
  | some c =>
    unfold writeComIf writeCom stdCom segment
    simp only [List.length_append, be_len, List.append_assoc]
    rw [show 2 + c.length + 2 = c.length + 4 by omega]

theorem flatMap_congr' {α β : Type} {f g : α → List β} : ∀ {l : List α}, (∀ c ∈ l, f c = g c) → l.flatMap f = l.flatMap g
  | [], _ => rfl
  | c :: l, h => by
    rw [List.flatMap_cons, List.flatMap_cons, h c (by simp), flatMap_congr' fun x hx => h x (by simp [hx])]

theorem comps_std (l : List Comp) (h : ∀ c ∈ l, (1 ≤ c.prec ∧ c.prec ≤ 31) ∧ c.sgnd ≤ 1) :
    (l.flatMap fun c => be 1 ((c.prec + (2 ^ 32 - 1) + c.sgnd * 2 ^ 7) % 2 ^ 32) ++ be 1 c.dx ++ be 1 c.dy) =
    l.flatMap fun c => be 1 (c.prec - 1 + 128 * c.sgnd) ++ be 1 c.dx ++ be 1 c.dy := by
  refine flatMap_congr' fun c hc => ?_
  have h0 := h c hc
  have e1 : (c.prec + (2 ^ 32 - 1) + c.sgnd * 2 ^ 7) % 2 ^ 32 = c.prec - 1 + 128 * c.sgnd := by omega
  rw [e1]

theorem writeSiz_std {e : Enc} (hw : Writable e) : writeSiz e = stdSiz e := by
  rw [writeSiz_eq]
  unfold stdSiz sizBody
  rw [comps_std e.comps fun c hc => ⟨(hw.comps c hc).1, (hw.comps c hc).2.1⟩]
  simp only [List.append_assoc]

end Jp2.Hdr

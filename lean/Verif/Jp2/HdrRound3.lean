import Verif.Jp2.HdrRound2
/-!
# A written header is read back: the whole header
-/
namespace Jp2.Hdr

/-- A decoder before the first marker segment. -/
def Start (d : Dec) : Prop := ∃ b, d = { buf := b }

theorem chunk_siz {u : User} {e : Enc} (hw : Writable e) (hs : Suits u e) :
    Chunk u Start (writeSiz e) 1
      (Stage e false false (fun _ _ r => r.prcs.length = 33 ∧ r.steps.length = 97 ∧ r.roishift = 0)) := by
  rw [writeSiz_eq]
  have hcl := hw.comps_len
  refine chunk_seg (by omega) (by omega) (by decide) (by omega) (by rw [sizBody_len]; omega) ?_ ?_
  · rintro d ⟨b, rfl⟩; rfl
  · rintro d tail ⟨b, rfl⟩
    exact readSiz_eq (d := flag 0xFF51 { buf := b } (sizBody e ++ tail)) tail hw hs rfl rfl rfl rfl rfl rfl

theorem chunk_cod {u : User} {e : Enc} {t : Tccp} {ts : List Tccp} (hw : Writable e) (hsh : SharedStyle e) (hs : Suits u e)
    (ht : e.tccps = t :: ts) :
    Chunk u (Stage e false false (fun _ _ r => r.prcs.length = 33 ∧ r.steps.length = 97 ∧ r.roishift = 0))
      (seg 0xFF52 (codBody e t)) 1 (Stage e true false (fun _ w r => AfterCod w r)) := by
  have hm : t ∈ e.tccps := by rw [ht]; simp
  have hst := hw.style t hm
  have hl := (writeCod_eq ht (hw.prcs_len t hm) hst.numres.2).2
  have hsz : spcodSize t ≤ 38 := by have := hst.numres; unfold spcodSize; split <;> omega
  refine chunk_seg (by omega) (by omega) (by decide) (by omega) (by omega) (fun d hd => by rw [hd.siz]; rfl) ?_
  intro d tail hd
  exact readCod_eq tail hw hsh hs ht hd

theorem chunk_qcd {u : User} {e : Enc} {t : Tccp} {ts : List Tccp} (hw : Writable e) (ht : e.tccps = t :: ts) :
    Chunk u (Stage e true false (fun _ w r => AfterCod w r)) (seg 0xFF5C (sqBytes t)) 1
      (Stage e true true (fun _ w r => AfterQcd t w r)) := by
  have hm : t ∈ e.tccps := by rw [ht]; simp
  have hst := hw.style t hm
  have hsz : sqcdSize t ≤ 1 + 2 * 97 := by
    have := numBands_le hst.numres
    unfold sqcdSize; split <;> omega
  have hl := sqBytes_len hst.numres (hw.quant t hm).steps_len
  refine chunk_seg (by omega) (by omega) (by decide) (by omega) (by omega) (fun d hd => by rw [hd.siz]; rfl) ?_
  intro d tail hd
  exact readQcd_eq tail hw ht hd

theorem writeCocs_eq {e : Enc} {junk : List UInt8} {t : Tccp} {ts : List Tccp} (hw : Writable e) (hsh : SharedStyle e)
    (ht : e.tccps = t :: ts) : ∀ (l : List Tccp) (i : Nat), (∀ x ∈ l, x ∈ e.tccps) → writeCocs e junk i l = .ok []
  | [], _, _ => rfl
  | x :: l, i, h => by
    have hm : t ∈ e.tccps := by rw [ht]; simp
    have hx := h x (by simp)
    have hss : sameStyle t x = true := by
      obtain ⟨h1, h2, h3, h4, h5, h6⟩ := hsh t hm x hx
      unfold sameStyle
      simp only [Bool.and_eq_true, beq_iff_eq]
      refine ⟨⟨⟨⟨⟨⟨?_, h1⟩, h2⟩, h3⟩, h4⟩, h5⟩, ?_⟩
      · rw [hw.prt t hm, hw.prt x hx]
      · rw [h6, h1]
    unfold writeCocs first
    rw [ht]
    dsimp only
    rw [ok_bind, if_pos hss, pure_bind', writeCocs_eq hw hsh ht l (i + 1) (fun y hy => h y (by simp [hy]))]
    rfl

/-- Everything up to the comment. -/
theorem header_chunk {u : User} {e : Enc} (junk : List UInt8) (hw : Writable e) (hsh : SharedStyle e) (hs : Suits u e) :
    ∃ b n, (∀ c, writeHeader { e with comment := c } junk = .ok (be 2 0xFF4F ++ (b ++ writeComIf c))) ∧
      Chunk u Start b n (Stage e true true (RgnRel e.tccps.length)) := by
  have hcl := hw.comps_len
  have htl := hw.tccps
  obtain ⟨t, ts, ht⟩ : ∃ t ts, e.tccps = t :: ts := by
    cases h : e.tccps with
    | nil => rw [h] at htl; simp at htl; omega
    | cons t ts => exact ⟨t, ts, rfl⟩
  have hm : t ∈ e.tccps := by rw [ht]; simp
  have hst := hw.style t hm
  have hqt := hw.quant t hm
  obtain ⟨qb, qn, hqb, hqc⟩ := chunk_qccs (u := u) hw hsh (t := t) (by rw [ht]; rfl) ts 1 (fun j => by
    rw [ht, Nat.add_comm, List.getElem?_cons_succ])
  obtain ⟨rn, hrc⟩ := chunk_rgns (u := u) hw e.tccps 0 (fun j => by rw [Nat.zero_add])
  rw [Nat.zero_add] at hrc
  have hq1 : ∀ d, Stage e true true (fun _ w r => AfterQcd t w r) d → Stage e true true (QccRel t 1) d := fun d hd =>
    hd.mono fun j w r hj _ h => by
      unfold QccRel
      by_cases h0 : j < 1
      · obtain rfl : j = 0 := by omega
        rw [ht] at hj
        simp at hj
        subst hj
        rw [if_pos (by omega)]; exact h
      · rw [if_neg h0]; exact h
  have hq2 : ∀ d, Stage e true true (QccRel t (1 + ts.length)) d → Stage e true true (RgnRel 0) d := fun d hd =>
    hd.mono fun j w r hj _ h => by
      unfold QccRel at h
      have hjl : j < e.tccps.length := (List.getElem?_eq_some_iff.1 hj).1
      rw [ht, List.length_cons] at hjl
      rw [if_pos (by omega)] at h
      exact ⟨h.style, h.quant, h.roi⟩
  have chain := ((chunk_siz hw hs).append (chunk_cod hw hsh hs ht)).append (chunk_qcd (u := u) hw ht)
  have chain2 := chain.append (hqc.mono hq1 hq2)
  obtain ⟨tb, tn, htb, htc⟩ : ∃ tb tn, writeTlmIf e.tlm = .ok tb ∧
      Chunk u (Stage e true true (RgnRel 0)) tb tn (Stage e true true (RgnRel 0)) := by
    cases h : e.tlm with
    | none => exact ⟨[], 0, rfl, Chunk.nil _ _⟩
    | some n =>
      obtain ⟨b, hb, hc⟩ := chunk_tlm (u := u) (e := e) (T := RgnRel 0) (hw.tlm n h)
      exact ⟨b, 1, hb, hc⟩
  have chain3 := (chain2.append htc).append hrc
  refine ⟨_, _, fun c => ?_, chain3⟩
  have w1 : writeCod { e with comment := c } = writeCod e := rfl
  have w2 : writeQcd { e with comment := c } = writeQcd e := rfl
  have w3 : ∀ (l : List Tccp) (i : Nat), writeCocs { e with comment := c } junk i l = writeCocs e junk i l := by
    intro l
    induction l with
    | nil => intro i; rfl
    | cons a l ih => intro i; unfold writeCocs; rw [ih]; rfl
  have w4 : ∀ (l : List Tccp) (i : Nat), writeQccs { e with comment := c } i l = writeQccs e i l := by
    intro l
    induction l with
    | nil => intro i; rfl
    | cons a l ih => intro i; unfold writeQccs; rw [ih]; rfl
  have w5 : ∀ (l : List Tccp) (i : Nat), writeRgns { e with comment := c } i l = writeRgns e i l := by
    intro l
    induction l with
    | nil => intro i; rfl
    | cons a l ih => intro i; unfold writeRgns; rw [ih]; rfl
  unfold writeHeader
  rw [w1, w2, w3, w4, w5, (writeCod_eq ht (hw.prcs_len t hm) hst.numres.2).1, ok_bind, writeQcd_eq ht hst.numres hqt.steps_len,
    ok_bind, writeCocs_eq hw hsh ht _ 1 (fun x hx => by
      dsimp only at hx
      rw [ht] at hx ⊢
      exact List.mem_of_mem_tail hx), ok_bind]
  dsimp only
  have htail : e.tccps.tail = ts := by rw [ht]; rfl
  rw [htail, hqb, ok_bind, htb, ok_bind]
  have w6 : writeSiz { e with comment := c } = writeSiz e := rfl
  rw [w6]
  simp only [List.append_assoc, List.nil_append]
  rfl

/-- Reading the segments after the start of the codestream. -/
theorem readHeader_chunk {u : User} {P : Dec → Prop} {b : List UInt8} {n : Nat} (h : Chunk u Start b n P) (tail : List UInt8)
    (ht : 2 ≤ tail.length) :
    ∃ d, P d ∧ ∃ fuel, readHeader u (be 2 0xFF4F ++ (b ++ tail)) = (do
      let (d, s) ← resume u fuel d tail
      refuseIf (d.hasSiz = false)
      refuseIf (d.hasCod = false)
      refuseIf (d.hasQcd = false)
      let d ← mergePpm d
      return (d, s)) ∧ fuel + n = b.length + tail.length - 2 + 1 := by
  obtain ⟨d, hd, he⟩ := h.2 {} ⟨_, rfl⟩
  have h4 := h.1
  refine ⟨d, hd, b.length + tail.length - 2 + 1 - n, ?_, by omega⟩
  rw [← he]
  have hf : b.length + tail.length - 2 + 1 - n + n = b.length + tail.length - 2 + 1 := by omega
  rw [hf]
  unfold readHeader resume
  have hl := be_len 2 0xFF4F
  rw [refuse_bind (by rw [List.length_append, hl]; omega), next_be _ (by omega) (by omega), ok_bind]
  dsimp only
  rw [refuse_bind (by simp)]
  have hlen : 2 ≤ (b ++ tail).length := by rw [List.length_append]; omega
  unfold load
  rw [if_neg (by omega)]
  simp only [ok_bind]
  have hdl : ((b ++ tail).drop 2).length = b.length + tail.length - 2 := by
    rw [List.length_drop, List.length_append]
  rw [hdl]
  cases next 2 ((b ++ tail).take 2 ++ (List.replicate 1000 (0 : UInt8)).drop 2) with
  | error e => rfl
  | ok r => rfl

theorem forall₂_of_get {α β : Type} {P : α → β → Prop} : ∀ (l : List α) (l' : List β) (hl : l.length = l'.length),
    (∀ i (h : i < l.length), P l[i] (l'[i]'(by omega))) → List.Forall₂ P l l'
  | [], [], _, _ => .nil
  | a :: l, b :: l', hl, h => .cons (h 0 (by simp)) (forall₂_of_get l l' (by simpa using hl) fun i hi => h (i + 1) (by simpa using hi))

/-- The end of a written header. -/
theorem Stage.same {e : Enc} {d : Dec} (hw : Writable e) (h : Stage e true true (RgnRel e.tccps.length) d) : SameHeader e d := by
  obtain ⟨h1, h2, h3, h4⟩ := h.head rfl
  refine ⟨h.rsiz, h.image, h.tiles, h.comps, h1, h2, h3, h4, h.pocs, ?_, h.shift⟩
  have hl := h.tlen
  have hl' := hw.tccps
  refine forall₂_of_get _ _ (by omega) fun i h1 => ?_
  obtain ⟨a, b, c⟩ := h.rel i _ _ (List.getElem?_eq_getElem (show i < e.tccps.length by omega))
    (List.getElem?_eq_getElem (show i < d.tcp.tccps.length by omega))
  rw [if_pos (by omega)] at c
  exact ⟨a.csty, a.numres, a.cblkw, a.cblkh, a.cblksty, a.qmfbid, a.prcs, b.qntsty, b.numgbits, b.steps, c⟩

end Jp2.Hdr

import Verif.Jp2.TpWriteParts
import Verif.Jp2.HdrStdProps
/-!
# The main header with its tile-part lengths filled in
-/
namespace Jp2.Hdr

theorem chunk_tlm_any {u : User} {e : Enc} {T : Nat → Tccp → Tccp → Prop} {n : Nat} (hn : n ≤ 10921) (x : List UInt8)
    (hx : x.length = (if n ≤ 255 then 5 else 6) * n) :
    Chunk u (Stage e true true T) (segment 0xFF55 (be 1 0 ++ be 1 (if n ≤ 255 then 0x50 else 0x60) ++ x)) 1 (Stage e true true T) := by
  obtain ⟨per, hper⟩ : ∃ per, per = if n ≤ 255 then 5 else 6 := ⟨_, rfl⟩
  rw [← hper] at hx
  obtain ⟨b, hb⟩ : ∃ b, b = be 1 0 ++ be 1 (if n ≤ 255 then 0x50 else 0x60) ++ x := ⟨_, rfl⟩
  have hlen : b.length = 2 + per * n := by
    rw [hb]; simp only [List.length_append, be_len, hx]
  rw [← hb]
  have hpn : per * n ≤ 65526 := by
    rw [hper]; split <;> omega
  refine chunk_seg (by omega) (by omega) (by decide) (by omega) (by omega) (fun d hd => by rw [hd.siz]; rfl) ?_
  intro d tail hd
  have hf := hd.flag (m := 0xFF55) (b := b ++ tail) (by omega) (by omega) (by omega)
  refine ⟨_, ?_, hf⟩
  show readTlm _ _ _ = _
  unfold readTlm
  rw [hlen, refuse_bind (by omega)]
  obtain ⟨buf, hbuf⟩ : ∃ buf, buf = b ++ tail := ⟨_, rfl⟩
  rw [← hbuf, show buf = be 1 0 ++ (be 1 (if n ≤ 255 then 0x50 else 0x60) ++ (x ++ tail)) by
    rw [hbuf, hb]; simp only [List.append_assoc]]
  rw [next_be _ (by omega) (by omega), ok_bind]
  dsimp only
  rw [next_be _ (by omega) (by split <;> omega), ok_bind]
  dsimp only
  rw [refuse_bind]
  · rfl
  · rw [hper, show ∀ a, 2 + a - 2 = a by omega]
    split <;> simp

end Jp2.Hdr

namespace Jp2.Tp
open Jp2.Hdr

/-- What precedes `TLM`. -/
def headA (e : Enc) : List UInt8 :=
  match e.tccps with
  | [] => []
  | t :: ts => be 2 0xFF4F ++ Hdr.stdSiz e ++ Hdr.stdCod e t ++ Hdr.stdQcd t ++ Hdr.stdQccs e.comps.length t 1 ts

/-- What follows it. -/
def headB (e : Enc) : List UInt8 :=
  match e.tccps with
  | [] => []
  | t :: ts => Hdr.stdRgns e.comps.length 0 (t :: ts) ++ Hdr.stdCom e.comment

theorem headerWith_eq {e : Enc} (h : e.tccps ≠ []) (x : List UInt8) : headerWith e x = headA e ++ (x ++ headB e) := by
  unfold headerWith headA headB
  cases he : e.tccps with
  | nil => exact absurd he h
  | cons t ts => simp only [List.append_assoc]

theorem tccps_ne {e : Enc} (hw : Writable e) : e.tccps ≠ [] := by
  intro h
  have h1 := hw.tccps
  have h2 := hw.comps_len
  rw [h, List.length_nil] at h1
  omega

theorem tlmStart_is {e : Enc} (junk : List UInt8) (hw : Writable e) (hsh : SharedStyle e) (hq : ∀ t ∈ e.tccps, t.qntsty ≤ 2) :
    tlmStart e junk = .ok (headA e).length := by
  cases ht : e.tccps with
  | nil => exact absurd ht (tccps_ne hw)
  | cons t ts =>
    have hm : t ∈ e.tccps := by rw [ht]; simp
    have hst := hw.style t hm
    have hqt := hw.quant t hm
    have hsub : ∀ x ∈ e.tccps.tail, x ∈ e.tccps := fun x hx => List.mem_of_mem_tail hx
    unfold tlmStart headA
    rw [(writeCod_eq ht (hw.prcs_len t hm) hst.numres.2).1, ok_bind, writeQcd_eq ht hst.numres hqt.steps_len, ok_bind,
      writeCocs_eq hw hsh ht _ 1 hsub, ok_bind, writeQccs_std hw hsh ht hq _ 1 hsub, ok_bind, writeSiz_std hw, ht]
    dsimp only
    unfold codBody stdCod stdQcd
    rw [spBytes_std hst, sqBytes_std hst.numres (hq t hm) hqt.steps_len, List.append_nil]
    rfl

/-- Reading a header with any `TLM` in it. -/
theorem read_with {u : User} {e : Enc} (hw : Writable e) (hsh : SharedStyle e) (hs : Suits u e) (hq : ∀ t ∈ e.tccps, t.qntsty ≤ 2)
    {tb : List UInt8} {tn : Nat} (htc : Chunk u (Stage e true true (RgnRel 0)) tb tn (Stage e true true (RgnRel 0))) (rest : List UInt8) :
    ∃ d, readHeader u (headerWith e tb ++ (be 2 0xFF90 ++ rest)) = .ok (d, rest) ∧ SameHeader e d ∧ d.ppm = false := by
  obtain ⟨t, ts, ht⟩ : ∃ t ts, e.tccps = t :: ts := by
    cases h : e.tccps with
    | nil => exact absurd h (tccps_ne hw)
    | cons t ts => exact ⟨t, ts, rfl⟩
  have hm : t ∈ e.tccps := by rw [ht]; simp
  have hst := hw.style t hm
  have hqt := hw.quant t hm
  obtain ⟨qb, qn, hqb, hqc⟩ := chunk_qccs (u := u) hw hsh (t := t) (by rw [ht]; rfl) ts 1 (fun j => by
    rw [ht, Nat.add_comm, List.getElem?_cons_succ])
  obtain ⟨rn, hrc⟩ := chunk_rgns (u := u) hw e.tccps 0 (fun j => by rw [Nat.zero_add])
  rw [Nat.zero_add] at hrc
  have hq1 : ∀ d, Stage e true true (fun _ w r => AfterQcd t w r) d → Stage e true true (QccRel t 1) d := fun d hd =>
    hd.mono fun j w r hj _ h => by
      unfold QccRel
      by_cases h0 : j < 1
      · obtain rfl : j = 0 := by omega
        rw [ht] at hj
        simp at hj
        subst hj
        rw [if_pos (by omega)]; exact h
      · rw [if_neg h0]; exact h
  have hq2 : ∀ d, Stage e true true (QccRel t (1 + ts.length)) d → Stage e true true (RgnRel 0) d := fun d hd =>
    hd.mono fun j w r hj _ h => by
      unfold QccRel at h
      have hjl : j < e.tccps.length := (List.getElem?_eq_some_iff.1 hj).1
      rw [ht, List.length_cons] at hjl
      rw [if_pos (by omega)] at h
      exact ⟨h.style, h.quant, h.roi⟩
  have chain := ((chunk_siz hw hs).append (chunk_cod hw hsh hs ht)).append (chunk_qcd (u := u) hw ht)
  have chain2 := chain.append (hqc.mono hq1 hq2)
  have chain3 := (chain2.append htc).append hrc
  obtain ⟨n', hc'⟩ : ∃ n', Chunk u Start (writeSiz e ++ seg 0xFF52 (codBody e t) ++ seg 0xFF5C (sqBytes t) ++ qb ++ tb ++
      writeRgns e 0 e.tccps ++ writeComIf e.comment) n' (Stage e true true (RgnRel e.tccps.length)) := by
    cases h : e.comment with
    | none => exact ⟨_, chain3.append (Chunk.nil _ _)⟩
    | some c => exact ⟨_, chain3.append (chunk_com (hw.comment c h))⟩
  have hsub : ∀ x ∈ ts, x ∈ e.tccps := fun x hx => by rw [ht]; simp [hx]
  rw [writeQccs_std hw hsh ht hq ts 1 hsub] at hqb
  have hqb' : stdQccs e.comps.length t 1 ts = qb := by injection hqb
  have hhead : headerWith e tb = be 2 0xFF4F ++ (writeSiz e ++ seg 0xFF52 (codBody e t) ++ seg 0xFF5C (sqBytes t) ++ qb ++ tb ++
      writeRgns e 0 e.tccps ++ writeComIf e.comment) := by
    unfold headerWith
    rw [writeRgns_std, writeCom_std, writeSiz_std hw, ← hqb', ht]
    dsimp only
    unfold codBody stdCod stdQcd
    rw [spBytes_std hst, sqBytes_std hst.numres (hq t hm) hqt.steps_len]
    unfold seg
    simp only [List.append_assoc]
  obtain ⟨d, hd, fuel, hr, _⟩ := readHeader_chunk hc' (be 2 0xFF90 ++ rest) (by rw [List.length_append, be_len]; omega)
  obtain ⟨b', hb'⟩ := resume_sot u fuel d rest
  have hst' : Stage e true true (RgnRel e.tccps.length) { d with buf := b' } :=
    ⟨hd.rsiz, hd.image, hd.tiles, hd.comps, hd.clen, hd.tlen, hd.head, hd.pocs, hd.shift, hd.siz, hd.hasSiz, hd.hasCod, hd.hasQcd,
      hd.ppm, hd.ppms, hd.rel⟩
  refine ⟨{ d with buf := b' }, ?_, hst'.same hw, hd.ppm⟩
  rw [hhead, List.append_assoc, hr, hb', ok_bind]
  dsimp only
  rw [refuse_bind (by rw [hd.hasSiz]; simp), refuse_bind (by rw [hd.hasCod]; simp), refuse_bind (by rw [hd.hasQcd]; simp)]
  unfold mergePpm
  rw [if_pos hd.ppm]
  rfl

end Jp2.Tp

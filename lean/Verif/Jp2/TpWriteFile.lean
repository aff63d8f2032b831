import Verif.Jp2.TpWriteHead
import Verif.Jp2.TpFullProps
/-!
# The whole codestream the encoder writes
-/
namespace Jp2.Tp
open Jp2.Hdr (R be bind_ok be_len refuseIf Enc Writable SharedStyle Suits)
open Jp2.Box (refuse_ok)

theorem PartsOf.len {c : Cfg} {code : Coder} {tile n k : Nat} {f : List (Nat × List UInt8)} {xs : List (Nat × Nat)} {ps : List Part}
    (h : PartsOf c code tile n k f xs ps) : ps.length = xs.length := by
  induction h with
  | nil => rfl
  | cons _ _ _ _ _ ih => rw [List.length_cons, List.length_cons, ih]

theorem PartsOf.mem {c : Cfg} {code : Coder} {tile n k : Nat} {f : List (Nat × List UInt8)} {xs : List (Nat × Nat)} {ps : List Part}
    (h : PartsOf c code tile n k f xs ps) : ∀ p ∈ ps, p.tile = tile ∧ p.count = n := by
  induction h with
  | nil => simp
  | cons h1 _ h3 _ _ ih =>
    intro p hp
    rcases List.mem_cons.1 hp with rfl | hp
    · exact ⟨h1, h3⟩
    · exact ih p hp

theorem PartsOf.num {c : Cfg} {code : Coder} {tile n k : Nat} {f : List (Nat × List UInt8)} {xs : List (Nat × Nat)} {ps : List Part}
    (h : PartsOf c code tile n k f xs ps) : ∀ a p b, ps = a ++ p :: b → p.num = k + a.length := by
  induction h with
  | nil => intro a p b e; simp at e
  | cons _ h2 _ _ _ ih =>
    intro a p b e
    cases a with
    | nil => simp at e; rw [← e.1, h2]; rfl
    | cons y a =>
      simp at e
      have := ih a p b e.2
      rw [this, List.length_cons]; omega

theorem cnt_same {ps : List Part} {tile : Nat} (h : ∀ p ∈ ps, p.tile = tile) : cnt ps tile = ps.length := by
  unfold cnt
  rw [List.countP_eq_length]
  intro p hp
  simp [h p hp]

theorem cnt_none {ps : List Part} {i : Nat} (h : ∀ p ∈ ps, p.tile ≠ i) : cnt ps i = 0 := by
  unfold cnt
  rw [List.countP_eq_zero]
  intro p hp
  simp [h p hp]

theorem schedule_len (ns : List Nat) : (schedule ns).length = ns.sum := by
  have : ∀ i, (scheduleFrom i ns).length = ns.sum := by
    induction ns with
    | nil => intro i; rfl
    | cons n ns ih =>
      intro i
      have := ih (i + 1)
      unfold scheduleFrom at this ⊢
      rw [List.zipIdx_cons, List.flatMap_cons, List.length_append, this]
      simp
  exact this 0

/-- What is needed of the tile-parts of all tiles. -/
structure Shape (i : Nat) (ts : List (List Hdr.Change × List Nat)) (ps : List Part) : Prop where
  tile : ∀ p ∈ ps, i ≤ p.tile ∧ p.tile < i + ts.length
  order : ∀ a p b, ps = a ++ p :: b → p.num = cnt a p.tile
  count : ∀ p ∈ ps, p.count = cnt ps p.tile
  many : ∀ k x, ts[k]? = some x → cnt ps (i + k) = x.2.sum
  total : ps.length = (ts.map fun x => x.2.sum).sum

theorem TilesOf.shape {c : Cfg} {e : Enc} {code : Coder} {i : Nat} {ts : List (List Hdr.Change × List Nat)} {ps : List Part}
    (h : TilesOf c e code i ts ps) : Shape i ts ps := by
  induction h with
  | nil => exact ⟨by simp, by simp, by simp, by simp, rfl⟩
  | @cons i l ns ts ps qs hp _ ih =>
    have hm := hp.mem
    have hq : ∀ p ∈ qs, p.tile ≠ i := fun p h => by have := (ih.tile p h).1; omega
    have hl : ps.length = ns.sum := by rw [hp.len, schedule_len]
    refine ⟨fun p h => ?_, fun a p b e => ?_, fun p h => ?_, fun k x hk => ?_, ?_⟩
    · rcases List.mem_append.1 h with h | h
      · rw [(hm p h).1, List.length_cons]; omega
      · have := ih.tile p h; rw [List.length_cons]; omega
    · rcases List.append_eq_append_iff.1 e with ⟨a', e1, e2⟩ | ⟨b', e1, e2⟩
      · rw [e1, cnt_append]
        have hpm : p ∈ qs := by rw [e2]; simp
        rw [cnt_none (ps := ps) (fun y hy => by rw [(hm y hy).1]; exact fun h => hq p hpm h.symm), ih.order a' p b e2]
        omega
      · cases b' with
        | nil =>
          simp at e1 e2
          have hpm : p ∈ qs := by rw [← e2]; simp
          rw [← e1, cnt_none (ps := ps) (fun y hy => by rw [(hm y hy).1]; exact fun h => hq p hpm h.symm)]
          have := ih.order [] p b (by simpa using e2.symm)
          rw [this]; rfl
        | cons y b' =>
          simp at e2
          obtain ⟨rfl, e2⟩ := e2
          have hpm : p ∈ ps := by rw [e1]; simp
          rw [hp.num a p b' e1, (hm p hpm).1, cnt_same fun y hy => (hm y (by rw [e1]; simp [hy])).1]
          omega
    · rw [cnt_append]
      rcases List.mem_append.1 h with h | h
      · rw [(hm p h).1, (hm p h).2, cnt_same fun y hy => (hm y hy).1, cnt_none hq, hl]
        omega
      · rw [cnt_none (ps := ps) (fun y hy => by rw [(hm y hy).1]; exact fun e => hq p h e.symm), ih.count p h]
        omega
    · rw [cnt_append]
      cases k with
      | zero =>
        simp at hk
        subst hk
        rw [Nat.add_zero, cnt_same fun y hy => (hm y hy).1, cnt_none hq, hl]
        rfl
      | succ k =>
        simp at hk
        have := ih.many k x hk
        rw [cnt_none (ps := ps) (fun y hy => by rw [(hm y hy).1]; omega), show i + (k + 1) = i + 1 + k by omega, this]
        omega
    · rw [List.length_append, hl, ih.total, List.map_cons, List.sum_cons]

/-- The lengths of the parts of tile `i`. -/
def lenOf (ps : List Part) (i : Nat) : Nat := ((ps.filter fun p => p.tile == i).map Part.len).sum

theorem lenOf_append (ps qs : List Part) (i : Nat) : lenOf (ps ++ qs) i = lenOf ps i + lenOf qs i := by
  unfold lenOf; rw [List.filter_append, List.map_append, List.sum_append]

theorem lenOf_none {ps : List Part} {i : Nat} (h : ∀ p ∈ ps, p.tile ≠ i) : lenOf ps i = 0 := by
  unfold lenOf
  rw [List.filter_eq_nil_iff.2 (fun p hp => by simp [h p hp])]
  rfl

theorem lenOf_same {ps : List Part} {i : Nat} (h : ∀ p ∈ ps, p.tile = i) : lenOf ps i = (ps.map Part.len).sum := by
  unfold lenOf
  rw [List.filter_eq_self.2 (fun p hp => by simp [h p hp])]

theorem le_sum {l : List Nat} {n : Nat} (h : n ∈ l) : n ≤ l.sum := by
  induction l with
  | nil => cases h
  | cons a l ih =>
    rw [List.sum_cons]
    rcases List.mem_cons.1 h with rfl | h
    · omega
    · have := ih h; omega

theorem lenOf_mem {ps : List Part} {p : Part} (h : p ∈ ps) : p.len ≤ lenOf ps p.tile := by
  unfold lenOf
  exact le_sum (List.mem_map.2 ⟨p, List.mem_filter.2 ⟨h, by simp⟩, rfl⟩)

theorem data_le (ps : List Part) (i : Nat) : (dataOf ps i).length + 14 * cnt ps i ≤ lenOf ps i := by
  induction ps with
  | nil => simp [dataOf, cnt, lenOf]
  | cons p ps ih =>
    have h1 : dataOf (p :: ps) i = (if p.tile == i then p.data else []) ++ dataOf ps i := by
      unfold dataOf
      rw [List.filter_cons]
      split <;> simp
    have h2 : cnt (p :: ps) i = (if p.tile == i then 1 else 0) + cnt ps i := by
      unfold cnt
      rw [List.countP_cons]
      omega
    have h3 : lenOf (p :: ps) i = (if p.tile == i then p.len else 0) + lenOf ps i := by
      unfold lenOf
      rw [List.filter_cons]
      split <;> simp
    have h4 : p.data.length + 14 ≤ p.len := by
      unfold Part.len Part.body
      simp only [List.length_append, be_len]
      omega
    rw [h1, h2, h3, List.length_append]
    split
    · omega
    · simp only [List.length_nil]; omega

theorem writeTiles_is {c : Cfg} {e : Enc} {code : Coder} {total : Nat} (h1 : numres0 e < 2 ^ 31) (h2 : e.comps.length < 2 ^ 31)
    (h3 : e.numlayers < 2 ^ 31) {ts : List WTile} {xs : List (List Hdr.Change × List Nat)}
    (h : List.Forall₂ (fun t x => WTileOk c e t x.1 x.2) ts xs) {i : Nat} {tlm b tlm' : List UInt8}
    (hw : writeTiles c e code total ts i tlm = .ok (b, tlm')) :
    ∃ ps, TilesOf c e code i xs ps ∧ (∀ k, lenOf ps k ≤ c.size) ∧ b = partsBytes false ps ∧
      tlm' = tlm ++ if c.tlm then ps.flatMap fun p => tlmEntry total p.tile p.len else [] := by
  induction h generalizing i tlm b tlm' with
  | nil =>
    unfold writeTiles at hw
    cases hw
    exact ⟨[], .nil, fun k => by simp [lenOf], rfl, by simp⟩
  | @cons t x ts xs ht _ ih =>
    unfold writeTiles at hw
    obtain ⟨⟨a, tlm1⟩, ha, hw⟩ := bind_ok hw
    dsimp only at hw
    obtain ⟨⟨b1, tlm2⟩, hb, hw⟩ := bind_ok hw
    cases hw
    obtain ⟨ps, p1, p2, p3, p4⟩ := writeTile_is ht h1 h2 h3 ha
    obtain ⟨qs, q1, q2, q3, q4⟩ := ih hb
    refine ⟨ps ++ qs, ?_, fun k => ?_, ?_, ?_⟩
    · obtain ⟨l, ns⟩ := x
      exact TilesOf.cons p1 q1
    · rw [lenOf_append]
      by_cases hk : k = i
      · subst hk
        rw [lenOf_same fun p hp => (p1.mem p hp).1, lenOf_none fun p hp => by
          have := (q1.shape.tile p hp).1; omega]
        omega
      · rw [lenOf_none fun p hp => by rw [(p1.mem p hp).1]; exact fun h => hk h.symm]
        have := q2 k
        omega
    · rw [p3, q3, partsBytes_append]
    · rw [q4, p4]
      cases c.tlm <;> simp

theorem allTotal_is {c : Cfg} {e : Enc} {ts : List WTile} {xs : List (List Hdr.Change × List Nat)}
    (h : List.Forall₂ (fun t x => WTileOk c e t x.1 x.2) ts xs) (hn : ts.length ≤ 65535) :
    allTotal c.flag ts = .ok (xs.map fun x => x.2.sum).sum ∧ (xs.map fun x => x.2.sum).sum ≤ 255 * ts.length := by
  induction h with
  | nil => exact ⟨rfl, by simp⟩
  | @cons t x ts xs ht _ ih =>
    rw [List.length_cons] at hn ⊢
    obtain ⟨a, b⟩ := ih (by omega)
    have := ht.few
    rw [List.map_cons, List.sum_cons]
    refine ⟨?_, by omega⟩
    unfold allTotal
    rw [ht.counts, Hdr.ok_bind, a, Hdr.ok_bind]
    show Except.ok _ = _
    rw [Nat.mod_eq_of_lt (by omega)]

theorem numres0_le {e : Enc} (hw : Writable e) : numres0 e ≤ 33 := by
  unfold numres0
  cases ht : e.tccps with
  | nil => simp
  | cons t ts => exact (hw.style t (by rw [ht]; simp)).numres.2

/-- The bytes of a `TLM` segment are those of its entries. -/
theorem tlm_body {ps : List Part} {total : Nat} (ht : total = ps.length) :
    (ps.flatMap fun p => tlmEntry total p.tile p.len).length = (if total ≤ 255 then 5 else 6) * total ∧
    tlmSegment ps = be 2 0xFF55 ++ be 2 (4 + (if total ≤ 255 then 5 else 6) * total) ++ be 1 0 ++
      be 1 (if total ≤ 255 then 0x50 else 0x60) ++ (ps.flatMap fun p => tlmEntry total p.tile p.len) ∧
    tlmSegment ps = Hdr.segment 0xFF55 (be 1 0 ++ be 1 (if total ≤ 255 then 0x50 else 0x60) ++
      ps.flatMap fun p => tlmEntry total p.tile p.len) := by
  have hlen : ∀ l : List Part, (l.flatMap fun p => tlmEntry total p.tile p.len).length = (if total ≤ 255 then 5 else 6) * l.length := by
    intro l
    induction l with
    | nil => rfl
    | cons p l ih =>
      rw [List.flatMap_cons, List.length_append, ih, List.length_cons]
      unfold tlmEntry
      by_cases h : total ≤ 255
      · simp only [if_pos h, List.length_append, be_len]; omega
      · simp only [if_neg h, List.length_append, be_len]; omega
  have hseg : tlmSegment ps = Hdr.segment 0xFF55 (be 1 0 ++ be 1 (if total ≤ 255 then 0x50 else 0x60) ++
      ps.flatMap fun p => tlmEntry total p.tile p.len) := by
    unfold tlmSegment tlmEntry
    rw [← ht]
    by_cases h : total ≤ 255
    · simp only [if_pos h]
    · simp only [if_neg h]
  have h1 := hlen ps
  rw [← ht] at h1
  refine ⟨h1, ?_, hseg⟩
  rw [hseg]
  unfold Hdr.segment
  simp only [List.length_append, be_len, h1, List.append_assoc]
  rw [show 1 + (1 + (if total ≤ 255 then 5 else 6) * total) + 2 = 4 + (if total ≤ 255 then 5 else 6) * total by omega]

theorem writable_tlm {e : Enc} (hw : Writable e) {o : Option Nat} (h : ∀ n, o = some n → n ≤ 10921) (h4 : e.rsiz = 4 → o = none) :
    Writable { e with tlm := o } :=
  ⟨hw.rsiz, hw.image_x, hw.image_y, hw.tile_x, hw.tile_y, hw.count, hw.comps_len, hw.comps, hw.csty, hw.prg, hw.layers, hw.mct, hw.tccps,
    hw.prcs_len, hw.style, hw.quant, hw.roi, hw.prt, h, ⟨h4, hw.profile.2⟩, hw.comment⟩

/-- The codestream, from its parts. -/
theorem writeFile_is {c : Cfg} {e : Enc} {code : Coder} {ts : List WTile} {xs : List (List Hdr.Change × List Nat)} {junk old f : List UInt8}
    (hw : Writable e) (hsh : SharedStyle e) (hq : ∀ t ∈ e.tccps, t.qntsty ≤ 2) (h4 : c.tlm = true → e.rsiz ≠ 4)
    (hn : ts.length ≤ 65535) (h : List.Forall₂ (fun t x => WTileOk c e t x.1 x.2) ts xs)
    (hf : writeFile c e code ts junk old = .ok f) :
    ∃ ps, TilesOf c e code 0 xs ps ∧ (∀ k, lenOf ps k ≤ c.size) ∧
      f = headerWith e (if c.tlm then tlmSegment ps else []) ++ (partsBytes false ps ++ be 2 0xFFD9) ∧ (c.tlm = true → ps.length ≤ 10921) := by
  unfold writeFile at hf
  obtain ⟨htot, hmax⟩ := allTotal_is h hn
  obtain ⟨total, htl⟩ : ∃ total, total = (xs.map fun x => x.2.sum).sum := ⟨_, rfl⟩
  rw [← htl] at htot
  rw [htot, Hdr.ok_bind] at hf
  obtain ⟨hd, hh, hf⟩ := bind_ok hf
  obtain ⟨⟨b, tlm⟩, hb, hf⟩ := bind_ok hf
  obtain ⟨ps, p1, p2, p3, p4⟩ := writeTiles_is (by have := numres0_le hw; omega) (by have := hw.comps_len.2; omega)
    (by have := hw.layers.2; omega) h hb
  rw [List.nil_append] at p4
  have htp : total = ps.length := by rw [p1.shape.total, htl]
  refine ⟨ps, p1, p2, ?_⟩
  cases hc : c.tlm with
  | false =>
    rw [hc] at hh hf
    have := Hdr.C52_header_is_standard { e with tlm := none } junk (writable_tlm hw (by simp) (fun _ => rfl)) hsh hq
    rw [if_neg (by simp), this] at hh
    dsimp only at hf
    rw [if_neg (by simp)] at hf
    cases hh
    cases hf
    refine ⟨?_, by simp⟩
    rw [← p3, if_neg (by simp)]
    rfl
  | true =>
    rw [hc] at hh hf p4
    dsimp only at hf
    rw [if_pos rfl] at hf hh p4
    have hle : total ≤ 10921 := by
      unfold Hdr.writeHeader at hh
      obtain ⟨_, _, hh⟩ := bind_ok hh
      obtain ⟨_, _, hh⟩ := bind_ok hh
      obtain ⟨_, _, hh⟩ := bind_ok hh
      obtain ⟨_, _, hh⟩ := bind_ok hh
      obtain ⟨_, ht, _⟩ := bind_ok hh
      unfold Hdr.writeTlmIf Hdr.writeTlm at ht
      dsimp only at ht
      obtain ⟨_, hr, _⟩ := bind_ok ht
      have := refuse_ok hr
      omega
    have hstd := Hdr.C52_header_is_standard { e with tlm := some total } junk
      (writable_tlm hw (fun n hn => by injection hn with hn; omega) (fun h => absurd h (h4 hc))) hsh hq
    rw [hstd] at hh
    have hne := tccps_ne hw
    have hhd : hd = headA e ++ (Hdr.stdTlm (some total) ++ headB e) := by
      rw [← headerWith_eq hne]
      injection hh with hh
      rw [← hh]
      rfl
    obtain ⟨b1, b2, b3⟩ := tlm_body htp
    rw [← p4] at b1 b2
    unfold updateTlm at hf
    split at hf
    · cases hf
    · rw [tlmStart_is junk hw hsh hq, Hdr.ok_bind] at hf
      refine ⟨?_, fun _ => by omega⟩
      have hft : overwrite (hd ++ (b ++ be 2 0xFFD9)) ((headA e).length + 6)
          ((tlm ++ old).take ((if total ≤ 255 then 5 else 6) * total)) = f := by injection hf
      rw [← hft, ← b1, List.take_left, if_pos rfl, headerWith_eq hne, b2, ← p3]
      have hz : Hdr.stdTlm (some total) = be 2 0xFF55 ++ be 2 (4 + (if total ≤ 255 then 5 else 6) * total) ++ be 1 0 ++
          be 1 (if total ≤ 255 then 0x50 else 0x60) ++ List.replicate ((if total ≤ 255 then 5 else 6) * total) 0 := by
        have := Hdr.writeTlm_std (o := some total) (fun n hn => by injection hn with hn; omega)
        unfold Hdr.writeTlmIf Hdr.writeTlm at this
        dsimp only at this
        rw [Hdr.refuse_bind (by omega)] at this
        injection this with this
        exact this.symm
      rw [hhd, hz]
      have := overwrite_mid (headA e ++ (be 2 0xFF55 ++ (be 2 (4 + (if total ≤ 255 then 5 else 6) * total) ++ (be 1 0 ++
        be 1 (if total ≤ 255 then 0x50 else 0x60))))) (List.replicate ((if total ≤ 255 then 5 else 6) * total) 0)
        (headB e ++ (b ++ be 2 0xFFD9)) tlm (by rw [List.length_replicate, b1])
      rw [show (headA e ++ (be 2 0xFF55 ++ (be 2 (4 + (if total ≤ 255 then 5 else 6) * total) ++ (be 1 0 ++
        be 1 (if total ≤ 255 then 0x50 else 0x60))))).length = (headA e).length + 6 by
          simp only [List.length_append, be_len]] at this
      simp only [List.append_assoc] at this ⊢
      exact this

end Jp2.Tp

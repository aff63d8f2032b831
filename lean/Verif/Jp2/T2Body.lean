import Verif.Jp2.T2Block
/-!
# Packet bodies and the loops over blocks
-/
namespace Jp2.T2
open Jp2.Bio Jp2.Tgt
open T1 (segsOf)

/-! ## The segments of one block -/

/-- The segments once the data of the new passes has been read. -/
def done (sty : Nat) : Seg → List (Nat × Nat) → List Seg
  | _, [] => []
  | cur, g :: G => { cur with len := cur.len + g.1, numpasses := cur.numpasses + g.2, realNumPasses := cur.numpasses + g.2, numnewpasses := g.2, newlen := g.1 } ::
      done sty { maxpasses := nextCap sty cur.maxpasses } G

theorem done_length (sty : Nat) (G : List (Nat × Nat)) (cur : Seg) : (done sty cur G).length = G.length := by
  induction G generalizing cur with
  | nil => rfl
  | cons g G ih => simp [done, ih]

theorem done_fresh_view (sty mp : Nat) (G : List (Nat × Nat)) : (done sty { maxpasses := mp } G).map view = G := by
  induction G generalizing mp with
  | nil => rfl
  | cons g G ih => simp [done, ih, view]

theorem done_view (sty : Nat) (cur : Seg) (ps : List T1.Pass) (hne : ps ≠ []) :
    (done sty cur (segsOf 0 0 ps)).map view = segsOf cur.len cur.numpasses ps := by
  obtain ⟨a, b, G, h1, h2⟩ := segsOf_shift ps hne
  rw [h1, h2]
  simp [done, done_fresh_view, view]

theorem done_last (sty : Nat) (G : List (Nat × Nat)) (hne : G ≠ []) (cur : Seg) (hmp : cur.maxpasses ≤ 109) :
    ∃ pre last, done sty cur G = pre ++ [last] ∧ last.maxpasses ≤ 109 ∧ last.realNumPasses = last.numpasses ∧
      endPos sty cur.maxpasses cur.numpasses G = (last.maxpasses, last.numpasses) := by
  induction G generalizing cur with
  | nil => exact absurd rfl hne
  | cons g G ih =>
    cases G with
    | nil => exact ⟨[], _, rfl, hmp, rfl, rfl⟩
    | cons g' G =>
      obtain ⟨pre, last, h1, h2, h3, h4⟩ := ih (by simp) { maxpasses := nextCap sty cur.maxpasses } (nextCap_le _ _)
      refine ⟨_ :: pre, last, by rw [done, h1]; rfl, h2, h3, ?_⟩
      rw [endPos]; exact h4

theorem dataLoop_eq (sty : Nat) (strict : Bool) (G : List (Nat × Nat)) (hne : G ≠ []) :
    ∀ (cur : Seg) (pre junk : List Seg) (fuel : Nat) (c : DecCblk) (D : List UInt8), cur.maxpasses ≤ 109 →
      Caps sty cur.maxpasses cur.numpasses G → c.segs = pre ++ (pend sty cur G ++ junk) → c.numnewpasses = (G.map Prod.snd).sum →
      c.numsegs = pre.length + 1 → pre.length + G.length < 2 ^ 31 → (∀ g ∈ G, cur.len + g.1 < 2 ^ 31) → (G.map Prod.snd).sum < 2 ^ 31 →
      D.length = (G.map Prod.fst).sum → G.length ≤ fuel →
      ∃ chunks', chunks'.flatten = c.chunks.flatten ++ D ∧ ∀ tail, dataLoop strict fuel ⟨D ++ tail, false⟩ c pre.length =
        .ok (⟨tail, false⟩, { c with chunks := chunks', segs := pre ++ (done sty cur G ++ junk), numnewpasses := 0, numsegs := pre.length + G.length }) := by
  induction G with
  | nil => exact absurd rfl hne
  | cons g G ih =>
    intro cur pre junk fuel c D hmp hc hsegs hnew hns hcnt hlen hsum hD hfuel
    obtain ⟨hc1, hc2, hc3, hc4⟩ := hc
    obtain ⟨f, rfl⟩ : ∃ f, fuel = f + 1 := ⟨fuel - 1, by rw [List.length_cons] at hfuel; omega⟩
    rw [List.map_cons, List.sum_cons] at hnew hsum hD
    have hl := hlen g (by simp)
    rw [pend, List.cons_append] at hsegs
    have hget : c.segs[pre.length]? = some { cur with numnewpasses := g.2, newlen := g.1 } := by rw [hsegs]; exact getElem?_mid _ _ _
    have hset : ∀ y, c.segs.set pre.length y = pre ++ y :: (pend sty { maxpasses := nextCap sty cur.maxpasses } G ++ junk) := by
      intro y; rw [hsegs]; exact set_mid _ _ _ _
    have hleft : (2 ^ 32 + c.numnewpasses - g.2) % 2 ^ 32 = (G.map Prod.snd).sum := by rw [hnew]; omega
    have htk : ∀ tail, (D ++ tail).take g.1 = D.take g.1 := fun tail => by
      rw [List.take_append_of_le_length (by omega)]
    have hdr : ∀ tail, (D ++ tail).drop g.1 = D.drop g.1 ++ tail := fun tail => by
      rw [List.drop_append_of_le_length (by omega)]
    cases G with
    | nil =>
      refine ⟨c.chunks ++ [D.take g.1], ?_, fun tail => ?_⟩
      · have : D.take g.1 = D := List.take_of_length_le (by simp at hD; omega)
        rw [this]; simp
      · rw [dataLoop, hget, ofOpt_some, ok_bind]
        dsimp only
        rw [hleft, if_neg (by rw [List.length_append]; simp; omega), hset, htk, hdr]
        have e0 : D.drop g.1 = [] := List.drop_of_length_le (by simp at hD; omega)
        rw [e0, List.nil_append, Nat.mod_eq_of_lt (by omega), Nat.mod_eq_of_lt (by omega)]
        simp only [List.map_nil, List.sum_nil, Nat.lt_irrefl, if_false]
        rw [hns]
        rfl
    | cons g' G =>
      obtain ⟨chunks', k1, k2⟩ := ih (by simp) { maxpasses := nextCap sty cur.maxpasses }
        (pre ++ [{ cur with len := cur.len + g.1, numpasses := cur.numpasses + g.2, realNumPasses := cur.numpasses + g.2, numnewpasses := g.2, newlen := g.1 }])
        junk f
        { c with chunks := c.chunks ++ [D.take g.1], segs := pre ++ { cur with len := cur.len + g.1, numpasses := cur.numpasses + g.2, realNumPasses := cur.numpasses + g.2, numnewpasses := g.2, newlen := g.1 } :: (pend sty { maxpasses := nextCap sty cur.maxpasses } (g' :: G) ++ junk), numnewpasses := ((g' :: G).map Prod.snd).sum, numsegs := pre.length + 1 + 1 }
        (D.drop g.1) (nextCap_le _ _) hc4 (by simp) rfl (by simp) (by simp at hcnt ⊢; omega)
        (fun x hx => by have := hlen x (by simp [hx]); show 0 + x.1 < 2 ^ 31; omega) (by omega) (by rw [List.length_drop]; omega) (by simpa using hfuel)
      refine ⟨chunks', ?_, fun tail => ?_⟩
      · rw [k1]; simp [List.append_assoc]
      · have hpos : 0 < ((g' :: G).map Prod.snd).sum := by
          have := hc4.1
          rw [List.map_cons, List.sum_cons]; omega
        rw [dataLoop, hget, ofOpt_some, ok_bind]
        dsimp only
        rw [hleft, if_neg (by rw [List.length_append]; simp; omega), hset, htk, hdr]
        rw [Nat.mod_eq_of_lt (by omega), Nat.mod_eq_of_lt (by omega)]
        rw [if_neg (by omega), if_pos hpos, hns, Nat.mod_eq_of_lt (by simp at hcnt; omega)]
        have k2 := k2 tail
        rw [List.length_append, List.length_singleton] at k2
        rw [k2]
        simp only [List.append_assoc, done, List.length_cons, List.cons_append, List.nil_append]
        congr 3
        omega

/-! ## One block -/

theorem size_take_add (ps : List T1.Pass) (K n : Nat) : size (ps.take (K + n)) = size (ps.take K) + size ((ps.drop K).take n) := by
  rw [take_add']; unfold size; rw [List.map_append, List.sum_append]

theorem length_le_sum (l : List (Nat × Nat)) (h : ∀ g ∈ l, 0 < g.2) : l.length ≤ (l.map Prod.snd).sum := by
  induction l with
  | nil => simp
  | cons g l ih =>
    have := h g (by simp)
    have := ih (fun x hx => h x (by simp [hx]))
    simp only [List.length_cons, List.map_cons, List.sum_cons]; omega

theorem size_take_le (ps : List T1.Pass) (K : Nat) : size (ps.take K) ≤ size ps := by
  conv_rhs => rw [← List.take_append_drop K ps]
  unfold size; rw [List.map_append, List.sum_append]; omega

/-- The passes of the first `lay` layers. -/
def sent (lay : Nat) (c : EncCblk) : Nat := passesIn (c.layers.take lay)

theorem sent_succ {lay : Nat} {c : EncCblk} {ly : Layer} (h : c.layers[lay]? = some ly) : sent (lay + 1) c = sent lay c + ly.numpasses := by
  unfold sent passesIn
  rw [List.take_add_one, h]
  simp

theorem sent_le {sty lay : Nat} {c : EncCblk} (h : BlockOk sty c) : sent lay c ≤ c.passes.length := by
  refine Nat.le_trans ?_ h.enough
  unfold sent passesIn
  conv_rhs => rw [← List.take_append_drop lay c.layers]
  rw [List.map_append, List.sum_append]; omega

/-- The data of one block. -/
theorem block_body {sty lay : Nat} {c : EncCblk} {d : DecCblk} {ly : Layer} (strict : Bool) (hly : c.layers[lay]? = some ly)
    (h : Mid sty (sent lay c) ly.numpasses c d) (hn : ly.numpasses ≠ 0) :
    ly.off + ly.len ≤ c.data.length ∧
    ∃ d', Sync sty (sent (lay + 1) c) { c with numpasses := (c.numpasses + ly.numpasses) % 2 ^ 32 } d' ∧
      ∀ tail, dataBlock strict ⟨(c.data.drop ly.off).take ly.len ++ tail, false⟩ d = .ok (⟨tail, false⟩, d') := by
  obtain ⟨n3, n25, hnl, hbp, hch, pre, cur, junk, hsegs, hds, hmp, hkk, hcaps, hview, hstand⟩ := h.some hn
  have hpl := h.ok.place lay ly hly hn
  rw [show passesIn (c.layers.take lay) = sent lay c from rfl, show passesIn (c.layers.take (lay + 1)) = sent (lay + 1) c from rfl,
    sent_succ hly] at hpl
  rw [sent_succ hly]
  have hle := h.le
  generalize sent lay c = K at *
  generalize hnn : ly.numpasses = n at *
  have hps : (c.passes.drop K).take n ≠ [] := by
    intro e
    have := congrArg List.length e
    rw [List.length_take, List.length_drop] at this
    simp at this; omega
  have hlenps : ((c.passes.drop K).take n).length = n := by rw [List.length_take, List.length_drop]; omega
  have hmany := h.ok.many
  have hbytes := h.ok.bytes
  have hsmall := h.ok.small
  have htot := size_take_le c.passes (K + n)
  have hadd := size_take_add c.passes K n
  obtain ⟨G, hG⟩ : ∃ G, G = segsOf 0 0 ((c.passes.drop K).take n) := ⟨_, rfl⟩
  have hGne : G ≠ [] := by rw [hG]; exact segsOf_ne _ hps 0 0
  have hGsum := segsOf_sum ((c.passes.drop K).take n) 0 0 (fun _ => rfl)
  rw [Nat.zero_add, Nat.zero_add, ← hG, hlenps] at hGsum
  have hdone := done_view sty cur _ hps
  have hallsum := segsOf_sum (c.passes.take (K + n)) 0 0 (fun _ => rfl)
  rw [← hview, ← hdone, ← hG, Nat.zero_add, Nat.zero_add, ← List.map_append] at hallsum
  have hcntle : pre.length + G.length ≤ K + n := by
    have h1 := length_le_sum (segsOf 0 0 (c.passes.take (K + n))) (segsOf_pos _ _ _)
    rw [(segsOf_sum (c.passes.take (K + n)) 0 0 (fun _ => rfl)).2, List.length_take, ← hview, ← hdone, ← hG, List.length_append,
      List.length_map, List.length_map, done_length] at h1
    omega
  have hcurlen : ∀ g ∈ G, cur.len + g.1 < 2 ^ 31 := by
    obtain ⟨a, b, G', e1, e2⟩ := segsOf_shift _ hps
    have hs := (segsOf_sum (c.passes.take (K + n)) 0 0 (fun _ => rfl)).1
    rw [← hview, e2, List.map_append, List.sum_append, List.map_cons, List.sum_cons] at hs
    have hs2 := hGsum.1
    rw [hG, e1, List.map_cons, List.sum_cons] at hs2
    simp only at hs hs2
    intro g hg
    have := sum_mem_le (G.map Prod.fst) g.1 (List.mem_map_of_mem hg)
    omega
  rw [← hG] at hsegs hcaps hstand
  have hDlen : ((c.data.drop ly.off).take ly.len).length = (G.map Prod.fst).sum := by
    rw [List.length_take, List.length_drop, hGsum.1]; omega
  refine ⟨by omega, ?_⟩
  have hfuel : G.length ≤ 165 := by
    have h1 := length_le_sum G (by rw [hG]; exact segsOf_pos _ _ _)
    have := h.ok.few ly (List.mem_of_getElem? hly)
    rw [hGsum.2] at h1; omega
  obtain ⟨chunks', k1, k2⟩ := dataLoop_eq sty strict G hGne cur pre junk 165 { d with numsegs := pre.length + 1 } ((c.data.drop ly.off).take ly.len)
    hmp hcaps hsegs (by rw [hGsum.2]; exact h.new) rfl (by omega) hcurlen (by omega) hDlen hfuel
  refine ⟨{ d with chunks := chunks', segs := pre ++ (done sty cur G ++ junk), numnewpasses := 0, numsegs := pre.length + G.length, realNumSegs := pre.length + G.length }, ?_, fun tail => ?_⟩
  · have htake : (pre ++ (done sty cur G ++ junk)).take (pre.length + G.length) = pre ++ done sty cur G := by
      rw [← List.append_assoc, List.take_append_of_le_length (by rw [List.length_append, done_length]),
        List.take_of_length_le (by rw [List.length_append, done_length])]
    refine ⟨⟨h.ok.few, h.ok.enough, h.ok.term, h.ok.cap, h.ok.many, h.ok.bytes, h.ok.small, h.ok.place⟩, ?_, hle, fun e => by omega, rfl, ?_, ?_, fun _ => ?_⟩
    · show (c.numpasses + n) % 2 ^ 32 = K + n
      rw [h.np, Nat.mod_eq_of_lt (by omega)]
    · show ((pre ++ (done sty cur G ++ junk)).take (pre.length + G.length)).map view = _
      rw [htake, List.map_append, hG, hdone, hview]
    · show chunks'.flatten = c.data.take (size (c.passes.take (K + n)))
      rw [k1]
      show d.chunks.flatten ++ _ = _
      rw [hch, ← hpl.2, ← hpl.1, List.take_add]
    · refine ⟨n3, n25, hnl, hbp, ?_⟩
      obtain ⟨pd, last, l1, l2, l3, l4⟩ := done_last sty G hGne cur hmp
      refine ⟨pre ++ pd, last, ?_, ?_, l2, l3, fun hr => ?_⟩
      · show pre.length + G.length = _
        have := done_length sty G cur
        rw [l1] at this
        simp at this ⊢; omega
      · show (pre ++ (done sty cur G ++ junk)).take (pre.length + G.length) = _
        rw [htake, l1, List.append_assoc]
      · have := hstand hr
        rw [l4] at this
        exact this
  · unfold dataBlock
    simp only [Bool.false_eq_true, if_false]
    rw [if_neg (by rw [h.new]; exact hn), hds]
    simp only [ofOpt_some, ok_bind]
    rw [k2 tail]
    rfl

/-! ## All blocks of a band -/

/-- What a packet does not change of a block. -/
def stat (c : EncCblk) : List Layer × Nat × List UInt8 × List T1.Pass := (c.layers, c.numbps, c.data, c.passes)
def bstat (b : EncBand) : Bool × List (List Layer × Nat × List UInt8 × List T1.Pass) := (b.empty, b.prec.cblks.map stat)

def RSync (sty L lay : Nat) (bps : Int) (c : EncCblk) (d : DecCblk) : Prop :=
  Sync sty (sent lay c) c d ∧ c.layers.length = L ∧ Fits bps c.numbps

def RMid (sty L lay : Nat) (bps : Int) (c : EncCblk) (d : DecCblk) : Prop :=
  (∃ ly, c.layers[lay]? = some ly ∧ Mid sty (sent lay c) ly.numpasses c d) ∧ c.layers.length = L ∧ Fits bps c.numbps

theorem body_blocks {sty L lay : Nat} {bps : Int} (strict : Bool) {cs : List EncCblk} {ds : List DecCblk}
    (h : List.Forall₂ (RMid sty L lay bps) cs ds) :
    ∃ B cs' ds', List.Forall₂ (RSync sty L (lay + 1) bps) cs' ds' ∧ cs'.map stat = cs.map stat ∧
      (∀ room, bodyBlocks lay room cs = if B.length ≤ room then .ok (B, room - B.length, cs') else .error .refused) ∧
      ∀ tail, dataBlocks strict ⟨B ++ tail, false⟩ ds = .ok (⟨tail, false⟩, ds') := by
  induction h with
  | nil => exact ⟨[], [], [], .nil, rfl, fun room => by rw [if_pos (by simp)]; rfl, fun tail => rfl⟩
  | @cons c d cs ds hcd _ ih =>
    obtain ⟨B, cs', ds', h1, h2, h3, h4⟩ := ih
    obtain ⟨⟨ly, hly, hm⟩, hL, hb⟩ := hcd
    by_cases hn : ly.numpasses = 0
    · refine ⟨B, c :: cs', d :: ds', .cons ⟨?_, hL, hb⟩ h1, by simp [h2], fun room => ?_, fun tail => ?_⟩
      · rw [sent_succ hly, hn]; exact hm.none hn
      · rw [bodyBlocks, hly]
        simp only [ofOpt_some, ok_bind]
        rw [if_pos hn, h3]
        split <;> rfl
      · rw [dataBlocks]
        unfold dataBlock
        have := hm.new
        rw [hn] at this
        simp only [Bool.false_eq_true, if_false]
        rw [if_pos this]
        show (Except.ok _ >>= _) = _
        rw [ok_bind]
        dsimp only
        rw [h4]
        rfl
    · obtain ⟨hroom, d', k1, k2⟩ := block_body strict hly hm hn
      have hlen : ((c.data.drop ly.off).take ly.len).length = ly.len := by rw [List.length_take, List.length_drop]; omega
      refine ⟨(c.data.drop ly.off).take ly.len ++ B, { c with numpasses := (c.numpasses + ly.numpasses) % 2 ^ 32 } :: cs', d' :: ds',
        .cons ⟨k1, hL, hb⟩ h1, by simp [h2, stat], fun room => ?_, fun tail => ?_⟩
      · rw [bodyBlocks, hly]
        simp only [ofOpt_some, ok_bind]
        rw [if_neg hn, List.length_append, hlen]
        by_cases hr : room < ly.len
        · rw [if_pos hr, if_neg (c := ly.len + B.length ≤ room) (by omega)]; rfl
        · rw [if_neg hr, if_neg (by omega), h3]
          by_cases hr2 : B.length ≤ room - ly.len
          · rw [if_pos hr2, if_pos (by omega)]
            show Except.ok _ = _
            rw [Nat.sub_sub]
          · rw [if_neg hr2, if_neg (by omega)]; rfl
      · rw [dataBlocks, List.append_assoc, k2, ok_bind]
        dsimp only
        rw [h4]
        rfl

end Jp2.T2

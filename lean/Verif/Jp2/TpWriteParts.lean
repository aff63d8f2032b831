import Verif.Jp2.TpWritePlt
/-!
# The tile-parts the encoder writes are those of the standard
-/
namespace Jp2.Tp
open Jp2.Hdr (R be bind_ok be_len refuseIf Enc)
open Jp2.Box (refuse_ok)

theorem overwrite_mid (a z r x : List UInt8) (h : x.length = z.length) : overwrite (a ++ (z ++ r)) a.length x = a ++ (x ++ r) := by
  unfold overwrite
  rw [List.take_left, h, List.append_assoc, List.drop_append, List.drop_eq_nil_of_le (by omega), List.nil_append,
    show a.length + z.length - a.length = z.length by omega, List.drop_left]

/-- A tile's buffer before and after some parts have been written to it. -/
structure Wrote (c : Cfg) (code : Coder) (total tile nb : Nat) (first : List (Nat × List UInt8)) (xs : List (Nat × Nat))
    (s s' : WState) (ps : List Part) : Prop where
  parts : PartsOf c code tile nb s.cur first xs ps
  cur : s'.cur = s.cur + ps.length
  avail : s'.avail + (ps.map Part.len).sum = s.avail
  out : s'.out = s.out ++ partsBytes false ps
  tlm : s'.tlm = s.tlm ++ if c.tlm then ps.flatMap fun p => tlmEntry total p.tile p.len else []

theorem PartsOf.append {c : Cfg} {code : Coder} {tile n k : Nat} {f : List (Nat × List UInt8)} {xs ys : List (Nat × Nat)}
    {ps qs : List Part} (h : PartsOf c code tile n k f xs ps) (hf : xs ≠ [] ∨ f = [])
    (h2 : PartsOf c code tile n (k + ps.length) [] ys qs) : PartsOf c code tile n k f (xs ++ ys) (ps ++ qs) := by
  induction h with
  | nil =>
    rcases hf with hf | rfl
    · exact absurd rfl hf
    · simpa using h2
  | @cons k s x xs p ps h1 h2' h3 h4 h5 ih =>
    refine PartsOf.cons h1 h2' h3 h4 (ih (Or.inr rfl) ?_)
    rw [show k + 1 + ps.length = k + (p :: ps).length by rw [List.length_cons]; omega]
    exact h2

theorem partsBytes_append (ps qs : List Part) : partsBytes false (ps ++ qs) = partsBytes false ps ++ partsBytes false qs := by
  induction ps with
  | nil => rfl
  | cons p ps ih =>
    have hc : ∀ l, partsBytes false (p :: l) = p.bytes p.len ++ partsBytes false l := fun l => by
      conv_lhs => unfold partsBytes
      simp
    rw [List.cons_append, hc, hc, ih, List.append_assoc]

theorem Wrote.append {c : Cfg} {code : Coder} {total tile nb : Nat} {f : List (Nat × List UInt8)} {xs ys : List (Nat × Nat)}
    {s s' s'' : WState} {ps qs : List Part} (h : Wrote c code total tile nb f xs s s' ps) (hf : xs ≠ [] ∨ f = [])
    (h2 : Wrote c code total tile nb [] ys s' s'' qs) : Wrote c code total tile nb f (xs ++ ys) s s'' (ps ++ qs) := by
  refine ⟨h.parts.append hf ?_, ?_, ?_, ?_, ?_⟩
  · rw [← h.cur]; exact h2.parts
  · rw [h2.cur, h.cur, List.length_append]; omega
  · rw [List.map_append, List.sum_append]
    have := h.avail
    have := h2.avail
    omega
  · rw [h2.out, h.out, partsBytes_append, List.append_assoc]
  · rw [h2.tlm, h.tlm]
    cases c.tlm <;> simp

theorem writePart_is {c : Cfg} {code : Coder} {total tile nb pino tp : Nat} {first : List (Nat × List UInt8)} {s s' : WState}
    (h : writePart c code total tile nb pino tp (first.flatMap fun x => Hdr.segment x.1 x.2) s = .ok s') :
    ∃ p, Wrote c code total tile nb first [(pino, tp)] s s' [p] := by
  unfold writePart at h
  obtain ⟨sot, hsot, h⟩ := bind_ok h
  unfold writeSot at hsot
  obtain ⟨_, hr, hsot⟩ := bind_ok hsot
  have hav := refuse_ok hr
  cases hsot
  obtain ⟨poc, hpoc⟩ : ∃ poc, poc = first.flatMap fun x => Hdr.segment x.1 x.2 := ⟨_, rfl⟩
  rw [← hpoc] at h
  split at h
  · cases h
  · rename_i hroom
    obtain ⟨⟨m, sod⟩, hsod, h⟩ := bind_ok h
    unfold writeSod at hsod
    obtain ⟨_, hr1, hsod⟩ := bind_ok hsod
    have h4 := refuse_ok hr1
    obtain ⟨_, hr2, hsod⟩ := bind_ok hsod
    have hres := refuse_ok hr2
    obtain ⟨o, ho, hsod⟩ := bind_ok hsod
    split at hsod
    · cases hsod
    · rename_i hdata
      obtain ⟨m', hm, hsod⟩ := bind_ok hsod
      cases hsod
      obtain ⟨plts, e1, e2, e3, e4⟩ : ∃ plts, m = (plts.flatMap fun x => Hdr.segment x.1 x.2) ∧ (c.plt = none → plts = []) ∧
          (c.plt ≠ none → plts ≠ [] ∧ PltSegs 0 plts o.packets) ∧ m.length ≤ c.plt.getD 0 := by
        unfold pltPart at hm
        cases hc : c.plt with
        | none => rw [hc] at hm; cases hm; exact ⟨[], rfl, fun _ => rfl, by simp, by simp⟩
        | some r =>
          rw [hc] at hm
          obtain ⟨m2, h1, h2⟩ := bind_ok hm
          split at h2
          · cases h2
          · cases h2
            obtain ⟨segs, a, b, d⟩ := writePlt_is h1
            exact ⟨segs, a, by simp, fun _ => ⟨b, d⟩, by simp only [Option.getD_some]; omega⟩
      obtain ⟨p, hp⟩ : ∃ p : Part, p = ⟨tile, s.cur, nb, first ++ plts, o.data⟩ := ⟨_, rfl⟩
      have hbody : poc ++ (m ++ (be 2 0xFF93 ++ o.data)) = p.body := by
        rw [hp]
        unfold Part.body
        dsimp only
        rw [List.flatMap_append, ← hpoc, ← e1, List.append_assoc]
      dsimp only at h
      rw [hbody] at h
      have hlen : (be 2 0xFF90 ++ be 2 10 ++ be 2 tile ++ [0, 0, 0, 0] ++ be 1 s.cur ++ be 1 nb ++ p.body).length = p.len := by
        unfold Part.len
        simp only [List.length_append, be_len, List.length_cons, List.length_nil]
      rw [hlen] at h
      have hbytes : overwrite (be 2 0xFF90 ++ be 2 10 ++ be 2 tile ++ [0, 0, 0, 0] ++ be 1 s.cur ++ be 1 nb ++ p.body) 6 (be 4 p.len) =
          p.bytes p.len := by
        have := overwrite_mid (be 2 0xFF90 ++ (be 2 10 ++ be 2 tile)) [0, 0, 0, 0] (be 1 s.cur ++ (be 1 nb ++ p.body)) (be 4 p.len)
          (by rw [be_len]; rfl)
        rw [show (be 2 0xFF90 ++ (be 2 10 ++ be 2 tile)).length = 6 by simp only [List.length_append, be_len]] at this
        simp only [List.append_assoc] at this ⊢
        rw [this, hp]
        rfl
      rw [hbytes] at h
      have hl : p.len = 12 + (poc.length + (m.length + (2 + o.data.length))) := by
        unfold Part.len
        rw [← hbody]
        simp only [List.length_append, be_len]
      cases h
      refine ⟨p, ?_, rfl, ?_, ?_, ?_⟩
      · refine PartsOf.cons (by rw [hp]) (by rw [hp]) (by rw [hp]) ?_ .nil
        exact ⟨_, o, plts, by rw [hp]; exact ho, by rw [hp], by rw [hp], e2, e3⟩
      · simp only [List.map_cons, List.map_nil, List.sum_cons, List.sum_nil]
        omega
      · dsimp only
        unfold partsBytes partsBytes
        simp
      · dsimp only
        cases c.tlm <;> simp [hp]

theorem writeRun_is {c : Cfg} {code : Coder} {total tile nb pino : Nat} (n : Nat) {tp : Nat} {s s' : WState}
    (h : writeRun c code total tile nb pino n tp s = .ok s') :
    ∃ ps, Wrote c code total tile nb [] ((List.range n).map fun k => (pino, tp + k)) s s' ps := by
  induction n generalizing tp s with
  | zero =>
    unfold writeRun at h
    cases h
    exact ⟨[], .nil, rfl, by simp, by simp [partsBytes], by simp⟩
  | succ n ih =>
    unfold writeRun at h
    obtain ⟨s1, h1, h2⟩ := bind_ok h
    obtain ⟨p, hp⟩ := writePart_is (first := []) h1
    obtain ⟨ps, hps⟩ := ih h2
    refine ⟨[p] ++ ps, ?_⟩
    have := hp.append (Or.inr rfl) hps
    rw [List.range_succ_eq_map, List.map_cons, List.map_map]
    have he : ((fun k => (pino, tp + k)) ∘ Nat.succ) = fun k => (pino, tp + 1 + k) := by
      funext k
      simp only [Function.comp_apply, Prod.mk.injEq, true_and]
      omega
    rw [he]
    simpa using this

/-- `schedule` from progression `i` on. -/
def scheduleFrom (i : Nat) (ns : List Nat) : List (Nat × Nat) := (ns.zipIdx i).flatMap fun x => (List.range x.1).map fun k => (x.2, k)

theorem writeRuns_is {c : Cfg} {code : Coder} {total tile nb : Nat} (ns : List Nat) {pino : Nat} {s s' : WState}
    (h : writeRuns c code total tile nb ns pino s = .ok s') :
    ∃ ps, Wrote c code total tile nb [] (scheduleFrom pino ns) s s' ps := by
  induction ns generalizing pino s with
  | nil =>
    unfold writeRuns at h
    cases h
    exact ⟨[], .nil, rfl, by simp, by simp [partsBytes], by simp⟩
  | cons n ns ih =>
    unfold writeRuns at h
    obtain ⟨s1, h1, h2⟩ := bind_ok h
    obtain ⟨ps, hp⟩ := writeRun_is n h1
    obtain ⟨qs, hq⟩ := ih h2
    refine ⟨ps ++ qs, ?_⟩
    have := hp.append (Or.inr rfl) hq
    unfold scheduleFrom at this ⊢
    rw [List.zipIdx_cons, List.flatMap_cons]
    simpa using this

theorem min32_le {a b : Nat} (h : a ≤ b) (hb : b < 2 ^ 31) : min32 a b = a := by
  unfold min32
  split <;> omega

theorem toNat_emod (n : Nat) (h : n ≤ 255) : ((n : Int) % 2 ^ 32).toNat = n := by omega

theorem writePoc_is {csiz : Nat} {l : List Hdr.Change} (h : ∀ x ∈ l, x.order ≤ 255) :
    writePoc csiz (l.map Hdr.Change.poc) = Hdr.segment 0xFF5F (l.flatMap (Hdr.Change.bytes csiz)) := by
  have hone : ∀ x : Hdr.Change, x.order ≤ 255 → writeChange csiz x.poc = x.bytes csiz := by
    intro x hx
    unfold writeChange Hdr.Change.bytes Hdr.compNumber Hdr.Change.poc Hdr.room
    dsimp only
    rw [toNat_emod _ hx]
    by_cases hc : csiz ≤ 256
    · rw [if_pos hc, if_pos (by omega), if_pos (by omega)]
    · rw [if_neg hc, if_neg (by omega), if_neg (by omega)]
  have hlen : ∀ x : Hdr.Change, (x.bytes csiz).length = 5 + 2 * Hdr.room csiz := by
    intro x
    unfold Hdr.Change.bytes Hdr.compNumber Hdr.room
    by_cases hc : csiz ≤ 256
    · rw [if_pos hc, if_pos (by omega), if_pos (by omega)]; simp only [List.length_append, be_len]
    · rw [if_neg hc, if_neg (by omega), if_neg (by omega)]; simp only [List.length_append, be_len]
  have hfl : (l.map Hdr.Change.poc).flatMap (writeChange csiz) = l.flatMap (Hdr.Change.bytes csiz) := by
    rw [List.flatMap_map]
    clear hlen
    induction l with
    | nil => rfl
    | cons x l ih =>
      rw [List.flatMap_cons, List.flatMap_cons, hone x (h x (by simp)), ih fun y hy => h y (by simp [hy])]
  have hll : (l.flatMap (Hdr.Change.bytes csiz)).length = (5 + 2 * Hdr.room csiz) * l.length := by
    clear hfl h
    induction l with
    | nil => rfl
    | cons x l ih =>
      rw [List.flatMap_cons, List.length_append, hlen, ih, List.length_cons, Nat.mul_add, Nat.mul_one]
      omega
  unfold writePoc Hdr.segment
  rw [hfl, hll, List.length_map, Nat.add_comm 2]

theorem clamped_eq {c : Cfg} {e : Enc} {t : WTile} {l : List Hdr.Change} {ns : List Nat} (h : WTileOk c e t l ns)
    (h1 : numres0 e < 2 ^ 31) (h2 : e.comps.length < 2 ^ 31) (h3 : e.numlayers < 2 ^ 31) : clamped e t = t := by
  unfold clamped
  split
  · have : t.par.pocs.map (clampPoc e.numlayers (numres0 e) e.comps.length) = t.par.pocs := by
      rw [h.pocs, List.map_map]
      apply List.map_congr_left
      intro x hx
      obtain ⟨_, a, _, b, d, _⟩ := h.fits x hx
      unfold Hdr.Change.poc
      show clampPoc _ _ _ _ = _
      unfold clampPoc
      dsimp only
      rw [min32_le a h1, min32_le b h2, min32_le d h3]
    rw [this]
  · rfl

theorem writeTile_is {c : Cfg} {e : Enc} {code : Coder} {total tile : Nat} {t : WTile} {l : List Hdr.Change} {ns : List Nat}
    (h : WTileOk c e t l ns) (h1 : numres0 e < 2 ^ 31) (h2 : e.comps.length < 2 ^ 31) (h3 : e.numlayers < 2 ^ 31)
    {tlm a tlm' : List UInt8} (hw : writeTile c e code total tile t tlm = .ok (a, tlm')) :
    ∃ ps, PartsOf c code tile ns.sum 0 (pocSegs e l) (schedule ns) ps ∧ (ps.map Part.len).sum ≤ c.size ∧ a = partsBytes false ps ∧
      tlm' = tlm ++ if c.tlm then ps.flatMap fun p => tlmEntry total p.tile p.len else [] := by
  unfold writeTile at hw
  obtain ⟨nb, hnb, hw⟩ := bind_ok hw
  unfold tileTotal at hnb
  rw [h.counts] at hnb
  have hfew := h.few
  obtain rfl : ns.sum = nb := by
    have : ns.sum % 2 ^ 32 = nb := by injection hnb
    omega
  have hpoc : (if hasPoc e t then writePoc e.comps.length t.par.pocs else []) = (pocSegs e l).flatMap fun x => Hdr.segment x.1 x.2 := by
    unfold hasPoc pocSegs
    rw [h.pocs]
    by_cases hl : l = []
    · subst hl; simp
    · by_cases hr : 3 ≤ e.rsiz ∧ e.rsiz ≤ 6
      · rw [if_pos (Or.inr hr), if_neg (by simp [hr.1, hr.2])]; rfl
      · have hb : (!(decide (3 ≤ e.rsiz) && decide (e.rsiz ≤ 6)) && !(l.map Hdr.Change.poc).isEmpty) = true := by
          simp only [Bool.and_eq_true, Bool.not_eq_true', Bool.and_eq_false_iff, decide_eq_false_iff_not, List.isEmpty_eq_false_iff]
          exact ⟨by omega, by simpa using hl⟩
        rw [if_pos hb, if_neg (by simp only [not_or]; exact ⟨hl, hr⟩), writePoc_is fun x hx => (h.fits x hx).2.2.2.2.2]
        simp
  rw [hpoc] at hw
  obtain ⟨s1, hs1, hw⟩ := bind_ok hw
  obtain ⟨p, hp⟩ := writePart_is hs1
  obtain ⟨ns', hns, hw⟩ := bind_ok hw
  rw [clamped_eq h h1 h2 h3, h.counts] at hns
  cases hns
  obtain ⟨n, hn, hn1⟩ := h.first
  cases ns with
  | nil => cases hn
  | cons k ns =>
    simp at hn
    subst hn
    dsimp only at hw
    obtain ⟨s2, hs2, hw⟩ := bind_ok hw
    obtain ⟨s3, hs3, hw⟩ := bind_ok hw
    cases hw
    obtain ⟨ps, hps⟩ := writeRun_is _ hs2
    obtain ⟨qs, hqs⟩ := writeRuns_is _ hs3
    have hall := (hp.append (Or.inl (by simp)) hps).append (Or.inl (by simp)) hqs
    refine ⟨_, ?_, ?_, ?_, hall.tlm⟩
    · have hsch : schedule (k :: ns) = [(0, 0)] ++ ((List.range (k - 1)).map fun j => (0, 1 + j)) ++ scheduleFrom 1 ns := by
        unfold schedule scheduleFrom
        rw [List.zipIdx_cons, List.flatMap_cons]
        congr 1
        obtain ⟨k', rfl⟩ : ∃ k', k = k' + 1 := ⟨k - 1, by omega⟩
        rw [List.range_succ_eq_map, List.map_cons, List.map_map]
        simp only [Nat.add_sub_cancel, List.singleton_append, List.cons.injEq, true_and]
        apply List.map_congr_left
        intro j _
        simp only [Function.comp_apply, Prod.mk.injEq, true_and]
        omega
      rw [hsch]
      exact hall.parts
    · have := hall.avail
      dsimp only at this
      omega
    · have := hall.out
      simpa using this

end Jp2.Tp

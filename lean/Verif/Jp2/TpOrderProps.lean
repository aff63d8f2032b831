import Verif.Jp2.TpFullProps
/-!
# C65: which tile-parts are taken
-/
namespace Jp2.Tp
open Jp2.Hdr (R be ok_bind refuse_bind be_len bind_ok refuseIf)

/-- A check that passed. -/
private theorem refuse_ok {c : Prop} [Decidable c] {u : Unit} (h : refuseIf c = .ok u) : ¬ c := by
  intro hc
  unfold refuseIf at h
  rw [if_pos hc] at h
  cases h

/-- **C65.** Whatever has been read before, the header of a tile-part is taken only if it is for a tile of the image, its number is
one more than that of the part of its tile before it (-1 if there was none), it says a length that holds a header,
and its number is below the number of parts it announces, if it does, and below the one announced before, if there was
one. (If the announced numbers have been found one short, one is added to each.) Then this part is the last one of the
tile that has been seen, and the tile is handed over behind it if it is the last one announced. -/
theorem C65_part_taken (d d' : Dec) (p : Part) (psot : Nat) (tail : List UInt8) (hp : Fits p) (hs : psot < 2 ^ 32)
    (ho : d.only = none) (hc : d.can = false) (h : readSot d (sotBody p psot ++ tail) 8 = .ok d') :
    ∃ t t', d.tiles[p.tile]? = some t ∧ p.tile < d.h.tw * d.h.th ∧ (p.num : Int) = t.part + 1 ∧ (psot = 0 ∨ psot = 12 ∨ 14 ≤ psot) ∧
      (t.nb ≠ 0 → p.num < t.nb) ∧ (p.count ≠ 0 → p.num < p.count + if d.corr then 1 else 0) ∧
      d'.tiles[p.tile]? = some t' ∧ t'.part = p.num ∧ t'.data = t.data ∧
      t'.nb = (if p.count = 0 then t.nb else p.count + if d.corr then 1 else 0) ∧
      (d'.can = true ↔ t'.nb = p.num + 1) := by
  obtain ⟨f1, f2, f3, f4⟩ := hp
  unfold readSot at h
  rw [sotValues_is tail f1 hs f2 f3, ok_bind] at h
  dsimp only at h
  obtain ⟨_, h1, h⟩ := bind_ok h
  have h1 := refuse_ok h1
  obtain ⟨t, ht, h⟩ := bind_ok h
  obtain ⟨_, h2, h⟩ := bind_ok h
  have h2 := refuse_ok h2
  obtain ⟨_, h3, h⟩ := bind_ok h
  have h3 := refuse_ok h3
  obtain ⟨nb, h4, h⟩ := bind_ok h
  have ht' : d.tiles[p.tile]? = some t := by
    unfold tileAt at ht
    split at ht
    · injection ht with ht; rw [← ht]; assumption
    · cases ht
  have hlt : p.tile < d.tiles.length := (List.getElem?_eq_some_iff.1 ht').1
  unfold newNb at h4
  obtain ⟨_, h5, h4⟩ := bind_ok h4
  have h5 := refuse_ok h5
  have hnb : nb = (if p.count = 0 then t.nb else p.count + if d.corr then 1 else 0) ∧
      (p.count ≠ 0 → p.num < p.count + if d.corr then 1 else 0) := by
    by_cases h0 : p.count = 0
    · rw [if_neg (by omega)] at h4
      cases h4
      exact ⟨by rw [if_pos h0], fun h => absurd h0 h⟩
    · rw [if_pos h0] at h4
      dsimp only at h4
      obtain ⟨_, h6, h4⟩ := bind_ok h4
      have h6 := refuse_ok h6
      cases h4
      exact ⟨by rw [if_neg h0], fun _ => by omega⟩
  cases h
  refine ⟨t, { t with part := p.num, nb := nb }, ht', by omega, ?_, by omega, fun h0 => by omega, hnb.2, ?_, rfl, rfl, hnb.1, ?_⟩
  · by_contra hne
    exact h2 ⟨Or.inl ho, fun e => hne e.symm⟩
  · unfold put
    simp [hlt]
  · show (d.can || (nb != 0 && nb == p.num + 1)) = true ↔ nb = p.num + 1
    rw [hc]
    simp only [Bool.false_or, Bool.and_eq_true, bne_iff_ne, ne_eq, beq_iff_eq]
    omega

/-- **C65.** Announced numbers of tile-parts that are one short are found out: once all announced parts of a tile have been read,
the decoder looks past the parts of other tiles for another part of the same tile; if it has the announced number for
its number, the announced numbers are corrected. The decoder goes back to where it was. -/
theorem C65_short_count_noticed (file bs0 rest : List UInt8) (s0 : Src) (h0 : At file s0 bs0) (qs : List Part) (p : Part) (psot : Nat)
    (hq : ∀ q ∈ qs, Fits q ∧ q.tile ≠ p.tile) (hp : Fits p) (hpsot : psot < 2 ^ 32) :
    ∀ (s : Src) (fuel : Nat), qs.length < fuel → At file s ((qs.flatMap fun q => q.bytes q.len) ++ (p.bytes psot ++ rest)) → s0.pos ≤ s.pos →
      needCorrection p.tile s0.off fuel s = .ok (decide (p.num = p.count), s0) := by
  induction qs with
  | nil =>
    intro s fuel hf hs hle
    obtain ⟨f, rfl⟩ : ∃ f, fuel = f + 1 := ⟨fuel - 1, by simp at hf; omega⟩
    obtain ⟨f1, f2, f3, f4⟩ := hp
    rw [List.flatMap_nil, List.nil_append, bytes_eq] at hs
    have hl : (sotBody p psot).length = 8 := by unfold sotBody; simp [be_len]
    have hs1 := hs.move (n := 2) (be_len 2 _)
    have hs2 := hs1.move (n := 2) (be_len 2 _)
    have hs3 := hs2.move (n := 8) hl
    rw [needCorrection, hs.read (be_len 2 _)]
    dsimp only
    have e1 := next_two 0xFF90 (by decide) []
    have e2 := next_two 10 (by decide) []
    rw [List.append_nil] at e1 e2
    rw [e1, ok_bind]
    dsimp only
    rw [if_neg (by decide), hs1.load (be_len 2 _), ok_bind]
    dsimp only
    rw [List.drop_nil, List.append_nil, e2, ok_bind]
    dsimp only
    rw [refuse_bind (by decide), hs2.load hl, ok_bind]
    dsimp only
    rw [sotValues_is _ f1 hpsot f2 f3, ok_bind]
    dsimp only
    rw [if_pos rfl, h0.seek hs3 (by show s0.pos ≤ s.pos + 2 + 2 + 8; omega), ok_bind]
    show Except.ok (p.num == p.count, s0) = _
    by_cases h : p.num = p.count <;> simp [h]
  | cons q qs ih =>
    intro s fuel hf hs hle
    obtain ⟨f, rfl⟩ : ∃ f, fuel = f + 1 := ⟨fuel - 1, by simp at hf; omega⟩
    obtain ⟨⟨f1, f2, f3, f4⟩, hne⟩ := hq q (by simp)
    have hlen := len_ge q
    rw [List.flatMap_cons, List.append_assoc, bytes_eq] at hs
    have hl : (sotBody q q.len).length = 8 := by unfold sotBody; simp [be_len]
    have hs1 := hs.move (n := 2) (be_len 2 _)
    have hs2 := hs1.move (n := 2) (be_len 2 _)
    have hs3 := hs2.move (n := 8) hl
    rw [needCorrection, hs.read (be_len 2 _)]
    dsimp only
    have e1 := next_two 0xFF90 (by decide) []
    have e2 := next_two 10 (by decide) []
    rw [List.append_nil] at e1 e2
    rw [e1, ok_bind]
    dsimp only
    rw [if_neg (by decide), hs1.load (be_len 2 _), ok_bind]
    dsimp only
    rw [List.drop_nil, List.append_nil, e2, ok_bind]
    dsimp only
    rw [refuse_bind (by decide), hs2.load hl, ok_bind]
    dsimp only
    rw [sotValues_is _ f1 f4 f2 f3, ok_bind]
    dsimp only
    have hb : q.body.length = q.len - 12 := by unfold Part.len; omega
    rw [if_neg hne, if_neg (by omega), hs3.skip hb]
    dsimp only
    exact ih (fun q' hq' => hq q' (by simp [hq'])) _ f (by simp at hf; omega) (hs3.move hb)
      (by show s0.pos ≤ s.pos + 2 + 2 + 8 + (q.len - 12); omega)

/-- Parts of two tiles whose numbers of parts are all one short: both tiles are handed over complete. -/
example : seen (decodeFile {} true false none (exFile (exPart 0 17 0 1 [] [1, 2, 3] ++ exPart 1 16 0 1 [] [8, 9] ++
    exPart 0 15 1 1 [] [4] ++ exPart 1 15 1 1 [] [7] ++ be 2 0xFFD9))) = .ok [(0, [1, 2, 3, 4], 0), (1, [8, 9, 7], 0)] := by
  decide +kernel

/-- A part with the number its tile announces, and a part out of order, make the file refused. -/
example :
    seen (decodeFile {} true false none (exFile (exPart 0 17 0 0 [] [1, 2, 3] ++ exPart 0 15 1 1 [] [4] ++ exPart 1 15 0 1 [] [7] ++
      be 2 0xFFD9))) = .error .refused ∧
    seen (decodeFile {} true false none (exFile (exPart 0 17 0 0 [] [1, 2, 3] ++ exPart 0 15 2 0 [] [4] ++ exPart 1 15 0 1 [] [7] ++
      be 2 0xFFD9))) = .error .refused := by
  constructor <;> decide +kernel

end Jp2.Tp

import Verif.Jp2.BoxRound
/-!
# What a file of boxes leads to: helper lemmas
-/
namespace Jp2.Box
open Hdr (Fail R refuseIf be be_len ok_bind refuse_bind refuse_no)

/-! ## Marks do not matter -/

theorem blind_known {f : Codec → R Codec} (hf : Blind f) (j : Codec) : (f j).map Codec.known = (f j.known).map Codec.known := by
  have h1 : f j = (f j.known).map (marked j.state j.imgState) := by
    have := hf j.state j.imgState j.known
    exact this
  rw [h1]
  cases f j.known <;> rfl

theorem blind_state {f : Codec → R Codec} (hf : Blind f) {j j' : Codec} (h : f j = .ok j') : j'.state = j.state := by
  have h1 := hf j.state j.imgState j
  have h2 : marked j.state j.imgState j = j := rfl
  rw [h2, h] at h1
  have h3 : j' = marked j.state j.imgState j' := by injection h1
  rw [h3]; rfl

theorem subBox_state {m : Mode} {hd : Head} {j j' : Codec} {body : List UInt8} (h : subBox m hd j body = .ok j') :
    j'.state = j.state := by
  unfold subBox at h
  split at h
  · exact blind_state (blind_image m hd.ty body) h
  · cases h; rfl

theorem subBoxes_state {m : Mode} : ∀ {l : List (Nat × List UInt8)} {j j' : Codec}, subBoxes m l j = .ok j' → j'.state = j.state
  | [], j, j', h => by cases h; rfl
  | (ty, body) :: l, j, j', h => by
    unfold subBoxes at h
    cases hs : subBox m ⟨0, ty, 0⟩ j body with
    | error f => rw [hs] at h; cases h
    | ok j1 =>
      rw [hs] at h
      rw [subBoxes_state (l := l) h, subBox_state hs]

theorem known_cases {j j' : R Codec} (h : j.map Codec.known = j'.map Codec.known) :
    (∃ f, j = .error f ∧ j' = .error f) ∨ ∃ a b, j = .ok a ∧ j' = .ok b ∧ a.known = b.known := by
  cases j with
  | error f =>
    cases j' with
    | error g => injection h with h; exact Or.inl ⟨f, rfl, by rw [h]⟩
    | ok b => cases h
  | ok a =>
    cases j' with
    | error g => cases h
    | ok b => injection h with h; exact Or.inr ⟨a, b, rfl, rfl, h⟩

/-- Boxes that do not belong to the image header are passed over. -/
theorem subBoxes_filter (m : Mode) : ∀ (l : List (Nat × List UInt8)) (j j' : Codec), j.known = j'.known →
    (subBoxes m l j).map Codec.known = (subBoxes m (l.filter fun x => isImage x.1) j').map Codec.known
  | [], j, j', h => by show Except.ok _ = Except.ok _; rw [h]
  | (ty, body) :: l, j, j', h => by
    by_cases hi : isImage ty = true
    · rw [List.filter_cons_of_pos (by exact hi)]
      unfold subBoxes
      have e : ∀ k, subBox m ⟨0, ty, 0⟩ k body = readImage m ty k body := by intro k; unfold subBox; rw [if_pos hi]
      rw [e, e]
      have h1 : (readImage m ty j body).map Codec.known = (readImage m ty j' body).map Codec.known := by
        have a := blind_known (blind_image m ty body) j
        have b := blind_known (blind_image m ty body) j'
        rw [a, b, h]
      rcases known_cases h1 with ⟨f, e1, e2⟩ | ⟨a, b, e1, e2, hk⟩
      · rw [e1, e2]; rfl
      · rw [e1, e2]
        exact subBoxes_filter m l a b hk
    · rw [List.filter_cons_of_neg (by exact hi)]
      rw [subBoxes]
      have e : subBox m ⟨0, ty, 0⟩ j body = .ok { j with imgState := j.imgState ||| 0x7FFFFFFF } := by
        unfold subBox; rw [if_neg (by exact hi)]
      rw [e]
      exact subBoxes_filter m l _ j' h

theorem subBoxes_known (m : Mode) (l : List (Nat × List UInt8)) (j j' : Codec) (h : j.known = j'.known) :
    (subBoxes m l j).map Codec.known = (subBoxes m l j').map Codec.known :=
  (subBoxes_filter m l j j' h).trans (subBoxes_filter m l j' j' rfl).symm

/-! ## The outcome of a file -/

/-- What reading a file comes to, computed from the parts that matter. -/
def outcome (m : Mode) (ftyp : List UInt8) (header : List (Nat × List UInt8)) (cs : List UInt8) : R (Codec × List UInt8) := do
  let j ← readFtyp { state := 1 } ftyp
  let j ← (subBoxes m header { j with imgState := 0 }).map Codec.known
  refuseIf ((header.any fun x => x.1 == tIHDR) = false)
  refuseIf (j.hasIhdr = false)
  return ({ j with hasJp2h := true }, cs)

theorem readJp_magic : readJp {} magic = .ok { state := 1 } := by decide

theorem readFtyp_ok {ftyp : List UInt8} {j : Codec} (h : readFtyp { state := 1 } ftyp = .ok j) : j.state = 3 ∧ j.hasJp2h = false := by
  unfold readFtyp at h
  rw [refuse_bind (by decide)] at h
  obtain ⟨_, h1, h⟩ := Hdr.bind_ok h
  obtain ⟨_, h2, h⟩ := Hdr.bind_ok h
  obtain ⟨_, h3, h⟩ := Hdr.bind_ok h
  obtain ⟨_, h4, h⟩ := Hdr.bind_ok h
  obtain ⟨_, h5, h⟩ := Hdr.bind_ok h
  cases h
  exact ⟨rfl, rfl⟩

theorem file_read {m : Mode} {ftyp cs bytes : List UInt8} {x1 header x2 : List (Nat × List UInt8)}
    (h : IsFile ftyp x1 header x2 cs bytes) (h1 : ∀ x ∈ x1, Unknown x.1) (h2 : ∀ x ∈ x2, Unknown x.1) :
    (readFile m {} (St.file bytes)).map (fun r => (r.1.known, r.2.rest)) = outcome m ftyp header cs := by
  obtain ⟨a, b, c, d, e, f, hb, rfl, ha, hbx, hc, hh, hd, he, hf⟩ := h.parts
  obtain ⟨n, hn⟩ : ∃ n, n = (a ++ b ++ c ++ d ++ e ++ f).length := ⟨_, rfl⟩
  have s0 : St.file (a ++ b ++ c ++ d ++ e ++ f) = at' n (a ++ (b ++ (c ++ (d ++ (e ++ f))))) := by
    have e2 : a ++ b ++ c ++ d ++ e ++ f = a ++ (b ++ (c ++ (d ++ (e ++ f)))) := by simp only [List.append_assoc]
    unfold St.file at'
    rw [hn, e2]
    simp
  have t1 : code 'j' 'P' ' ' ' ' = tJP := by decide
  have t2 : code 'f' 't' 'y' 'p' = tFTYP := by decide
  have t3 : code 'j' 'p' '2' 'h' = tJP2H := by decide
  rw [t1] at ha
  rw [t2] at hbx
  rw [t3] at hd
  have la := ha.len
  have lb := hbx.len
  have lc := hc.len
  have ld := hd.len
  have le := he.len
  have lh := hh.len
  simp only [List.length_append] at hn
  have lf : 8 ≤ f.length := by
    rcases hf with hf | ⟨_, rfl⟩
    · have := hf.len; omega
    · simp only [List.length_append, be_len]; omega
  unfold readFile outcome
  rw [s0]
  obtain ⟨fuel, hfuel⟩ : ∃ fuel, (at' n (a ++ (b ++ (c ++ (d ++ (e ++ f)))))).rest.length + 1 =
      fuel + 1 + x2.length + 1 + x1.length + 1 + 1 := by
    refine ⟨n + 1 - 4 - x2.length - x1.length, ?_⟩
    show (a ++ (b ++ (c ++ (d ++ (e ++ f))))).length + 1 = _
    simp only [List.length_append]
    omega
  rw [hfuel, readBoxes_file ha (by simp only [List.length_append]; omega) (by decide)]
  have r1 : readContent m tJP {} magic = .ok { state := 1 } := by unfold readContent; rw [if_pos rfl, readJp_magic]
  rw [r1]
  show ((readBoxes m (fuel + 1 + x2.length + 1 + x1.length + 1) { state := 1 } (at' n (b ++ (c ++ (d ++ (e ++ f)))))) >>= _).map _ = _
  rw [readBoxes_file hbx (by simp only [List.length_append]; omega) (by decide)]
  have r2 : ∀ j, readContent m tFTYP j ftyp = readFtyp j ftyp := by
    intro j; unfold readContent; rw [if_neg (by decide), if_pos rfl]
  rw [r2]
  cases hft : readFtyp { state := 1 } ftyp with
  | error g => rfl
  | ok j1 =>
    obtain ⟨hs1, hj1⟩ := readFtyp_ok hft
    show ((readBoxes m (fuel + 1 + x2.length + 1 + x1.length) j1 (at' n (c ++ (d ++ (e ++ f))))) >>= _).map _ = _
    rw [readBoxes_unknown hc h1 (by simp only [List.length_append]; omega) (by rw [hs1]; decide) (by rw [hs1]; decide) (by rw [hs1]; decide)]
    rw [readBoxes_file hd (by simp only [List.length_append]; omega) (by decide)]
    have r3 : ∀ j, readContent m tJP2H j hb = readJp2h m j hb := by
      intro j; unfold readContent; rw [if_neg (by decide), if_neg (by decide), if_pos rfl]
    rw [r3]
    have hm1 : mark x1 j1.state = 3 ∨ mark x1 j1.state = 0x7FFFFFFF := by
      unfold mark; rw [hs1]; split
      · exact Or.inl rfl
      · exact Or.inr (by decide)
    obtain ⟨v, hv⟩ : ∃ v, v = mark x1 j1.state := ⟨_, rfl⟩
    rw [← hv] at hm1 ⊢
    unfold readJp2h
    rw [refuse_bind (by show ¬ (v &&& 2 ≠ 2); rcases hm1 with h | h <;> rw [h] <;> decide)]
    obtain ⟨k, hk⟩ : ∃ k, hb.length + 1 = k + header.length + 1 := ⟨hb.length - header.length, by omega⟩
    rw [hk, readSubs_boxes m hh]
    have hsb : (subBoxes m header { { j1 with state := v } with imgState := 0 }).map Codec.known =
        (subBoxes m header { j1 with imgState := 0 }).map Codec.known :=
      subBoxes_known m header _ _ rfl
    show ((((subBoxes m header { { j1 with state := v } with imgState := 0 }).bind _ >>= _).bind _ >>= _).map _) = (((subBoxes m header { j1 with imgState := 0 }).map Codec.known) >>= _)
    rw [← hsb]
    cases hsub : subBoxes m header { { j1 with state := v } with imgState := 0 } with
    | error g => rfl
    | ok j2 =>
      have hs2 : j2.state = v := subBoxes_state hsub
      obtain ⟨ih, hih⟩ : ∃ ih, ih = header.any fun x => x.1 == tIHDR := ⟨_, rfl⟩
      show (((refuseIf ((false || header.any fun x => x.1 == tIHDR) = false) >>= fun _ => Except.ok { j2 with state := j2.state ||| 4, hasJp2h := true }).bind fun j => readBoxes m (fuel + 1 + x2.length) j (at' n (e ++ f))) >>= _).map _ =
        (refuseIf ((header.any fun x => x.1 == tIHDR) = false) >>= fun _ => refuseIf (j2.hasIhdr = false) >>= fun _ => .ok ({ j2.known with hasJp2h := true }, cs))
      rw [Bool.false_or, ← hih]
      cases ih with
      | false => rfl
      | true =>
        rw [refuse_bind (by decide), refuse_bind (by decide)]
        show ((readBoxes m (fuel + 1 + x2.length) { j2 with state := j2.state ||| 4, hasJp2h := true } (at' n (e ++ f))) >>= _).map _ = _
        have hw : j2.state ||| 4 = 7 ∨ j2.state ||| 4 = 0x7FFFFFFF := by
          rw [hs2]; rcases hm1 with h | h <;> rw [h] <;> decide
        obtain ⟨w, hw'⟩ : ∃ w, w = j2.state ||| 4 := ⟨_, rfl⟩
        rw [← hw'] at hw ⊢
        rw [readBoxes_unknown he h2 (by simp only [List.length_append]; omega) (by show w &&& 1 ≠ 0; rcases hw with h | h <;> rw [h] <;> decide)
          (by show w &&& 2 ≠ 0; rcases hw with h | h <;> rw [h] <;> decide)
          (by show w ||| 0x7FFFFFFF = 0x7FFFFFFF; rcases hw with h | h <;> rw [h] <;> decide)]
        rw [readBoxes_last hf (by omega) (by
          show mark x2 w &&& 4 ≠ 0
          unfold mark
          split <;> rcases hw with h | h <;> rw [h] <;> decide)]
        show (refuseIf (true = false) >>= fun _ => refuseIf (j2.hasIhdr = false) >>= fun _ => Except.ok _).map _ = _
        rw [refuse_bind (by decide), map_bind']
        rfl

/-- Readers of image boxes do not look at whether there was a header box. -/
theorem outcome_filter (m : Mode) (ftyp : List UInt8) (header : List (Nat × List UInt8)) (cs : List UInt8) :
    outcome m ftyp (header.filter fun x => isImage x.1) cs = outcome m ftyp header cs := by
  unfold outcome
  congr 1
  funext j
  have e : ((header.filter fun x => isImage x.1).any fun x => x.1 == tIHDR) = header.any fun x => x.1 == tIHDR := by
    rw [List.any_filter]
    congr 1
    funext x
    by_cases h : x.1 = tIHDR
    · rw [h]; decide
    · have : (x.1 == tIHDR) = false := by simpa using h
      rw [this, Bool.and_false]
  rw [e, ← subBoxes_filter m header { j with imgState := 0 } { j with imgState := 0 } rfl]

theorem outcome_error {α : Type} {x y : R (Codec × St)} {f : Codec × St → α} {e : Fail} (h : x.map f = y.map f) (hx : x = .error e) :
    y = .error e := by
  subst hx
  cases y with
  | error g => injection h with h; rw [h]
  | ok b => cases h

end Jp2.Box

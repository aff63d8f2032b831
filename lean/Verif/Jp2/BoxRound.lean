import Verif.Jp2.BoxSafe
import Verif.Jp2.BoxSpec
/-!
# Reading files box by box: helper lemmas
-/
namespace Jp2.Box
open Hdr (Fail R refuseIf be be_len ok_bind refuse_bind)

theorem rd_be {nb : Nat} {v : Nat} (p : List UInt8) (hv : v < 256 ^ nb) : rd nb (be nb v ++ p) = .ok (v, p) := by
  have hl := be_len nb v
  rw [rd_eq (by simp; omega), List.take_left' hl, List.drop_left' hl]
  show Except.ok (Cio.fromBe (Cio.toBe nb v), p) = _
  rw [Cio.fromBe_toBe, Nat.mod_eq_of_lt hv]

theorem fromBe_be {nb v : Nat} (h : v < 256 ^ nb) : Cio.fromBe (be nb v) = v := by
  show Cio.fromBe (Cio.toBe nb v) = v
  rw [Cio.fromBe_toBe, Nat.mod_eq_of_lt h]

/-- The first eight bytes of a box. -/
theorem head8 (n ty : Nat) (q : List UInt8) (hn : n < 2 ^ 32) (ht : ty < 2 ^ 32) :
    let p := be 4 n ++ be 4 ty ++ q
    ¬ p.length < 8 ∧ Cio.fromBe (p.take 4) = n ∧ Cio.fromBe ((p.drop 4).take 4) = ty ∧ p.drop 8 = q := by
  intro p
  have l1 := be_len 4 n
  have l2 := be_len 4 ty
  have e1 : p.take 4 = be 4 n := by show (be 4 n ++ be 4 ty ++ q).take 4 = _; rw [List.append_assoc, List.take_left' l1]
  have e2 : p.drop 4 = be 4 ty ++ q := by show (be 4 n ++ be 4 ty ++ q).drop 4 = _; rw [List.append_assoc, List.drop_left' l1]
  refine ⟨?_, ?_, ?_, ?_⟩
  · show ¬ (be 4 n ++ be 4 ty ++ q).length < 8
    rw [List.length_append, List.length_append, l1, l2]; omega
  · rw [e1, fromBe_be (by omega)]
  · rw [e2, List.take_left' l2, fromBe_be (by omega)]
  · show (be 4 n ++ be 4 ty ++ q).drop 8 = q
    exact List.drop_left' (by rw [List.length_append, l1, l2])

theorem readHead_plain {n len ty : Nat} (q : List UInt8) (hl : 2 ≤ len) (hn : len < 2 ^ 32) (ht : ty < 2 ^ 32) :
    readHead n (be 4 len ++ be 4 ty ++ q) = (some ⟨len, ty, 8⟩, q) := by
  obtain ⟨h1, h2, h3, h4⟩ := head8 len ty q hn ht
  unfold readHead
  rw [if_neg h1]
  dsimp only
  rw [h2, h3, h4, if_neg (by omega), if_neg (by omega)]

theorem readHead_open {n ty : Nat} (q : List UInt8) (hn : 0 < n ∧ n < 2 ^ 32) (ht : ty < 2 ^ 32) :
    readHead n (be 4 0 ++ be 4 ty ++ q) = (some ⟨n, ty, 8⟩, q) := by
  obtain ⟨h1, h2, h3, h4⟩ := head8 0 ty q (by omega) ht
  unfold readHead
  rw [if_neg h1]
  dsimp only
  rw [h2, h3, h4, if_pos rfl, if_neg (by omega), if_neg (by omega)]

theorem readHead_long {n len ty : Nat} (q : List UInt8) (hn : len < 2 ^ 32) (ht : ty < 2 ^ 32) :
    readHead n (be 4 1 ++ be 4 ty ++ (be 4 0 ++ be 4 len ++ q)) = (some ⟨len, ty, 16⟩, q) := by
  obtain ⟨h1, h2, h3, h4⟩ := head8 1 ty (be 4 0 ++ be 4 len ++ q) (by omega) ht
  obtain ⟨g1, g2, g3, g4⟩ := head8 0 len q (by omega) hn
  unfold readHead
  rw [if_neg h1]
  dsimp only
  rw [h2, h3, h4, if_neg (by omega), if_pos rfl, if_neg g1, g2, g3, g4, if_neg (by simp)]

/-- The header of a box in either form. -/
theorem readHead_box {ty n : Nat} {body b rest : List UInt8} (h : IsBox ty body b) :
    ∃ hd, readHead n (b ++ rest) = (some hd, body ++ rest) ∧ hd.ty = ty ∧ hd.length - hd.hlen = body.length ∧
      hd.hlen ≤ hd.length ∧ hd.length ≠ 0 ∧ b.length = hd.hlen + body.length := by
  obtain ⟨ht, hl, rfl | rfl⟩ := h
  · refine ⟨⟨8 + body.length, ty, 8⟩, ?_, rfl, ?_, ?_, ?_, ?_⟩
    · unfold box
      rw [List.append_assoc]
      exact readHead_plain _ (by omega) (by omega) ht
    · show 8 + body.length - 8 = _; omega
    · show 8 ≤ 8 + body.length; omega
    · show 8 + body.length ≠ 0; omega
    · unfold box; simp only [List.length_append, be_len]
  · refine ⟨⟨16 + body.length, ty, 16⟩, ?_, rfl, ?_, ?_, ?_, ?_⟩
    · unfold longBox
      have : be 4 1 ++ be 4 ty ++ be 4 0 ++ be 4 (16 + body.length) ++ body ++ rest =
          be 4 1 ++ be 4 ty ++ (be 4 0 ++ be 4 (16 + body.length) ++ (body ++ rest)) := by
        simp only [List.append_assoc]
      rw [this]
      exact readHead_long _ (by omega) ht
    · show 16 + body.length - 16 = _; omega
    · show 16 ≤ 16 + body.length; omega
    · show 16 + body.length ≠ 0; omega
    · unfold longBox; simp only [List.length_append, be_len]

theorem IsBox.len {ty : Nat} {body b : List UInt8} (h : IsBox ty body b) : 8 + body.length ≤ b.length := by
  obtain ⟨_, _, rfl | rfl⟩ := h
  · unfold box; simp only [List.length_append, be_len]; omega
  · unfold longBox; simp only [List.length_append, be_len]; omega

theorem Boxes.len {l : List (Nat × List UInt8)} {b : List UInt8} (h : Boxes l b) : 8 * l.length ≤ b.length := by
  induction h with
  | nil => simp
  | cons hb _ ih => have := hb.len; simp only [List.length_cons, List.length_append]; omega

/-! ## Inside the header box -/

/-- The boxes of a header, one after the other. -/
def subBoxes (m : Mode) : List (Nat × List UInt8) → Codec → R Codec
  | [], j => .ok j
  | (ty, body) :: l, j => do
    let j ← subBox m ⟨0, ty, 0⟩ j body
    subBoxes m l j

theorem readSubs_boxes (m : Mode) {l : List (Nat × List UInt8)} {b : List UInt8} (h : Boxes l b) :
    ∀ (fuel : Nat) (seen : Bool) (j : Codec), readSubs m (fuel + l.length + 1) seen j b =
      (subBoxes m l j).bind fun j => .ok (j, seen || l.any fun x => x.1 == tIHDR) := by
  induction h with
  | nil =>
    intro fuel seen j
    show readSubs m (fuel + 1) seen j [] = .ok (j, seen || false)
    unfold readSubs
    rw [if_pos rfl, Bool.or_false]
  | @cons ty body b bs l hb _ ih =>
    intro fuel seen j
    obtain ⟨hd, e, ht, hl, hle, hne, hbl⟩ := readHead_box (n := 0) (rest := bs) hb
    show readSubs m (fuel + (l.length + 1) + 1) seen j (b ++ bs) = _
    unfold readSubs
    have hb8 := hb.len
    rw [if_neg (by intro h; have := congrArg List.length h; rw [List.length_append, List.length_nil] at this; omega), e]
    show (refuseIf _ >>= _) = _
    rw [refuse_bind (by omega), refuse_bind (by rw [List.length_append]; omega), hl, List.take_left' rfl, List.drop_left' rfl]
    have hs : subBox m hd j body = subBox m ⟨0, ty, 0⟩ j body := by unfold subBox; rw [ht]
    rw [hs]
    unfold subBoxes
    cases subBox m ⟨0, ty, 0⟩ j body with
    | error f => rfl
    | ok j' =>
      show readSubs m (fuel + l.length + 1) (seen || hd.ty == tIHDR) j' bs = (subBoxes m l j').bind _
      rw [ih, ht]
      congr 1
      funext j2
      rw [List.any_cons, Bool.or_assoc]

/-! ## What readers of the image header leave alone -/

/-- The codec with other marks. -/
def marked (a b : Nat) (j : Codec) : Codec := { j with state := a, imgState := b }

/-- A reader neither looks at the marks nor changes them. -/
def Blind (f : Codec → R Codec) : Prop := ∀ a b j, f (marked a b j) = (f j).map (marked a b)

theorem map_bind' {α β γ : Type} (g : β → γ) (x : R α) (f : α → R β) : (x >>= f).map g = x >>= fun a => (f a).map g := by
  cases x <;> rfl

theorem map_refuse {β γ : Type} (g : β → γ) (c : Prop) [Decidable c] (f : Unit → R β) :
    (refuseIf c >>= f).map g = refuseIf c >>= fun a => (f a).map g := map_bind' g _ f

theorem map_ite' {β γ : Type} (g : β → γ) (c : Prop) [Decidable c] (x y : R β) :
    (if c then x else y).map g = if c then x.map g else y.map g := by split <;> rfl

theorem map_pure' {β γ : Type} (g : β → γ) (x : β) : (pure x : R β).map g = .ok (g x) := rfl

theorem map_ok' {β γ : Type} (g : β → γ) (x : β) : (.ok x : R β).map g = .ok (g x) := rfl

theorem blind_ihdr (buf : List UInt8) : Blind (readIhdr · buf) := by
  intro a b j
  unfold readIhdr
  simp only [map_bind', map_ite', map_pure', map_ok']
  rfl

theorem blind_bpcc (buf : List UInt8) : Blind (readBpcc · buf) := by
  intro a b j
  unfold readBpcc
  simp only [map_bind', map_pure']
  rfl

theorem blind_pclr (m : Mode) (buf : List UInt8) : Blind (readPclr m · buf) := by
  intro a b j
  unfold readPclr
  simp only [map_bind', map_pure']
  rfl

theorem blind_cdef (buf : List UInt8) : Blind (readCdef · buf) := by
  intro a b j
  unfold readCdef
  simp only [map_bind', map_pure']
  rfl

theorem readCmap_some {j : Codec} {pc : Pclr} (h : j.pclr = some pc) (buf : List UInt8) : readCmap j buf = (do
    refuseIf (pc.cmap ≠ [])
    refuseIf (buf.length < pc.nrChannels * 4)
    let ms ← readMaps pc.nrChannels buf
    return { j with pclr := some { pc with cmap := ms } }) := by
  unfold readCmap; rw [h]

theorem blind_cmap (buf : List UInt8) : Blind (readCmap · buf) := by
  intro a b j
  dsimp only
  cases h : j.pclr with
  | none =>
    unfold readCmap
    rw [show (marked a b j).pclr = none from h, h]
    rfl
  | some pc =>
    rw [readCmap_some h, readCmap_some (show (marked a b j).pclr = some pc from h)]
    simp only [map_bind', map_pure']
    rfl

theorem blind_colr (buf : List UInt8) : Blind (readColr · buf) := by
  intro a b j
  unfold readColr readEnum
  simp only [map_bind', map_ite', map_pure']
  rfl

theorem blind_image (m : Mode) (ty : Nat) (buf : List UInt8) : Blind (readImage m ty · buf) := by
  intro a b j
  unfold readImage
  simp only [map_ite', map_ok']
  rw [← blind_ihdr, ← blind_colr, ← blind_bpcc, ← blind_pclr, ← blind_cdef, ← blind_cmap]

/-! ## At file level -/

/-- A stream of length `n` with `rest` to come. -/
def at' (n : Nat) (rest : List UInt8) : St := ⟨rest, n - rest.length, n⟩

theorem at_sound {n : Nat} {rest : List UInt8} (h : rest.length ≤ n) : (at' n rest).Sound := by
  unfold St.Sound at'; dsimp only; omega

theorem at_to {n : Nat} {p q : List UInt8} (h : p.length ≤ n) (hq : q.length ≤ p.length) : (at' n p).to q = at' n q := by
  unfold St.to at'
  simp only [St.mk.injEq, true_and, and_true]
  omega

theorem at_drop {n k : Nat} {p q : List UInt8} (h : (p ++ q).length ≤ n) (hk : k = p.length) :
    ({ at' n (p ++ q) with rest := (p ++ q).drop k, off := (at' n (p ++ q)).off + k } : St) = at' n q := by
  subst hk
  rw [List.length_append] at h
  unfold at'
  rw [List.drop_left' rfl]
  simp only [St.mk.injEq, true_and, and_true, List.length_append]
  omega

/-- A box behind a header that can be read. -/
theorem readBoxes_head {m : Mode} {n fuel : Nat} {j : Codec} {hd : Head} {p q : List UInt8}
    (e : readHead p.length p = (some hd, q)) (hn : p.length ≤ n) :
    readBoxes m (fuel + 1) j (at' n p) = (do
        match ← oneBox m hd j (at' n q) with
        | .done j s => return (j, s)
        | .more j s => readBoxes m fuel j s) := by
  rw [readBoxes, St.left_eq (at_sound hn)]
  show (match readHead p.length p with | (none, p) => _ | (some h, p) => _) = _
  rw [e]
  show (oneBox m hd j ((at' n p).to q) >>= _) = _
  rw [at_to hn (readHead_len e).1.length_le]
  rfl

/-- One box at file level. -/
theorem readBoxes_box {m : Mode} {n fuel ty : Nat} {j : Codec} {body b rest : List UInt8} (hb : IsBox ty body b)
    (hn : (b ++ rest).length ≤ n) : ∃ hd : Head, hd.ty = ty ∧ hd.length - hd.hlen = body.length ∧ hd.hlen ≤ hd.length ∧
      hd.length ≠ 0 ∧ readBoxes m (fuel + 1) j (at' n (b ++ rest)) = (do
        match ← oneBox m hd j (at' n (body ++ rest)) with
        | .done j s => return (j, s)
        | .more j s => readBoxes m fuel j s) := by
  obtain ⟨hd, e, ht, hl, hle, hne, hbl⟩ := readHead_box (n := (b ++ rest).length) (rest := rest) hb
  refine ⟨hd, ht, hl, hle, hne, ?_⟩
  exact readBoxes_head e hn

theorem oneBox_file {m : Mode} {n : Nat} {hd : Head} {j : Codec} {body rest : List UInt8} (hl : hd.length - hd.hlen = body.length)
    (hle : hd.hlen ≤ hd.length) (hne : hd.length ≠ 0) (hn : (body ++ rest).length ≤ n) (hf : isFile hd.ty = true) :
    oneBox m hd j (at' n (body ++ rest)) =
      (readContent m hd.ty j body).bind fun j => .ok (.more j (at' n rest)) := by
  unfold oneBox
  rw [if_neg (by intro h; rw [h] at hf; revert hf; decide), refuse_bind hne, refuse_bind (by omega), if_pos hf]
  unfold fileBox
  rw [St.left_eq (at_sound hn)]
  have hlen : ¬ (body ++ rest).length < hd.length - hd.hlen := by rw [List.length_append]; omega
  rw [ok_bind, refuse_bind (by exact hlen), refuse_bind (by exact hlen), hl]
  show (readContent m hd.ty j ((body ++ rest).take body.length) >>= fun j => pure (Next.more j ((at' n (body ++ rest)).to ((body ++ rest).drop body.length)))) = _
  rw [List.take_left' rfl, List.drop_left' rfl, at_to hn (by rw [List.length_append]; omega)]
  rfl

/-- A box of the file, read. -/
theorem readBoxes_file {m : Mode} {n fuel ty : Nat} {j : Codec} {body b rest : List UInt8} (hb : IsBox ty body b)
    (hn : (b ++ rest).length ≤ n) (hf : isFile ty = true) :
    readBoxes m (fuel + 1) j (at' n (b ++ rest)) =
      (readContent m ty j body).bind fun j => readBoxes m fuel j (at' n rest) := by
  obtain ⟨hd, ht, hl, hle, hne, e⟩ := readBoxes_box (m := m) (fuel := fuel) (j := j) hb hn
  have hn' : (body ++ rest).length ≤ n := by
    have := hb.len
    rw [List.length_append] at hn ⊢; omega
  rw [e, oneBox_file hl hle hne hn' (by rw [ht]; exact hf), ht]
  cases readContent m ty j body <;> rfl

theorem code_unknown {ty : Nat} (h : Unknown ty) : isFile ty = false ∧ isImage ty = false ∧ ty ≠ tJP2C ∧ ty ≠ tIHDR := by
  obtain ⟨h1, h2⟩ := h
  have e1 : headerTypes = [tIHDR, tBPCC, tCOLR, tPCLR, tCMAP, tCDEF] := by decide
  have e2 : fileTypes = [tJP, tFTYP, tJP2H, tJP2C] := by decide
  rw [e1] at h1
  rw [e2] at h2
  simp only [List.mem_cons, List.not_mem_nil, or_false, not_or] at h1 h2
  unfold isFile isImage
  simp [h1, h2]

/-- The marks set by unknown boxes. -/
def mark (l : List (Nat × List UInt8)) (v : Nat) : Nat := if l = [] then v else v ||| 0x7FFFFFFF

/-- The loop over unknown boxes. -/
theorem readBoxes_unknown {m : Mode} {n : Nat} {l : List (Nat × List UInt8)} {b rest : List UInt8} (h : Boxes l b) :
    ∀ {fuel : Nat} {j : Codec}, (∀ x ∈ l, Unknown x.1) → (b ++ rest).length ≤ n → j.state &&& 1 ≠ 0 → j.state &&& 2 ≠ 0 →
    (j.state ||| 0x7FFFFFFF = 0x7FFFFFFF) →
    readBoxes m (fuel + l.length) j (at' n (b ++ rest)) =
      readBoxes m fuel { j with state := mark l j.state } (at' n rest) := by
  induction h with
  | nil => intro fuel j _ _ _ _ _; rfl
  | @cons ty body b bs l hb hbs ih =>
    intro fuel j hu hn h1 h2 h3
    obtain ⟨u1, u2, u3, _⟩ := code_unknown (hu (ty, body) List.mem_cons_self)
    rw [List.append_assoc] at hn ⊢
    obtain ⟨hd, ht, hl, hle, hne, e⟩ := readBoxes_box (m := m) (fuel := fuel + l.length) (j := j) hb hn
    have hb8 := hb.len
    have hn' : (body ++ (bs ++ rest)).length ≤ n := by
      rw [List.length_append] at hn ⊢; omega
    show readBoxes m (fuel + l.length + 1) j _ = _
    rw [e]
    dsimp only at u1 u2 u3
    have ho : oneBox m hd j (at' n (body ++ (bs ++ rest))) = .ok (.more { j with state := 0x7FFFFFFF } (at' n (bs ++ rest))) := by
      unfold oneBox
      rw [if_neg (by rw [ht]; exact u3), refuse_bind hne, refuse_bind (by omega), ht, u1, if_neg (by decide), u2, if_neg (by decide)]
      unfold otherBox
      rw [refuse_bind h1, refuse_bind h2]
      dsimp only
      have hpos : 0 < (at' n (body ++ (bs ++ rest))).len := by
        show 0 < n
        rw [List.length_append] at hn; omega
      rw [St.skip_eq (at_sound hn') hpos, hl, if_neg (by show ¬ (body ++ (bs ++ rest)).length < _; rw [List.length_append]; omega)]
      dsimp only
      have := at_drop (k := body.length) hn' rfl
      rw [h3]
      show Except.ok (Next.more _ _) = _
      congr 2
    rw [ho]
    show readBoxes m (fuel + l.length) { j with state := 0x7FFFFFFF } _ = _
    rw [ih (fun x hx => hu x (List.mem_cons_of_mem _ hx)) (by rw [List.length_append] at hn; omega) (by show 0x7FFFFFFF &&& 1 ≠ 0; decide) (by show 0x7FFFFFFF &&& 2 ≠ 0; decide)
      (by show 0x7FFFFFFF ||| 0x7FFFFFFF = 0x7FFFFFFF; decide)]
    have : mark ((ty, body) :: l) j.state = 0x7FFFFFFF := by unfold mark; rw [if_neg (by simp), h3]
    rw [this]
    have h7 : mark l 0x7FFFFFFF = 0x7FFFFFFF := by
      unfold mark
      split
      · rfl
      · decide
    show readBoxes m fuel { j with state := mark l 0x7FFFFFFF } _ = _
    rw [h7]

/-- The codestream box ends the loop. -/
theorem readBoxes_last {m : Mode} {n fuel : Nat} {j : Codec} {cs b : List UInt8} (h : IsLast cs b) (hn : b.length ≤ n)
    (hs : j.state &&& 4 ≠ 0) :
    readBoxes m (fuel + 1) j (at' n b) = .ok ({ j with state := j.state ||| 8 }, at' n cs) := by
  have ec : code 'j' 'p' '2' 'c' = tJP2C := by decide
  have key : ∀ hd : Head, hd.ty = tJP2C → oneBox m hd j (at' n cs) = .ok (.done { j with state := j.state ||| 8 } (at' n cs)) := by
    intro hd ht
    unfold oneBox
    rw [if_pos ht, refuse_bind hs]
    rfl
  rcases h with h | ⟨hl, rfl⟩
  · rw [ec] at h
    have hn' : (b ++ []).length ≤ n := by rw [List.append_nil]; exact hn
    obtain ⟨hd, ht, _, _, _, e⟩ := readBoxes_box (m := m) (fuel := fuel) (j := j) h hn'
    rw [List.append_nil, List.append_nil] at e
    rw [e, key hd ht]
    rfl
  · have hbl : (be 4 0 ++ be 4 (code 'j' 'p' '2' 'c') ++ cs).length = 8 + cs.length := by
      simp only [List.length_append, be_len]
    have e := readHead_open (n := (be 4 0 ++ be 4 (code 'j' 'p' '2' 'c') ++ cs).length) (ty := code 'j' 'p' '2' 'c') cs
      (by rw [hbl]; omega) (by decide)
    rw [readBoxes_head e hn, key _ ec]
    rfl

end Jp2.Box

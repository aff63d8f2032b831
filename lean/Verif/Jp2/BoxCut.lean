import Verif.Jp2.BoxFile
import Verif.Jp2.BoxSafe
import Verif.Jp2.BoxOrder
/-!
# Files that are cut short: helper lemmas
-/
namespace Jp2.Box
open Hdr (Fail R refuseIf be be_len ok_bind refuse_bind)

/-- The loop ended without a header box. -/
def NoHdr (r : R (Codec × St)) : Prop := r = .error .refused ∨ ∃ j s, r = .ok (j, s) ∧ j.hasJp2h = false

/-- The header of a box that is cut short. -/
theorem readHead_cut {ty n k : Nat} {body b : List UInt8} (h : IsBox ty body b) (hk : k < b.length) :
    (∃ q, readHead n (b.take k) = (none, q)) ∨ ∃ hd q, readHead n (b.take k) = (some hd, q) ∧ hd.ty = ty ∧
      hd.length - hd.hlen = body.length ∧ hd.hlen ≤ hd.length ∧ hd.length ≠ 0 ∧ q.length < body.length := by
  obtain ⟨ht, hl, rfl | rfl⟩ := h
  · unfold box at hk ⊢
    simp only [List.length_append, be_len] at hk
    by_cases h8 : k < 8
    · left
      refine ⟨[], ?_⟩
      unfold readHead
      rw [if_pos (by rw [List.length_take]; omega)]
    · right
      have e : (be 4 (8 + body.length) ++ be 4 ty ++ body).take k = be 4 (8 + body.length) ++ be 4 ty ++ body.take (k - 8) := by
        rw [List.take_append, List.take_of_length_le (by simp only [List.length_append, be_len]; omega)]
        simp only [List.length_append, be_len]
      rw [e, readHead_plain _ (by omega) (by omega) ht]
      exact ⟨_, _, rfl, rfl, by dsimp only; omega, by dsimp only; omega, by dsimp only; omega, by rw [List.length_take]; omega⟩
  · unfold longBox at hk ⊢
    simp only [List.length_append, be_len] at hk
    by_cases h8 : k < 8
    · left
      refine ⟨[], ?_⟩
      unfold readHead
      rw [if_pos (by rw [List.length_take]; omega)]
    · by_cases h16 : k < 16
      · left
        have e : (be 4 1 ++ be 4 ty ++ be 4 0 ++ be 4 (16 + body.length) ++ body).take k =
            be 4 1 ++ be 4 ty ++ (be 4 0 ++ be 4 (16 + body.length) ++ body).take (k - 8) := by
          have e1 : be 4 1 ++ be 4 ty ++ be 4 0 ++ be 4 (16 + body.length) ++ body =
              (be 4 1 ++ be 4 ty) ++ (be 4 0 ++ be 4 (16 + body.length) ++ body) := by simp only [List.append_assoc]
          rw [e1, List.take_append, List.take_of_length_le (by simp only [List.length_append, be_len]; omega)]
          simp only [List.length_append, be_len]
        obtain ⟨g1, g2, g3, g4⟩ := head8 1 ty ((be 4 0 ++ be 4 (16 + body.length) ++ body).take (k - 8)) (by omega) ht
        refine ⟨[], ?_⟩
        rw [e]
        unfold readHead
        rw [if_neg g1]
        dsimp only
        rw [g2, g3, g4, if_neg (by decide), if_pos rfl, if_pos (by rw [List.length_take]; omega)]
      · right
        have e : (be 4 1 ++ be 4 ty ++ be 4 0 ++ be 4 (16 + body.length) ++ body).take k =
            be 4 1 ++ be 4 ty ++ (be 4 0 ++ be 4 (16 + body.length) ++ body.take (k - 16)) := by
          rw [List.take_append, List.take_of_length_le (by simp only [List.length_append, be_len]; omega)]
          simp only [List.length_append, be_len, List.append_assoc]
        rw [e, readHead_long _ (by omega) ht]
        exact ⟨_, _, rfl, rfl, by dsimp only; omega, by dsimp only; omega, by dsimp only; omega, by rw [List.length_take]; omega⟩

theorem readBoxes_none {m : Mode} {n fuel : Nat} {j : Codec} {p q : List UInt8} (h : readHead p.length p = (none, q)) (hn : p.length ≤ n) :
    ∃ s, readBoxes m (fuel + 1) j (at' n p) = .ok (j, s) := by
  rw [readBoxes, St.left_eq (at_sound hn)]
  refine ⟨(at' n p).to q, ?_⟩
  show (match readHead p.length p with | (none, p) => _ | (some h, p) => _) = _
  rw [h]
  rfl

/-- A box of the file cut short. -/
theorem cut_file {m : Mode} {n fuel ty k : Nat} {j : Codec} {body b : List UInt8} (hb : IsBox ty body b) (hk : k < b.length)
    (hf : isFile ty = true) (hj : j.hasJp2h = false) (hn : (b.take k).length ≤ n) : NoHdr (readBoxes m (fuel + 1) j (at' n (b.take k))) := by
  rcases readHead_cut (n := (b.take k).length) hb hk with ⟨q, e⟩ | ⟨hd, q, e, ht, hl, hle, hne, hq⟩
  · obtain ⟨s, hs⟩ := readBoxes_none (m := m) (fuel := fuel) (j := j) e hn
    exact Or.inr ⟨j, s, hs, hj⟩
  · left
    have hqn : q.length ≤ n := le_trans (readHead_len e).1.length_le hn
    rw [readBoxes_head e hn]
    have ho : oneBox m hd j (at' n q) = .error .refused := by
      unfold oneBox
      rw [if_neg (by intro h; rw [ht] at h; rw [h] at hf; revert hf; decide), refuse_bind hne, refuse_bind (by omega), if_pos (by rw [ht]; exact hf)]
      unfold fileBox
      rw [St.left_eq (at_sound hqn), ok_bind, refuse_yes (by show q.length < _; omega)]
    rw [ho]
    rfl

/-- Unknown boxes cut short. -/
theorem cut_unknown {m : Mode} {n : Nat} {l : List (Nat × List UInt8)} {b : List UInt8} (h : Boxes l b) :
    ∀ {fuel k : Nat} {j : Codec}, (∀ x ∈ l, Unknown x.1) → k < b.length → (b.take k).length ≤ n → k + 1 ≤ fuel → j.hasJp2h = false →
    j.state &&& 1 ≠ 0 → j.state &&& 2 ≠ 0 → j.state ||| 0x7FFFFFFF = 0x7FFFFFFF → NoHdr (readBoxes m fuel j (at' n (b.take k))) := by
  induction h with
  | nil => intro fuel k j _ hk; cases hk
  | @cons ty body b bs l hb hbs ih =>
    intro fuel k j hu hk hn hfu hj h1 h2 h3
    obtain ⟨fuel, rfl⟩ : ∃ f, fuel = f + 1 := ⟨fuel - 1, by omega⟩
    obtain ⟨u1, u2, u3, _⟩ := code_unknown (hu (ty, body) List.mem_cons_self)
    dsimp only at u1 u2 u3
    by_cases hkb : k < b.length
    · rw [List.take_append_of_le_length (by omega)] at hn ⊢
      rcases readHead_cut (n := (b.take k).length) hb hkb with ⟨q, e⟩ | ⟨hd, q, e, ht, hl, hle, hne, hq⟩
      · obtain ⟨s, hs⟩ := readBoxes_none (m := m) (fuel := fuel) (j := j) e hn
        exact Or.inr ⟨j, s, hs, hj⟩
      · right
        have hqn : q.length ≤ n := le_trans (readHead_len e).1.length_le hn
        have hpos : 0 < n := by
          have : (b.take k).length ≠ 0 := by
            intro h0
            have := List.length_eq_zero_iff.1 h0
            rw [this] at e
            cases e
          omega
        refine ⟨{ j with state := 0x7FFFFFFF }, at' n q, ?_, hj⟩
        rw [readBoxes_head e hn]
        have ho : oneBox m hd j (at' n q) = .ok (.done { j with state := 0x7FFFFFFF } (at' n q)) := by
          unfold oneBox
          rw [if_neg (by rw [ht]; exact u3), refuse_bind hne, refuse_bind (by omega), ht, u1, if_neg (by decide), u2, if_neg (by decide)]
          unfold otherBox
          rw [refuse_bind h1, refuse_bind h2]
          dsimp only
          rw [St.skip_eq (at_sound hqn) hpos, if_pos (by show q.length < _; omega), h3]
          dsimp only
          rw [if_pos (by decide)]
          rfl
        rw [ho]
        rfl
    · have e : (b ++ bs).take k = b ++ bs.take (k - b.length) := by
        rw [List.take_append, List.take_of_length_le (by omega)]
      rw [e] at hn ⊢
      have hone : Boxes [(ty, body)] b := by
        have := Boxes.cons hb Boxes.nil
        rw [List.append_nil] at this
        exact this
      have := readBoxes_unknown (m := m) (n := n) (rest := bs.take (k - b.length)) hone (fuel := fuel) (j := j)
        (fun x hx => hu x (by rcases List.mem_singleton.1 hx with rfl; exact List.mem_cons_self)) hn h1 h2 h3
      show NoHdr (readBoxes m (fuel + [(ty, body)].length) j _)
      rw [this]
      have hb8 := hb.len
      rw [List.length_append] at hk hn
      have hm : mark [(ty, body)] j.state = 0x7FFFFFFF := by
        unfold mark
        rw [if_neg (by simp), h3]
      refine ih (fun x hx => hu x (List.mem_cons_of_mem _ hx)) (by omega) (by omega) (by omega) hj ?_ ?_ ?_
      · show mark [(ty, body)] j.state &&& 1 ≠ 0; rw [hm]; decide
      · show mark [(ty, body)] j.state &&& 2 ≠ 0; rw [hm]; decide
      · show mark [(ty, body)] j.state ||| 0x7FFFFFFF = 0x7FFFFFFF; rw [hm]; decide

/-- A file cut before the end of its header box. -/
theorem cut_refused {m : Mode} {ftyp a b c d hb : List UInt8} {x1 : List (Nat × List UInt8)}
    (ha : IsBox (code 'j' 'P' ' ' ' ') magic a) (hbx : IsBox (code 'f' 't' 'y' 'p') ftyp b) (hc : Boxes x1 c) (h1 : ∀ x ∈ x1, Unknown x.1)
    (hd : IsBox (code 'j' 'p' '2' 'h') hb d) (k : Nat) (hk : k < (a ++ b ++ c ++ d).length) :
    readFile m {} (St.file ((a ++ b ++ c ++ d).take k)) = .error .refused := by
  have t1 : code 'j' 'P' ' ' ' ' = tJP := by decide
  have t2 : code 'f' 't' 'y' 'p' = tFTYP := by decide
  have t3 : code 'j' 'p' '2' 'h' = tJP2H := by decide
  rw [t1] at ha
  rw [t2] at hbx
  rw [t3] at hd
  have la := ha.len
  have lb := hbx.len
  simp only [List.length_append] at hk
  have hl : ((a ++ b ++ c ++ d).take k).length = k := by
    rw [List.length_take]; simp only [List.length_append]; omega
  have s0 : St.file ((a ++ b ++ c ++ d).take k) = at' k ((a ++ b ++ c ++ d).take k) := by
    unfold St.file at'
    rw [hl, Nat.sub_self]
  have key : NoHdr (readBoxes m (k + 1) {} (at' k ((a ++ b ++ c ++ d).take k))) := by
    have r1 : readContent m tJP {} magic = .ok { state := 1 } := by unfold readContent; rw [if_pos rfl, readJp_magic]
    have r2 : ∀ j, readContent m tFTYP j ftyp = readFtyp j ftyp := by
      intro j; unfold readContent; rw [if_neg (by decide), if_pos rfl]
    by_cases hka : k < a.length
    · have e : (a ++ b ++ c ++ d).take k = a.take k := by
        rw [List.append_assoc, List.append_assoc, List.take_append_of_le_length (by omega)]
      rw [e]
      exact cut_file ha hka (by decide) rfl (by rw [List.length_take]; omega)
    obtain ⟨k1, hk1⟩ : ∃ k1, k = a.length + k1 := ⟨k - a.length, by omega⟩
    have e : (a ++ b ++ c ++ d).take k = a ++ (b ++ c ++ d).take k1 := by
      have : a ++ b ++ c ++ d = a ++ (b ++ c ++ d) := by simp only [List.append_assoc]
      rw [this, List.take_append, List.take_of_length_le (by omega), show k - a.length = k1 by omega]
    rw [e] at hl ⊢
    rw [readBoxes_file ha (by omega) (by decide), r1]
    show NoHdr (readBoxes m k { state := 1 } (at' k _))
    rw [List.length_append] at hl
    obtain ⟨f1, hf1⟩ : ∃ f, k = f + 1 := ⟨k - 1, by omega⟩
    have goal : NoHdr (readBoxes m (f1 + 1) { state := 1 } (at' k ((b ++ c ++ d).take k1))) := by
      by_cases hkb : k1 < b.length
      · have e : (b ++ c ++ d).take k1 = b.take k1 := by
          rw [List.append_assoc, List.take_append_of_le_length (by omega)]
        rw [e]
        exact cut_file hbx hkb (by decide) rfl (by rw [List.length_take]; omega)
      obtain ⟨k2, hk2⟩ : ∃ k2, k1 = b.length + k2 := ⟨k1 - b.length, by omega⟩
      have e : (b ++ c ++ d).take k1 = b ++ (c ++ d).take k2 := by
        rw [List.append_assoc, List.take_append, List.take_of_length_le (by omega), show k1 - b.length = k2 by omega]
      rw [e] at hl ⊢
      rw [readBoxes_file hbx (by omega) (by decide), r2]
      have hpost := readFtyp_post (j := { state := 1 }) { Ok.new with } ftyp
      cases hft : readFtyp { state := 1 } ftyp with
      | error g =>
        left
        rw [hft] at hpost
        rcases hpost with h | h
        · rw [h]; rfl
        · exact absurd h.2 id
      | ok j1 =>
        obtain ⟨hs1, hj1⟩ := readFtyp_ok hft
        show NoHdr (readBoxes m f1 j1 (at' k _))
        rw [List.length_append] at hl
        by_cases hkc : k2 < c.length
        · have e : (c ++ d).take k2 = c.take k2 := by rw [List.take_append_of_le_length (by omega)]
          rw [e]
          exact cut_unknown hc h1 hkc (by rw [List.length_take]; omega) (by omega) hj1 (by rw [hs1]; decide) (by rw [hs1]; decide) (by rw [hs1]; decide)
        obtain ⟨k3, hk3⟩ : ∃ k3, k2 = c.length + k3 := ⟨k2 - c.length, by omega⟩
        have e : (c ++ d).take k2 = c ++ d.take k3 := by
          rw [List.take_append, List.take_of_length_le (by omega), show k2 - c.length = k3 by omega]
        rw [e] at hl ⊢
        have lc := hc.len
        obtain ⟨f2, hf2⟩ : ∃ f, f1 = f + 1 + x1.length := ⟨f1 - 1 - x1.length, by omega⟩
        rw [hf2, readBoxes_unknown hc h1 (by omega) (by rw [hs1]; decide) (by rw [hs1]; decide) (by rw [hs1]; decide)]
        rw [List.length_append] at hl
        exact cut_file hd (by omega) (by decide) hj1 (by omega)
    rw [← hf1] at goal
    exact goal
  unfold readFile
  rw [s0]
  show (readBoxes m (((a ++ b ++ c ++ d).take k).length + 1) {} (at' k _) >>= _) = _
  rw [hl]
  rcases key with h | ⟨j, s, h, hj⟩
  · rw [h]; rfl
  · rw [h, ok_bind]
    dsimp only
    rw [refuse_yes (by exact hj)]

end Jp2.Box

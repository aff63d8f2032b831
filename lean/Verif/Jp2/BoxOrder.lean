import Verif.Jp2.BoxWrite
/-!
# The order of the boxes of an accepted file: helper lemmas
-/
namespace Jp2.Box
open Hdr (Fail R refuseIf be be_len ok_bind refuse_bind refuse_no)

theorem be_from {x : List UInt8} {n : Nat} (h : x.length = n) : be n (Cio.fromBe x) = x := by
  subst h; exact Cio.toBe_fromBe x

theorem from_lt {x : List UInt8} (h : x.length = 4) : Cio.fromBe x < 2 ^ 32 := by
  have := Cio.fromBe_lt x
  rw [h] at this
  norm_num at this ⊢
  exact this

theorem split8 (p : List UInt8) : p = p.take 4 ++ (p.drop 4).take 4 ++ p.drop 8 := by
  have e : (p.drop 4).drop 4 = p.drop 8 := by rw [List.drop_drop]
  rw [List.append_assoc, ← e, List.take_append_drop, List.take_append_drop]

theorem readHead_form {n : Nat} {p q : List UInt8} {hd : Head} (h : readHead n p = (some hd, q)) :
    (p = be 4 hd.length ++ be 4 hd.ty ++ q ∧ hd.hlen = 8 ∧ hd.length < 2 ^ 32) ∨
    (p = be 4 1 ++ be 4 hd.ty ++ (be 4 0 ++ be 4 hd.length ++ q) ∧ hd.hlen = 16 ∧ hd.length < 2 ^ 32) ∨
    (p = be 4 0 ++ be 4 hd.ty ++ q ∧ hd.hlen = 8 ∧ hd.length = n) := by
  unfold readHead at h
  split at h
  · cases h
  rename_i hl
  dsimp only at h
  have h4 : (p.take 4).length = 4 := by rw [List.length_take]; omega
  have h44 : ((p.drop 4).take 4).length = 4 := by rw [List.length_take, List.length_drop]; omega
  have e1 := be_from h4
  have e2 := be_from h44
  have l1 := from_lt h4
  have sp := split8 p
  obtain ⟨a, ha⟩ : ∃ a, a = Cio.fromBe (p.take 4) := ⟨_, rfl⟩
  obtain ⟨b, hb⟩ : ∃ b, b = Cio.fromBe ((p.drop 4).take 4) := ⟨_, rfl⟩
  rw [← ha] at h e1 l1
  rw [← hb] at h e2
  rw [← e1, ← e2] at sp
  by_cases h0 : a = 0
  · rw [if_pos h0] at h
    split at h
    · cases h
    · split at h
      · cases h
      · cases h
        rw [h0] at sp
        exact Or.inr (Or.inr ⟨sp, rfl, rfl⟩)
  · rw [if_neg h0] at h
    by_cases h1 : a = 1
    · rw [if_pos h1] at h
      split at h
      · cases h
      · rename_i hq
        have g4 : ((p.drop 8).take 4).length = 4 := by rw [List.length_take]; omega
        have g44 : (((p.drop 8).drop 4).take 4).length = 4 := by rw [List.length_take, List.length_drop]; omega
        have f1 := be_from g4
        have f2 := be_from g44
        have l2 := from_lt g44
        have sq := split8 (p.drop 8)
        split at h
        · cases h
        · rename_i hz
          have hz' : Cio.fromBe ((p.drop 8).take 4) = 0 := by simpa using hz
          rw [hz'] at f1
          cases h
          refine Or.inr (Or.inl ⟨?_, rfl, l2⟩)
          dsimp only
          rw [h1] at sp
          rw [f1, f2, ← sq]
          exact sp
    · rw [if_neg h1] at h
      cases h
      exact Or.inl ⟨sp, rfl, l1⟩

theorem starts_of_head {n : Nat} {p q : List UInt8} {hd : Head} (h : readHead n p = (some hd, q)) : Starts hd.ty p := by
  unfold Starts
  have go : ∀ x (r : List UInt8), ((be 4 x ++ be 4 hd.ty ++ r).drop 4).take 4 = be 4 hd.ty := by
    intro x r
    rw [List.append_assoc, List.drop_left' (be_len 4 x), List.take_left' (be_len 4 hd.ty)]
  rcases readHead_form h with ⟨e, _⟩ | ⟨e, _⟩ | ⟨e, _⟩ <;> rw [e] <;> exact go _ _

theorem refuse_ok {c : Prop} [Decidable c] {u : Unit} (h : refuseIf c = .ok u) : ¬ c := by
  unfold refuseIf at h
  split at h
  · cases h
  · assumption

theorem refuse_yes {α : Type} {c : Prop} [Decidable c] (h : c) (f : Unit → R α) : (refuseIf c >>= f) = .error .refused := by
  unfold refuseIf
  rw [if_pos h]
  rfl

/-- One turn of the loop that leads to a result. -/
theorem turn {m : Mode} {fuel n : Nat} {j j' : Codec} {p : List UInt8} {s' : St} (hn : p.length ≤ n)
    (h : readBoxes m (fuel + 1) j (at' n p) = .ok (j', s')) :
    j' = j ∨ ∃ hd q, readHead p.length p = (some hd, q) ∧ q.length ≤ n ∧
      ((∃ s, oneBox m hd j (at' n q) = .ok (Next.done j' s)) ∨
        ∃ j1 s1, oneBox m hd j (at' n q) = .ok (Next.more j1 s1) ∧ readBoxes m fuel j1 s1 = .ok (j', s')) := by
  cases hr : readHead p.length p with
  | mk o q =>
    cases o with
    | none =>
      rw [readBoxes, St.left_eq (at_sound hn)] at h
      change (match readHead p.length p with | (none, p) => _ | (some h, p) => _) = _ at h
      rw [hr] at h
      left
      cases h; rfl
    | some hd =>
      right
      rw [readBoxes_head hr hn] at h
      have hq := (readHead_len hr).1.length_le
      refine ⟨hd, q, rfl, by omega, ?_⟩
      cases ho : oneBox m hd j (at' n q) with
      | error f => rw [ho] at h; cases h
      | ok nx =>
        rw [ho] at h
        cases nx with
        | done j1 s1 =>
          left
          change Except.ok (j1, s1) = _ at h
          cases h
          exact ⟨_, rfl⟩
        | more j1 s1 =>
          right
          exact ⟨j1, s1, rfl, h⟩

theorem image_mem {ty : Nat} (h : isImage ty = true) : ty ∈ headerTypes := by
  have e : headerTypes = [tIHDR, tBPCC, tCOLR, tPCLR, tCMAP, tCDEF] := by decide
  rw [e]
  unfold isImage at h
  simp only [Bool.or_eq_true, beq_iff_eq] at h
  simp only [List.mem_cons, List.not_mem_nil, or_false]
  tauto

/-- A box while the signature and the file type have not been seen: a file box that is read, or an image box. -/
theorem early {m : Mode} {n : Nat} {hd : Head} {j : Codec} {q : List UInt8} {nx : Next} (hq : q.length ≤ n)
    (hs : j.state = 0 ∨ j.state = 1) (h : oneBox m hd j (at' n q) = .ok nx) :
    hd.ty ∈ headerTypes ∨ ∃ j', hd.hlen ≤ hd.length ∧ hd.length ≠ 0 ∧ hd.length - hd.hlen ≤ q.length ∧ isFile hd.ty = true ∧
      readContent m hd.ty j (q.take (hd.length - hd.hlen)) = .ok j' ∧ nx = Next.more j' (at' n (q.drop (hd.length - hd.hlen))) := by
  unfold oneBox at h
  split at h
  · rw [refuse_yes] at h
    · cases h
    · rcases hs with hs | hs <;> rw [hs] <;> decide
  obtain ⟨_, h1, h⟩ := Hdr.bind_ok h
  obtain ⟨_, h2, h⟩ := Hdr.bind_ok h
  have h1 := refuse_ok h1
  have h2 := refuse_ok h2
  split at h
  · rename_i hf
    right
    unfold fileBox at h
    rw [St.left_eq (at_sound hq), ok_bind] at h
    obtain ⟨_, h3, h⟩ := Hdr.bind_ok h
    obtain ⟨_, h4, h⟩ := Hdr.bind_ok h
    obtain ⟨j', h5, h⟩ := Hdr.bind_ok h
    have h3 := refuse_ok h3
    have h3 : ¬ q.length < hd.length - hd.hlen := h3
    refine ⟨j', by omega, h1, by omega, hf, h5, ?_⟩
    cases h
    congr 1
    exact at_to hq (by rw [List.length_drop]; exact Nat.sub_le _ _)
  · split at h
    · left; exact image_mem ‹_›
    · unfold otherBox at h
      obtain ⟨_, h3, h⟩ := Hdr.bind_ok h
      obtain ⟨_, h4, h⟩ := Hdr.bind_ok h
      have h3 := refuse_ok h3
      have h4 := refuse_ok h4
      exfalso
      rcases hs with hs | hs
      · exact h3 (by rw [hs]; decide)
      · exact h4 (by rw [hs]; decide)

theorem readJp_ok {j j' : Codec} {b : List UInt8} (h : readJp j b = .ok j') : b = magic ∧ j' = { j with state := j.state ||| 1 } := by
  unfold readJp at h
  obtain ⟨_, h1, h⟩ := Hdr.bind_ok h
  obtain ⟨_, h2, h⟩ := Hdr.bind_ok h
  obtain ⟨⟨v, r⟩, h3, h⟩ := Hdr.bind_ok h
  obtain ⟨_, h4, h⟩ := Hdr.bind_ok h
  have h2 : b.length = 4 := by simpa using refuse_ok h2
  have h4 : v = 0x0D0A870A := by simpa using refuse_ok h4
  have e := be_from h2
  unfold rd at h3
  rw [if_pos (by omega)] at h3
  have hv : Cio.fromBe (b.take 4) = v := by injection h3 with h3; exact congrArg Prod.fst h3
  rw [List.take_of_length_le (by omega)] at hv
  rw [hv, h4] at e
  cases h
  exact ⟨by rw [← e]; decide, rfl⟩

theorem readFtyp_len {j j' : Codec} {b : List UInt8} (h : readFtyp j b = .ok j') : j.state = 1 ∧ 8 ≤ b.length ∧ 4 ∣ b.length := by
  unfold readFtyp at h
  obtain ⟨_, h1, h⟩ := Hdr.bind_ok h
  obtain ⟨_, h2, h⟩ := Hdr.bind_ok h
  obtain ⟨⟨v, r⟩, h3, h⟩ := Hdr.bind_ok h
  obtain ⟨⟨v2, r2⟩, h4, h⟩ := Hdr.bind_ok h
  obtain ⟨_, h5, h⟩ := Hdr.bind_ok h
  have h1 : j.state = 1 := by simpa using refuse_ok h1
  have h2 : 8 ≤ b.length := by have := refuse_ok h2; omega
  have h5 : r2.length % 4 = 0 := by simpa using refuse_ok h5
  unfold rd at h3 h4
  split at h3
  · split at h4
    · injection h3 with h3
      injection h4 with h4
      have e3 : b.drop 4 = r := congrArg Prod.snd h3
      have e4 : r.drop 4 = r2 := congrArg Prod.snd h4
      rw [← e4, ← e3, List.length_drop, List.length_drop] at h5
      exact ⟨h1, h2, by omega⟩
    · cases h4
  · cases h3

theorem file_types {m : Mode} {ty : Nat} {j j' : Codec} {b : List UInt8} (hf : isFile ty = true) (hs : j.state = 0 ∨ j.state = 1)
    (h : readContent m ty j b = .ok j') :
    (ty = tJP ∧ j.state = 0 ∧ readJp j b = .ok j') ∨ (ty = tFTYP ∧ readFtyp j b = .ok j') := by
  unfold readContent at h
  split at h
  · left
    refine ⟨‹_›, ?_, h⟩
    unfold readJp at h
    obtain ⟨_, h1, h⟩ := Hdr.bind_ok h
    simpa using refuse_ok h1
  · split at h
    · right; exact ⟨‹_›, h⟩
    · split at h
      · unfold readJp2h at h
        obtain ⟨_, h1, h⟩ := Hdr.bind_ok h
        have h1 := refuse_ok h1
        exact absurd h1 (by rcases hs with hs | hs <;> rw [hs] <;> decide)
      · rename_i a b c
        exfalso
        unfold isFile at hf
        simp only [Bool.or_eq_true, beq_iff_eq] at hf
        tauto

theorem turn_nil {m : Mode} {fuel n : Nat} {j j' : Codec} {s' : St}
    (h : readBoxes m fuel j (at' n []) = .ok (j', s')) : j' = j := by
  cases fuel with
  | zero => cases h
  | succ f =>
    rcases turn (Nat.zero_le _) h with h | ⟨hd, q, hr, _⟩
    · exact h
    · cases hr

/-- The bytes of a box that was read, unless it reaches to the end of the file. -/
theorem head_bytes {p q : List UInt8} {hd : Head} (h : readHead p.length p = (some hd, q)) (hle : hd.hlen ≤ hd.length) :
    (∃ h1, IsHead hd.ty (hd.length - hd.hlen) h1 ∧ p = h1 ++ q.take (hd.length - hd.hlen) ++ q.drop (hd.length - hd.hlen)) ∨
      q.drop (hd.length - hd.hlen) = [] := by
  rcases readHead_form h with ⟨e, e8, _⟩ | ⟨e, e16, _⟩ | ⟨e, e8, el⟩
  · left
    refine ⟨be 4 hd.length ++ be 4 hd.ty, Or.inl ?_, ?_⟩
    · congr 2; omega
    · rw [List.append_assoc, List.take_append_drop]; exact e
  · left
    refine ⟨be 4 1 ++ be 4 hd.ty ++ be 4 0 ++ be 4 hd.length, Or.inr ?_, ?_⟩
    · congr 2; omega
    · rw [List.append_assoc, List.take_append_drop, e]; simp only [List.append_assoc]
  · right
    have l := congrArg List.length e
    simp only [List.length_append, be_len] at l
    apply List.drop_eq_nil_of_le
    omega

theorem order {m : Mode} {n : Nat} {data : List UInt8} {fuel : Nat} {j' : Codec} {s' : St} (hn : data.length ≤ n)
    (h : readBoxes m fuel {} (at' n data) = .ok (j', s')) (hj : j'.hasJp2h = true) :
    (∃ ty ∈ headerTypes, Starts ty data) ∨
    ∃ h1 rest, IsHead (code 'j' 'P' ' ' ' ') 4 h1 ∧ data = h1 ++ magic ++ rest ∧
      ((∃ ty ∈ headerTypes, Starts ty rest) ∨
        ∃ h2 body rest2, IsHead (code 'f' 't' 'y' 'p') body.length h2 ∧ rest = h2 ++ body ++ rest2 ∧ 8 ≤ body.length ∧ 4 ∣ body.length) := by
  cases fuel with
  | zero => cases h
  | succ fuel =>
  rcases turn hn h with rfl | ⟨hd, q, hr, hqn, ho⟩
  · cases hj
  have st := starts_of_head hr
  have key : ∃ nx, oneBox m hd {} (at' n q) = .ok nx ∧ ((∃ s, nx = Next.done j' s) ∨ ∃ j1 s1, nx = Next.more j1 s1 ∧ readBoxes m fuel j1 s1 = .ok (j', s')) := by
    rcases ho with ⟨s, ho⟩ | ⟨j1, s1, ho, h2⟩
    · exact ⟨_, ho, Or.inl ⟨_, rfl⟩⟩
    · exact ⟨_, ho, Or.inr ⟨_, _, rfl, h2⟩⟩
  obtain ⟨nx, ho, hx⟩ := key
  rcases early hqn (Or.inl rfl) ho with hm | ⟨j1, g1, g2, g3, g4, g5, rfl⟩
  · exact Or.inl ⟨_, hm, st⟩
  right
  rcases hx with ⟨s, hx⟩ | ⟨_, _, hx, h2⟩
  · cases hx
  cases hx
  rcases file_types g4 (Or.inl rfl) g5 with ⟨hty, _, hjp⟩ | ⟨_, hft⟩
  swap
  · have := (readFtyp_len hft).1
    cases this
  obtain ⟨hb, rfl⟩ := readJp_ok hjp
  have hlen : hd.length - hd.hlen = 4 := by
    have := congrArg List.length hb
    rw [List.length_take] at this
    have l : magic.length = 4 := rfl
    omega
  rcases head_bytes hr g1 with ⟨h1, hh, hp⟩ | hnil
  swap
  · rw [hnil] at h2
    rw [turn_nil h2] at hj
    cases hj
  rw [hlen, hty] at hh
  refine ⟨h1, q.drop (hd.length - hd.hlen), hh, by rw [← hb]; exact hp, ?_⟩
  obtain ⟨r, hrr⟩ : ∃ r, r = q.drop (hd.length - hd.hlen) := ⟨_, rfl⟩
  have hrn : r.length ≤ n := by rw [hrr, List.length_drop]; omega
  rw [← hrr] at h2 ⊢
  -- the second box
  cases fuel with
  | zero => cases h2
  | succ fuel =>
  rcases turn hrn h2 with rfl | ⟨hd2, q2, hr2, hqn2, ho2⟩
  · cases hj
  have st2 := starts_of_head hr2
  have key2 : ∃ nx, oneBox m hd2 { state := 1 } (at' n q2) = .ok nx ∧ ((∃ s, nx = Next.done j' s) ∨ ∃ j1 s1, nx = Next.more j1 s1 ∧ readBoxes m fuel j1 s1 = .ok (j', s')) := by
    rcases ho2 with ⟨s, ho⟩ | ⟨j1, s1, ho, h2⟩
    · exact ⟨_, ho, Or.inl ⟨_, rfl⟩⟩
    · exact ⟨_, ho, Or.inr ⟨_, _, rfl, h2⟩⟩
  obtain ⟨nx2, ho2, hx2⟩ := key2
  rcases early hqn2 (Or.inr rfl) ho2 with hm | ⟨j2, k1, k2, k3, k4, k5, rfl⟩
  · exact Or.inl ⟨_, hm, st2⟩
  right
  rcases hx2 with ⟨s, hx⟩ | ⟨_, _, hx, h3⟩
  · cases hx
  cases hx
  rcases file_types k4 (Or.inr rfl) k5 with ⟨_, h0, _⟩ | ⟨hty2, hft⟩
  · cases h0
  obtain ⟨_, l8, l4⟩ := readFtyp_len hft
  have hj2 : j2.hasJp2h = false := (readFtyp_ok hft).2
  rcases head_bytes hr2 k1 with ⟨h2', hh2, hp2⟩ | hnil
  swap
  · rw [hnil] at h3
    rw [turn_nil h3, hj2] at hj
    cases hj
  have hl : (q2.take (hd2.length - hd2.hlen)).length = hd2.length - hd2.hlen := by rw [List.length_take]; omega
  rw [hty2] at hh2
  refine ⟨h2', q2.take (hd2.length - hd2.hlen), q2.drop (hd2.length - hd2.hlen), ?_, hp2, l8, l4⟩
  rw [hl]
  exact hh2

end Jp2.Box

import Verif.Jp2.BoxStdProps
import Verif.Jp2.BoxOrder
/-!
# Boxes of the image header met twice or in the wrong order: helper lemmas
-/
namespace Jp2.Box
open Hdr (Fail R refuseIf be be_len ok_bind refuse_bind bind_ok)

/-- How far the palette is: not there, without its mapping, complete. -/
def stage (j : Codec) : Nat := match j.pclr with
  | none => 0
  | some pc => if pc.cmap = [] then 1 else 2

/-- A palette has columns. -/
def Cols (j : Codec) : Prop := ∀ pc, j.pclr = some pc → pc.nrChannels ≠ 0

theorem stage_same {j j' : Codec} (h : j'.pclr = j.pclr) : stage j' = stage j ∧ (Cols j → Cols j') := by
  unfold stage Cols
  rw [h]
  exact ⟨rfl, id⟩

theorem readIhdr_frame {j j' : Codec} {b : List UInt8} (h : readIhdr j b = .ok j') : j'.pclr = j.pclr ∧ j'.cdef = j.cdef := by
  unfold readIhdr at h
  split at h
  · cases h; exact ⟨rfl, rfl⟩
  obtain ⟨_, _, h⟩ := bind_ok h
  obtain ⟨_, _, h⟩ := bind_ok h
  obtain ⟨_, _, h⟩ := bind_ok h
  obtain ⟨_, _, h⟩ := bind_ok h
  obtain ⟨_, _, h⟩ := bind_ok h
  obtain ⟨_, _, h⟩ := bind_ok h
  obtain ⟨_, _, h⟩ := bind_ok h
  obtain ⟨_, _, h⟩ := bind_ok h
  obtain ⟨_, _, h⟩ := bind_ok h
  obtain ⟨_, _, h⟩ := bind_ok h
  cases h
  exact ⟨rfl, rfl⟩

theorem readBpcc_frame {j j' : Codec} {b : List UInt8} (h : readBpcc j b = .ok j') : j'.pclr = j.pclr ∧ j'.cdef = j.cdef := by
  unfold readBpcc at h
  obtain ⟨_, _, h⟩ := bind_ok h
  obtain ⟨_, _, h⟩ := bind_ok h
  cases h
  exact ⟨rfl, rfl⟩

theorem readEnum_frame {j j' : Codec} {b : List UInt8} (h : readEnum j b = .ok j') : j'.pclr = j.pclr ∧ j'.cdef = j.cdef := by
  unfold readEnum at h
  obtain ⟨_, _, h⟩ := bind_ok h
  obtain ⟨_, _, h⟩ := bind_ok h
  dsimp only at h
  split at h
  · obtain ⟨_, _, h⟩ := bind_ok h
    cases h
    exact ⟨rfl, rfl⟩
  · cases h
    exact ⟨rfl, rfl⟩

theorem readColr_frame {j j' : Codec} {b : List UInt8} (h : readColr j b = .ok j') : j'.pclr = j.pclr ∧ j'.cdef = j.cdef := by
  unfold readColr at h
  obtain ⟨_, _, h⟩ := bind_ok h
  split at h
  · cases h; exact ⟨rfl, rfl⟩
  obtain ⟨_, _, h⟩ := bind_ok h
  obtain ⟨_, _, h⟩ := bind_ok h
  obtain ⟨_, _, h⟩ := bind_ok h
  dsimp only at h
  split at h
  · have := readEnum_frame h
    exact this
  · split at h <;> (cases h; exact ⟨rfl, rfl⟩)

theorem readPclr_frame {m : Mode} {j j' : Codec} {b : List UInt8} (h : readPclr m j b = .ok j') :
    stage j = 0 ∧ stage j' = 1 ∧ Cols j' ∧ j'.cdef = j.cdef := by
  unfold readPclr at h
  obtain ⟨_, h0, h⟩ := bind_ok h
  have h0 := refuse_ok h0
  obtain ⟨_, _, h⟩ := bind_ok h
  obtain ⟨_, _, h⟩ := bind_ok h
  obtain ⟨_, _, h⟩ := bind_ok h
  obtain ⟨_, _, h⟩ := bind_ok h
  obtain ⟨_, h5, h⟩ := bind_ok h
  have h5 := refuse_ok h5
  obtain ⟨_, _, h⟩ := bind_ok h
  obtain ⟨_, _, h⟩ := bind_ok h
  obtain ⟨_, _, h⟩ := bind_ok h
  obtain ⟨_, _, h⟩ := bind_ok h
  cases h
  refine ⟨?_, rfl, ?_, rfl⟩
  · unfold stage
    cases hp : j.pclr with
    | none => rfl
    | some pc => rw [hp] at h0; exact absurd rfl h0
  · intro pc hpc
    cases hpc
    exact h5

theorem readMaps_len : ∀ {n : Nat} {p : List UInt8} {l : List Map}, readMaps n p = .ok l → l.length = n
  | 0, _, _, h => by cases h; rfl
  | n + 1, p, l, h => by
    unfold readMaps at h
    obtain ⟨_, _, h⟩ := bind_ok h
    obtain ⟨_, _, h⟩ := bind_ok h
    obtain ⟨_, _, h⟩ := bind_ok h
    obtain ⟨l', h4, h⟩ := bind_ok h
    cases h
    rw [List.length_cons, readMaps_len h4]

theorem readCmap_frame {j j' : Codec} {b : List UInt8} (hj : Cols j) (h : readCmap j b = .ok j') :
    stage j = 1 ∧ stage j' = 2 ∧ Cols j' ∧ j'.cdef = j.cdef := by
  unfold readCmap at h
  cases hp : j.pclr with
  | none => rw [hp] at h; cases h
  | some pc =>
    rw [hp] at h
    obtain ⟨_, h0, h⟩ := bind_ok h
    have h0 := refuse_ok h0
    obtain ⟨_, _, h⟩ := bind_ok h
    obtain ⟨ms, h2, h⟩ := bind_ok h
    have hl := readMaps_len h2
    have hn := hj pc hp
    cases h
    refine ⟨?_, ?_, ?_, rfl⟩
    · unfold stage
      rw [hp]
      exact if_pos (Classical.not_not.1 h0)
    · unfold stage
      dsimp only
      rw [if_neg (by intro e; rw [e] at hl; exact hn hl.symm)]
    · intro pc' hpc
      cases hpc
      exact hn

theorem readCdef_frame {j j' : Codec} {b : List UInt8} (h : readCdef j b = .ok j') :
    j.cdef = none ∧ j'.cdef.isSome = true ∧ j'.pclr = j.pclr := by
  unfold readCdef at h
  obtain ⟨_, h0, h⟩ := bind_ok h
  have h0 := refuse_ok h0
  obtain ⟨_, _, h⟩ := bind_ok h
  obtain ⟨_, _, h⟩ := bind_ok h
  obtain ⟨_, _, h⟩ := bind_ok h
  obtain ⟨_, _, h⟩ := bind_ok h
  obtain ⟨_, _, h⟩ := bind_ok h
  cases h
  refine ⟨?_, rfl, rfl⟩
  cases hp : j.cdef with
  | none => rfl
  | some pc => rw [hp] at h0; exact absurd rfl h0

/-- What one box of the header does to palette and definitions. -/
theorem sub_frame {m : Mode} {ty : Nat} {j j' : Codec} {b : List UInt8} (hj : Cols j) (h : subBox m ⟨0, ty, 0⟩ j b = .ok j') :
    Cols j' ∧ stage j ≤ stage j' ∧ (j.cdef.isSome = true → j'.cdef.isSome = true) ∧
    (ty = code 'p' 'c' 'l' 'r' → stage j = 0 ∧ stage j' = 1) ∧ (ty = code 'c' 'm' 'a' 'p' → stage j = 1 ∧ stage j' = 2) ∧
    (ty = code 'c' 'd' 'e' 'f' → j.cdef = none ∧ j'.cdef.isSome = true) ∧ (ty ≠ code 'p' 'c' 'l' 'r' → stage j = 0 → stage j' = 0) := by
  have t1 : code 'p' 'c' 'l' 'r' = tPCLR := by decide
  have t2 : code 'c' 'm' 'a' 'p' = tCMAP := by decide
  have t3 : code 'c' 'd' 'e' 'f' = tCDEF := by decide
  rw [t1, t2, t3]
  have same : ∀ (ty : Nat), ty ≠ tPCLR → ty ≠ tCMAP → ty ≠ tCDEF → j'.pclr = j.pclr ∧ j'.cdef = j.cdef → Cols j' ∧ stage j ≤ stage j' ∧ (j.cdef.isSome = true → j'.cdef.isSome = true) ∧
      (ty = tPCLR → stage j = 0 ∧ stage j' = 1) ∧ (ty = tCMAP → stage j = 1 ∧ stage j' = 2) ∧
      (ty = tCDEF → j.cdef = none ∧ j'.cdef.isSome = true) ∧ (ty ≠ tPCLR → stage j = 0 → stage j' = 0) := by
    intro ty n1 n2 n3 ⟨e1, e2⟩
    obtain ⟨s1, s2⟩ := stage_same e1
    exact ⟨s2 hj, by omega, by rw [e2]; exact id, fun e => absurd e n1, fun e => absurd e n2, fun e => absurd e n3, fun _ => by rw [s1]; exact id⟩
  unfold subBox at h
  split at h
  · dsimp only at h
    unfold readImage at h
    split at h
    · rename_i e; subst e; exact same _ (by decide) (by decide) (by decide) (readIhdr_frame h)
    split at h
    · rename_i e; subst e; exact same _ (by decide) (by decide) (by decide) (readColr_frame h)
    split at h
    · rename_i e; subst e; exact same _ (by decide) (by decide) (by decide) (readBpcc_frame h)
    split at h
    · rename_i e; subst e
      obtain ⟨a, b, c, d⟩ := readPclr_frame h
      exact ⟨c, by omega, by rw [d]; exact id, fun _ => ⟨a, b⟩, (fun e => absurd e (by decide)), (fun e => absurd e (by decide)), (fun e => absurd rfl e)⟩
    split at h
    · rename_i e; subst e
      obtain ⟨a, b, c⟩ := readCdef_frame h
      obtain ⟨s1, s2⟩ := stage_same c
      exact ⟨s2 hj, by omega, fun _ => b, (fun e => absurd e (by decide)), (fun e => absurd e (by decide)), fun _ => ⟨a, b⟩, fun _ => by rw [s1]; exact id⟩
    split at h
    · rename_i e; subst e
      obtain ⟨a, b, c, d⟩ := readCmap_frame hj h
      exact ⟨c, by omega, by rw [d]; exact id, (fun e => absurd e (by decide)), fun _ => ⟨a, b⟩, (fun e => absurd e (by decide)), fun _ h0 => by omega⟩
    · rename_i n1 n2 n3 n4 n5 n6
      cases h
      exact same _ n4 n6 n5 ⟨rfl, rfl⟩
  · rename_i hi
    cases h
    have n : ∀ t, isImage t = true → ty ≠ t := fun t ht e => hi (by show isImage ty = true; rw [e]; exact ht)
    exact same _ (n _ (by decide)) (n _ (by decide)) (n _ (by decide)) ⟨rfl, rfl⟩

theorem subs_frame {m : Mode} : ∀ {l : List (Nat × List UInt8)} {j j' : Codec}, Cols j → subBoxes m l j = .ok j' →
    Cols j' ∧ stage j ≤ stage j' ∧ (j.cdef.isSome = true → j'.cdef.isSome = true) ∧
    ((∀ x ∈ l, x.1 ≠ code 'p' 'c' 'l' 'r') → stage j = 0 → stage j' = 0)
  | [], j, j', hj, h => by cases h; exact ⟨hj, le_refl _, id, fun _ => id⟩
  | (ty, b) :: l, j, j', hj, h => by
    unfold subBoxes at h
    obtain ⟨j1, h1, h⟩ := bind_ok h
    obtain ⟨a1, a2, a3, _, _, _, a7⟩ := sub_frame hj h1
    obtain ⟨b1, b2, b3, b4⟩ := subs_frame a1 h
    exact ⟨b1, by omega, fun e => b3 (a3 e), fun hl e => b4 (fun x hx => hl x (List.mem_cons_of_mem _ hx)) (a7 (hl (ty, b) List.mem_cons_self) e)⟩

/-- A header whose boxes cannot be read makes the file unreadable. -/
theorem file_header_ok {m : Mode} {ftyp cs bytes : List UInt8} {x1 header x2 : List (Nat × List UInt8)}
    (h : IsFile ftyp x1 header x2 cs bytes) (h1 : ∀ x ∈ x1, Unknown x.1) (h2 : ∀ x ∈ x2, Unknown x.1) {r : Codec × St}
    (hr : readFile m {} (St.file bytes) = .ok r) :
    ∃ j j', readFtyp { state := 1 } ftyp = .ok j ∧ j.pclr = none ∧ j.cdef = none ∧ subBoxes m header { j with imgState := 0 } = .ok j' := by
  have e := file_read (m := m) h h1 h2
  rw [hr] at e
  unfold outcome at e
  obtain ⟨j, hj, e⟩ := bind_ok e.symm
  obtain ⟨j', hj', e⟩ := bind_ok e
  cases hs : subBoxes m header { j with imgState := 0 } with
  | error f => rw [hs] at hj'; cases hj'
  | ok j2 =>
    refine ⟨j, j2, hj, ?_, ?_, hs⟩ <;>
    · unfold readFtyp at hj
      obtain ⟨_, _, hj⟩ := bind_ok hj
      obtain ⟨_, _, hj⟩ := bind_ok hj
      obtain ⟨_, _, hj⟩ := bind_ok hj
      obtain ⟨_, _, hj⟩ := bind_ok hj
      obtain ⟨_, _, hj⟩ := bind_ok hj
      obtain ⟨_, _, hj⟩ := bind_ok hj
      cases hj
      rfl

end Jp2.Box

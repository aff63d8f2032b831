import Verif.Jp2.SparseLoop
/-!
# Property C35: sparse coefficient arrays are plain two-dimensional arrays
-/
namespace Jp2.Sparse

/-! ## Specification -/

/-- One call of the API: a read or a write of the rectangle `[x0,x1) × [y0,y1)`, with a buffer in which the cell `(X, Y)` has
the place `(Y - y0) * ls + (X - x0) * cs`. -/
structure Op where
  isRead : Bool
  x0 : Nat
  y0 : Nat
  x1 : Nat
  y1 : Nat
  buf : Mem Int
  cs : Nat
  ls : Nat
  forgiving : Bool

def Op.place (o : Op) (X Y : Nat) : Nat := (Y - o.y0) * o.ls + (X - o.x0) * o.cs

def Op.covers (o : Op) (X Y : Nat) : Prop := o.x0 ≤ X ∧ X < o.x1 ∧ o.y0 ≤ Y ∧ Y < o.y1

instance (o : Op) (X Y : Nat) : Decidable (o.covers X Y) := by unfold Op.covers; infer_instance

/-- A non-empty rectangle within the plane. -/
def Op.inside (w h : Nat) (o : Op) : Prop := o.x0 < o.x1 ∧ o.x1 ≤ w ∧ o.y0 < o.y1 ∧ o.y1 ≤ h

instance (w h : Nat) (o : Op) : Decidable (o.inside w h) := by unfold Op.inside; infer_instance

/-- What the caller owes: the buffer has room for the rectangle (with distinct places when it is to be filled), and a row of it
spans fewer than 2^32 cells. Nothing for a rectangle that is not valid. -/
structure Op.Ok (w h : Nat) (o : Op) : Prop where
  room : o.inside w h → ∀ X Y, o.covers X Y → (o.buf (o.place X Y)).isSome
  apart : o.inside w h → o.isRead = true → ∀ X Y X' Y', o.covers X Y → o.covers X' Y' → o.place X Y = o.place X' Y' → X = X' ∧ Y = Y'
  row : o.inside w h → (o.x1 - o.x0) * o.cs < 2 ^ 32

/-- What a plain array holds at `(X, Y)` after the calls, the latest first: the value of the latest valid write covering it, else 0. -/
def held (w h : Nat) : List Op → Nat → Nat → Int
  | [], _, _ => 0
  | o :: older, X, Y => if o.isRead = false ∧ o.inside w h ∧ o.covers X Y then (o.buf (o.place X Y)).getD 0 else held w h older X Y

/-- One call. -/
def Op.run (o : Op) (sa : Sa) : Option (Bool × Sa × Mem Int) :=
  if o.isRead then read sa o.x0 o.y0 o.x1 o.y1 o.buf o.cs o.ls o.forgiving else write sa o.x0 o.y0 o.x1 o.y1 o.buf o.cs o.ls o.forgiving

/-- Calls in order; the answers and buffers of each, and the final array. -/
def runs : List Op → Sa → Option (List (Bool × Mem Int) × Sa)
  | [], sa => some ([], sa)
  | o :: os, sa => (o.run sa).bind fun (f, sa, b) => (runs os sa).map fun (l, sa) => ((f, b) :: l, sa)

/-- What a call must answer when the plain array holds `g`. -/
def Op.Answer (w h : Nat) (g : Nat → Nat → Int) (o : Op) (r : Bool × Mem Int) : Prop :=
  if o.inside w h then
    r.1 = true ∧
    (o.isRead = true → (∀ X Y, o.covers X Y → r.2 (o.place X Y) = some (g X Y)) ∧ (∀ i, (∀ X Y, o.covers X Y → i ≠ o.place X Y) → r.2 i = o.buf i)) ∧
    (o.isRead = false → r.2 = o.buf)
  else r = (o.forgiving, o.buf)

/-! ## Proofs -/

theorem valid_inside {sa : Sa} {o : Op} : valid sa o.x0 o.y0 o.x1 o.y1 = true ↔ o.inside sa.width sa.height := valid_iff

/-- The array holds `g`. -/
structure Holds (w h : Nat) (g : Nat → Nat → Int) (sa : Sa) : Prop where
  wf : WF sa
  dw : sa.width = w
  dh : sa.height = h
  val : ∀ X Y, X < w → Y < h → get sa X Y = some (g X Y)

theorem run_spec {w h : Nat} {hist : List Op} {sa : Sa} (hh : Holds w h (held w h hist) sa) {o : Op} (ho : o.Ok w h) :
    ∃ f sa' b, o.run sa = some (f, sa', b) ∧ o.Answer w h (held w h hist) (f, b) ∧ Holds w h (held w h (o :: hist)) sa' := by
  have hv : valid sa o.x0 o.y0 o.x1 o.y1 = true ↔ o.inside w h := by rw [valid_inside, hh.dw, hh.dh]
  by_cases hin : o.inside w h
  · have hval := hv.mpr hin
    obtain ⟨i1, i2, i3, i4⟩ := hin
    have hin : o.inside w h := ⟨i1, i2, i3, i4⟩
    unfold Op.run Op.Answer
    simp only [if_pos hin]
    cases hr : o.isRead with
    | true =>
      obtain ⟨b, h1, h2, h3⟩ := read_spec hh.wf (buf := o.buf) o.forgiving hval
        ⟨ho.room hin, ho.apart hin hr, ho.row hin⟩
      refine ⟨true, sa, b, by simp [h1], ⟨rfl, fun _ => ⟨?_, h3⟩, fun h => by simp at h⟩, ?_⟩
      · intro X Y hc
        rw [← hh.val X Y (by have := hc.2.1; omega) (by have := hc.2.2.2; omega)]
        exact h2 X Y hc
      · have : held w h (o :: hist) = held w h hist := by
          funext X Y
          simp [held, hr]
        rw [this]; exact hh
    | false =>
      obtain ⟨sa', h1, h2⟩ := write_spec hh.wf (buf := o.buf) o.forgiving hval (ho.room hin) (ho.row hin)
      refine ⟨true, sa', o.buf, by simp [h1], ⟨rfl, fun h => by simp at h, fun _ => rfl⟩, ⟨h2.wf, h2.dims.1.trans hh.dw, h2.dims.2.1.trans hh.dh, ?_⟩⟩
      intro X Y hX hY
      unfold held
      by_cases hc : o.covers X Y
      · rw [if_pos ⟨hr, hin, hc⟩]
        rw [show get sa' X Y = _ from h2.hit X Y hc (by rw [hh.dw]; exact hX) (by rw [hh.dh]; exact hY)]
        obtain ⟨v, hv⟩ := Option.isSome_iff_exists.mp (ho.room hin X Y hc)
        rw [hv]
        exact hv
      · rw [if_neg (fun h => hc h.2.2)]
        rw [show get sa' X Y = _ from h2.miss X Y hc (by rw [hh.dw]; exact hX) (by rw [hh.dh]; exact hY)]
        exact hh.val X Y hX hY
  · have hval : valid sa o.x0 o.y0 o.x1 o.y1 = false := by
      cases hb : valid sa o.x0 o.y0 o.x1 o.y1
      · rfl
      · exact absurd (hv.mp hb) hin
    refine ⟨o.forgiving, sa, o.buf, ?_, ?_, ?_⟩
    · unfold Op.run read write readOrWrite
      simp only [hval, if_true]
      split <;> rfl
    · unfold Op.Answer
      rw [if_neg hin]
    · have : held w h (o :: hist) = held w h hist := by
        funext X Y
        simp [held, hin]
      rw [this]; exact hh

/-- Answers of a run of calls, `hist` being the calls before (the latest first). -/
def Answers (w h : Nat) : List Op → List Op → List (Bool × Mem Int) → Prop
  | _, [], [] => True
  | hist, o :: os, r :: rs => o.Answer w h (held w h hist) r ∧ Answers w h (o :: hist) os rs
  | _, _, _ => False

theorem runs_spec {w h : Nat} : ∀ (os hist : List Op) (sa : Sa), Holds w h (held w h hist) sa → (∀ o ∈ os, o.Ok w h) →
    ∃ l sa', runs os sa = some (l, sa') ∧ Answers w h hist os l ∧ Holds w h (held w h (os.reverse ++ hist)) sa'
  | [], hist, sa, hh, _ => ⟨[], sa, rfl, trivial, hh⟩
  | o :: os, hist, sa, hh, hok => by
    obtain ⟨f, sa1, b, h1, h2, h3⟩ := run_spec hh (hok o (by simp))
    obtain ⟨l, sa2, h4, h5, h6⟩ := runs_spec os (o :: hist) sa1 h3 (fun o' h => hok o' (by simp [h]))
    refine ⟨(f, b) :: l, sa2, ?_, ⟨h2, h5⟩, ?_⟩
    · simp [runs, h1, h4]
    · simpa using h6

/-- **C35.** For any shape and block size for which an array can be created, and any history of reads and writes, valid or not, whose buffers have
room: the run never leaves an allocation, and the answer of every call is that of a plain array — a valid read fills exactly the
places of its rectangle with the last value written to each cell, 0 where nothing was written; an invalid rectangle returns the `forgiving`
flag and changes nothing. -/
theorem C35_plain_array (w h bw bh : Nat) (hw : w < 2 ^ 32) (hh : h < 2 ^ 32) (sa : Sa) (hc : create w h bw bh = some sa)
    (os : List Op) (hok : ∀ o ∈ os, o.Ok w h) :
    ∃ l sa', runs os sa = some (l, sa') ∧ Answers w h [] os l := by
  obtain ⟨h1, h2, h3, h4⟩ := create_wf hw hh hc
  obtain ⟨l, sa', h5, h6, _⟩ := runs_spec os [] sa ⟨h1, h2, h3, fun X Y hX hY => by rw [h4 X Y hX hY]; rfl⟩ hok
  exact ⟨l, sa', h5, h6⟩

/-- **C35.** Creation fails exactly for an empty plane or block, a block of 2^30 cells or so, or a table of blocks beyond 32 bits. -/
theorem C35_create (w h bw bh : Nat) :
    (create w h bw bh).isSome = true ↔ 0 < w ∧ 0 < h ∧ 0 < bw ∧ 0 < bh ∧ bw * 4 ≤ (2 ^ 32 - 1) / bh ∧
      ((w + bw - 1) / bw) * ((h + bh - 1) / bh) ≤ 2 ^ 32 - 1 := by
  unfold create
  by_cases h0 : w = 0 ∨ h = 0 ∨ bw = 0 ∨ bh = 0
  · rw [if_pos h0]
    simp only [Option.isSome_none, Bool.false_eq_true, false_iff]
    omega
  rw [if_neg h0]
  have hA : (bw > (2 ^ 32 - 1) / bh / 4) ↔ ¬ bw * 4 ≤ (2 ^ 32 - 1) / bh := by omega
  have hcv : 0 < ceildiv h bh := by
    unfold ceildiv
    exact Nat.div_pos (by omega) (by omega)
  have hB : (ceildiv w bw > (2 ^ 32 - 1) / ceildiv h bh) ↔ ¬ ceildiv w bw * ceildiv h bh ≤ 2 ^ 32 - 1 := by
    rw [← Nat.le_div_iff_mul_le hcv]
    omega
  unfold ceildiv at hB ⊢
  split
  · rename_i h1
    simp only [Option.isSome_none, Bool.false_eq_true, false_iff]
    intro h; exact hA.mp h1 h.2.2.2.2.1
  · rename_i h1
    split
    · rename_i h2
      simp only [Option.isSome_none, Bool.false_eq_true, false_iff]
      intro h; exact hB.mp h2 h.2.2.2.2.2
    · rename_i h2
      simp only [Option.isSome_some, true_iff]
      refine ⟨by omega, by omega, by omega, by omega, ?_, ?_⟩
      · by_contra hne; exact h1 (hA.mpr hne)
      · by_contra hne; exact h2 (hB.mpr hne)

/-! A 5 × 4 plane in 2 × 3 blocks; a write of `[1,4) × [1,4)` then a read of `[0,5) × [2,4)`. -/

def sampleWrite : Op := ⟨false, 1, 1, 4, 4, fun i => if i < 9 then some (i + 1) else none, 1, 3, false⟩
def sampleRead : Op := ⟨true, 0, 2, 5, 4, fun i => if i < 10 then some 99 else none, 1, 5, false⟩
def sampleBad : Op := ⟨false, 3, 0, 6, 1, fun _ => none, 1, 3, true⟩

example : (create 5 4 2 3).isSome = true := by decide
example : sampleWrite.Ok 5 4 ∧ sampleRead.Ok 5 4 ∧ sampleBad.Ok 5 4 ∧ ¬ sampleBad.inside 5 4 := by
  refine ⟨⟨?_, ?_, ?_⟩, ⟨?_, ?_, ?_⟩, ⟨?_, ?_, ?_⟩, by decide⟩
  · intro _ X Y ⟨a, b, c, d⟩
    simp only [sampleWrite] at a b c d
    simp only [sampleWrite, Op.place]
    rw [if_pos (by omega)]; rfl
  · intro _ h; exact absurd h (by decide)
  · intro _; decide
  · intro _ X Y ⟨a, b, c, d⟩
    simp only [sampleRead] at a b c d
    simp only [sampleRead, Op.place]
    rw [if_pos (by omega)]; rfl
  · intro _ _ X Y X' Y' ⟨a, b, c, d⟩ ⟨a', b', c', d'⟩ he
    simp only [sampleRead, Op.place] at *
    omega
  · intro _; decide
  · intro h; exact absurd h (by decide)
  · intro h; exact absurd h (by decide)
  · intro h; exact absurd h (by decide)
example : held 5 4 [sampleBad, sampleWrite] 2 3 = 8 ∧ held 5 4 [sampleBad, sampleWrite] 4 3 = 0 := by decide
example : ((create 5 4 2 3).bind (runs [sampleWrite, sampleBad, sampleRead])).map (fun r => r.1.map fun (f, b) => (f, (List.range 10).map b)) =
    some [(true, [some 1, some 2, some 3, some 4, some 5, some 6, some 7, some 8, some 9, none]), (true, List.replicate 10 none),
      (true, [some 0, some 4, some 5, some 6, some 0, some 0, some 7, some 8, some 9, some 0])] := by decide +kernel

end Jp2.Sparse

import Verif.Jp2.Stream
import Mathlib.Tactic.ByContra
/-!
# Property C36: byte stream accounting
-/
namespace Jp2.Stream

/-- No read of the file fails (short and interrupted reads are allowed). -/
def Quiet (l : List Ev) : Prop := Ev.fail ∉ l

/-- Outcome of `read_exact` with no failing read: either filled, or everything that was left is consumed. -/
theorem readExact_spec : ∀ (fuel n : Nat) (s : Inner) (acc : List UInt8), Quiet s.sched → n + s.sched.length < fuel →
    ∃ sched', Quiet sched' ∧ sched'.length ≤ s.sched.length ∧
      s.readExact fuel n acc =
        if n ≤ s.data.length - s.pos then (.ok (), acc ++ (s.data.drop s.pos).take n, { s with pos := s.pos + n, sched := sched' })
        else (.error .eof, acc ++ s.data.drop s.pos, { s with pos := s.pos + (s.data.length - s.pos), sched := sched' }) := by
  intro fuel
  induction fuel with
  | zero => intro n s acc _ h; omega
  | succ fuel ih =>
    intro n s acc hq hf
    unfold Inner.readExact
    by_cases hn : n = 0
    · refine ⟨s.sched, hq, Nat.le_refl _, ?_⟩
      subst hn
      simp
    rw [if_neg hn]
    -- a read that gives `m` bytes
    have give : ∀ (k : Nat) (t : List Ev), Quiet t → t.length ≤ s.sched.length →
        ∀ m, m = min (min n (s.data.length - s.pos)) (max 1 k) →
        ∃ sched', Quiet sched' ∧ sched'.length ≤ s.sched.length ∧
        (if ((s.data.drop s.pos).take m).isEmpty then ((.error .eof : Except Err Unit), acc, ({ s with pos := s.pos + m, sched := t } : Inner))
          else Inner.readExact fuel { s with pos := s.pos + m, sched := t } (n - ((s.data.drop s.pos).take m).length) (acc ++ (s.data.drop s.pos).take m)) =
        if n ≤ s.data.length - s.pos then (.ok (), acc ++ (s.data.drop s.pos).take n, { s with pos := s.pos + n, sched := sched' })
        else (.error .eof, acc ++ s.data.drop s.pos, { s with pos := s.pos + (s.data.length - s.pos), sched := sched' }) := by
      intro k t hqt htl m hm
      have hlen : ((s.data.drop s.pos).take m).length = m := by simp; omega
      by_cases ha : s.data.length - s.pos = 0
      · have hm0 : m = 0 := by omega
        refine ⟨t, hqt, htl, ?_⟩
        rw [if_neg (show ¬ n ≤ s.data.length - s.pos by omega)]
        have hd : s.data.drop s.pos = [] := List.drop_eq_nil_of_le (by omega)
        simp [hd, hm0, ha]
      · have hm1 : 1 ≤ m := by omega
        have hne : ((s.data.drop s.pos).take m).isEmpty = false := by
          cases h : (s.data.drop s.pos).take m with
          | nil => rw [h] at hlen; simp at hlen; omega
          | cons => rfl
        rw [hne, hlen, if_neg (by decide)]
        obtain ⟨t', h1, h2, h3⟩ := ih (n - m) { s with pos := s.pos + m, sched := t } (acc ++ (s.data.drop s.pos).take m) hqt
          (by show n - m + t.length < fuel; omega)
        refine ⟨t', h1, Nat.le_trans h2 htl, ?_⟩
        rw [h3]
        have hml : m ≤ s.data.length - s.pos := by omega
        have hmn : m ≤ n := by omega
        have e1 : (s.data.drop s.pos).take m ++ (s.data.drop (s.pos + m)) = s.data.drop s.pos := by
          rw [← List.drop_drop]; exact List.take_append_drop _ _
        have e2 : (s.data.drop s.pos).take m ++ (s.data.drop (s.pos + m)).take (n - m) = (s.data.drop s.pos).take n := by
          rw [← List.drop_drop]
          conv_rhs => rw [show n = m + (n - m) by omega, List.take_add]
        by_cases hle : n ≤ s.data.length - s.pos
        · rw [if_pos (show n - m ≤ s.data.length - (s.pos + m) by omega), if_pos hle]
          simp only [List.append_assoc, e2]
          congr 3
          omega
        · rw [if_neg (show ¬ n - m ≤ s.data.length - (s.pos + m) by omega), if_neg hle]
          simp only [List.append_assoc, e1]
          congr 3
          omega
    unfold Inner.read
    cases hs : s.sched with
    | nil =>
      obtain ⟨t', h1, h2, h3⟩ := give n [] (by unfold Quiet; simp) (by simp) _ rfl
      rw [hs] at h2
      exact ⟨t', h1, h2, h3⟩
    | cons e t =>
      have hqt : Quiet t := fun h => hq (by rw [hs]; exact List.mem_cons_of_mem _ h)
      have htl : t.length ≤ s.sched.length := by rw [hs]; simp
      cases e with
      | upTo k =>
        obtain ⟨t', h1, h2, h3⟩ := give k t hqt htl _ rfl
        rw [hs] at h2
        exact ⟨t', h1, h2, h3⟩
      | intr =>
        obtain ⟨t', h1, h2, h3⟩ := ih n { s with sched := t } acc hqt (by rw [hs] at hf; simp at hf; show n + t.length < fuel; omega)
        refine ⟨t', h1, Nat.le_trans h2 (by simp), ?_⟩
        exact h3
      | fail => exact absurd (by rw [hs]; simp) hq

theorem read_at_eof {i : Inner} (n : Nat) (hq : Quiet i.sched) (he : i.data.length ≤ i.pos) :
    ∃ r sched', i.read n = (r, { i with sched := sched' }) ∧ Quiet sched' ∧ (r = .ok [] ∨ r = .error .interrupted) := by
  have hd : ∀ m, (i.data.drop i.pos).take m = [] := fun m => by rw [List.drop_eq_nil_of_le he]; simp
  have h0 : ∀ k, min (min n (i.data.length - i.pos)) (max 1 k) = 0 := fun k => by omega
  unfold Inner.read
  cases hs : i.sched with
  | nil => exact ⟨.ok [], [], by simp [hd, h0], by unfold Quiet; simp, Or.inl rfl⟩
  | cons e t =>
    have hqt : Quiet t := fun h => hq (by rw [hs]; exact List.mem_cons_of_mem _ h)
    cases e with
    | upTo k => exact ⟨.ok [], t, by simp [hd, h0], hqt, Or.inl rfl⟩
    | intr => exact ⟨.error .interrupted, t, rfl, hqt, Or.inr rfl⟩
    | fail => exact absurd (by rw [hs]; simp) hq

/-- **C36**, part. A read of no more than what is left, on a file that may give short and interrupted reads, returns its size and fills the buffer
with the next bytes; the file and `tell()` advance by that size together. -/
theorem C36_read_partial (s : Stream) (buf : List UInt8) (hq : Quiet s.inner.sched) (hle : buf.length ≤ s.inner.data.length - s.inner.pos) :
    ∃ s', s.read buf = (.ok buf.length, (s.inner.data.drop s.inner.pos).take buf.length, s') ∧
      s'.tell = s.tell + buf.length ∧ s'.inner.pos = s.inner.pos + buf.length ∧ s'.inner.data = s.inner.data ∧ s'.len = s.len ∧ Quiet s'.inner.sched := by
  obtain ⟨t, h1, _, h3⟩ := readExact_spec (buf.length + s.inner.sched.length + 1) buf.length s.inner [] hq (by omega)
  rw [if_pos hle] at h3
  refine ⟨⟨{ s.inner with pos := s.inner.pos + buf.length, sched := t }, s.len, s.off + buf.length⟩, ?_, rfl, rfl, rfl, rfl, h1⟩
  unfold Stream.read
  rw [h3]
  simp only [over, List.nil_append]
  rw [show buf.drop ((s.inner.data.drop s.inner.pos).take buf.length).length = [] from List.drop_eq_nil_of_le (by simp; omega), List.append_nil]

/-- **C36** is false for a read of more than what is left: the bytes that were left are consumed and put in the buffer, yet the call does not
report them (it returns 0, or an error when interrupted) and `tell()` stays: the position it reports is not that of the file, and the bytes are lost. -/
theorem C36_short_read_lost (s : Stream) (buf : List UInt8) (hq : Quiet s.inner.sched) (hgt : s.inner.data.length - s.inner.pos < buf.length) :
    ∃ r buf' s', s.read buf = (r, buf', s') ∧ (r = .ok 0 ∨ r = .error .interrupted) ∧
      s'.tell = s.tell ∧ s'.inner.pos = s.inner.pos + (s.inner.data.length - s.inner.pos) ∧ s'.inner.data = s.inner.data ∧ s'.len = s.len ∧ Quiet s'.inner.sched := by
  obtain ⟨t, h1, _, h3⟩ := readExact_spec (buf.length + s.inner.sched.length + 1) buf.length s.inner [] hq (by omega)
  rw [if_neg (by omega)] at h3
  obtain ⟨r, t', h4, h5, h6⟩ := read_at_eof (i := { s.inner with pos := s.inner.pos + (s.inner.data.length - s.inner.pos), sched := t }) buf.length h1
    (by show s.inner.data.length ≤ s.inner.pos + (s.inner.data.length - s.inner.pos); omega)
  unfold Stream.read
  rw [h3]
  simp only
  rw [h4]
  rcases h6 with h6 | h6
  · subst h6
    exact ⟨_, _, _, rfl, Or.inl rfl, by show s.off + ((0 : Nat) : Int) = s.off; omega, rfl, rfl, rfl, h5⟩
  · subst h6
    exact ⟨_, _, _, rfl, Or.inr rfl, rfl, rfl, rfl, rfl, h5⟩

/-- The witness: asking three bytes for five. -/
theorem C36_short_read_lost_witness :
    (newFile [1, 2, 3] []).read [0, 0, 0, 0, 0] = (.ok 0, [1, 2, 3, 0, 0], ⟨⟨[1, 2, 3], 3, []⟩, 3, 0⟩) := rfl

/-! ## Histories -/

inductive Op
  | read (buf : List UInt8)
  | skip (count : Int)
  | seek (offset : Int)

def Op.run : Op → Stream → Stream
  | .read buf, s => (s.read buf).2.2
  | .skip c, s => (s.skip c).2
  | .seek o, s => (s.seek o).2

/-- The read does not cross the end of the file (or starts there). -/
def Op.fine (s : Stream) : Op → Prop
  | .read buf => buf.length ≤ s.inner.data.length - s.inner.pos ∨ s.inner.data.length ≤ s.inner.pos
  | _ => True

/-- None of the reads crosses the end of the file. -/
def AllFine : List Op → Stream → Prop
  | [], _ => True
  | o :: os, s => o.fine s ∧ AllFine os (o.run s)

/-- `tell()` is the position in the file. -/
def Sync (s : Stream) : Prop := s.tell = s.inner.pos

theorem seekRelative_spec (i : Inner) (d : Int) : (0 ≤ (i.pos : Int) + d ∧ ∃ p : Nat, (p : Int) = i.pos + d ∧ i.seekRelative d = (.ok (), { i with pos := p })) ∨
    ((i.pos : Int) + d < 0 ∧ i.seekRelative d = (.error .io, i)) := by
  unfold Inner.seekRelative
  split
  · right; constructor <;> trivial
  · left; exact ⟨by omega, _, by omega, rfl⟩

/-- **C36**, part. After any sequence of reads, skips and seeks on a file, with any schedule of short and interrupted reads, in which no read
asks for more than what is left while something is left, `tell()` is the position in the file. What is missing — reads that cross the end — is
`C36_short_read_lost`. -/
theorem C36_history_partial (data : List UInt8) (sched : List Ev) (hq : Quiet sched) (ops : List Op) (hf : AllFine ops (newFile data sched)) :
    Sync (ops.foldl (fun s o => o.run s) (newFile data sched)) := by
  have main : ∀ (ops : List Op) (s : Stream), Quiet s.inner.sched → Sync s → AllFine ops s → Sync (ops.foldl (fun s o => o.run s) s) := by
    intro ops
    induction ops with
    | nil => intro s _ hs _; exact hs
    | cons o os ih =>
      intro s hq hs ⟨hf, hfs⟩
      have key : Quiet (o.run s).inner.sched ∧ Sync (o.run s) := by
        unfold Sync Stream.tell at *
        cases o with
        | read buf =>
          rcases hf with hf | hf
          · obtain ⟨s', h1, h2, h3, _, _, h4⟩ := C36_read_partial s buf hq hf
            simp only [Op.run, h1]
            exact ⟨h4, by unfold Stream.tell at h2; rw [h2, h3, hs]; simp⟩
          · by_cases hb : buf.length = 0
            · obtain ⟨s', h1, h2, h3, _, _, h4⟩ := C36_read_partial s buf hq (by omega)
              simp only [Op.run, h1]
              exact ⟨h4, by unfold Stream.tell at h2; rw [h2, h3, hs]; simp⟩
            · obtain ⟨r, b, s', h1, _, h2, h3, _, _, h4⟩ := C36_short_read_lost s buf hq (by omega)
              simp only [Op.run, h1]
              exact ⟨h4, by unfold Stream.tell at h2; rw [h2, h3, hs]; omega⟩
        | skip c =>
          simp only [Op.run, Stream.skip]
          split
          · exact ⟨hq, hs⟩
          split
          · exact ⟨hq, hs⟩
          rcases seekRelative_spec s.inner c with ⟨_, p, hp, h⟩ | ⟨_, h⟩
          · rw [h]; exact ⟨hq, by simp only; omega⟩
          · rw [h]; exact ⟨hq, hs⟩
        | seek c =>
          simp only [Op.run, Stream.seek]
          rcases seekRelative_spec s.inner (c - s.off) with ⟨_, p, hp, h⟩ | ⟨_, h⟩
          · rw [h]; exact ⟨hq, by simp only; omega⟩
          · rw [h]; exact ⟨hq, hs⟩
      exact ih _ key.1 key.2 hfs
  exact main ops _ hq rfl hf

/-- **C36.** While `tell()` is the position in the file: a skip succeeds exactly when its count is not negative and it stays within the
declared length (if there is one), and then moves by that count; otherwise nothing changes. -/
theorem C36_skip (s : Stream) (hs : Sync s) (count : Int) (hsmall : s.tell + count < 2 ^ 64) :
    (0 ≤ count ∧ (s.len = 0 ∨ s.tell + count ≤ s.len) → ∃ s', s.skip count = (.ok count, s') ∧ s'.tell = s.tell + count ∧ Sync s' ∧ s'.inner.data = s.inner.data) ∧
    (¬ (0 ≤ count ∧ (s.len = 0 ∨ s.tell + count ≤ s.len)) → ∃ e, s.skip count = (.error e, s)) := by
  unfold Sync Stream.tell at *
  constructor
  · intro ⟨h0, h1⟩
    unfold Stream.skip
    rw [if_neg (by omega), if_neg (by omega)]
    rcases seekRelative_spec s.inner count with ⟨_, p, hp, h⟩ | ⟨h', _⟩
    · rw [h]; exact ⟨_, rfl, rfl, by simp only; omega, rfl⟩
    · omega
  · intro hne
    unfold Stream.skip
    by_cases h0 : count < 0
    · rw [if_pos h0]; exact ⟨_, rfl⟩
    · rw [if_neg h0, if_pos (by omega)]; exact ⟨_, rfl⟩

/-- **C36.** While `tell()` is the position in the file: a seek to any offset that is not negative (even past the end) succeeds and moves there; to a
negative one it fails and changes nothing. -/
theorem C36_seek (s : Stream) (hs : Sync s) (offset : Int) :
    (0 ≤ offset → ∃ s', s.seek offset = (.ok (), s') ∧ s'.tell = offset ∧ Sync s' ∧ s'.inner.data = s.inner.data) ∧
    (offset < 0 → ∃ e, s.seek offset = (.error e, s)) := by
  unfold Sync Stream.tell at *
  unfold Stream.seek
  constructor
  · intro h0
    rcases seekRelative_spec s.inner (offset - s.off) with ⟨_, p, hp, h⟩ | ⟨h', _⟩
    · rw [h]; exact ⟨_, rfl, rfl, by simp only; omega, rfl⟩
    · omega
  · intro h0
    rcases seekRelative_spec s.inner (offset - s.off) with ⟨h', _⟩ | ⟨_, h⟩
    · omega
    · rw [h]; exact ⟨_, rfl⟩

/-- **C36.** After a lost tail, seeking does not repair the accounting: seeking to any offset that the file could hold leaves the file
further along than `tell()` says by exactly the number of bytes lost. -/
theorem C36_seek_after_short_read (s : Stream) (hs : Sync s) (buf : List UInt8) (hq : Quiet s.inner.sched) (lost : Nat) (hl : lost = s.inner.data.length - s.inner.pos)
    (hgt : lost < buf.length) (offset : Nat) :
    ∃ s', (s.read buf).2.2.seek offset = (.ok (), s') ∧ s'.tell = offset ∧ s'.inner.pos = offset + lost := by
  obtain ⟨r, b, s1, h1, _, h2, h3, _⟩ := C36_short_read_lost s buf hq (by omega)
  unfold Sync Stream.tell at *
  rw [h1]
  simp only
  unfold Stream.seek
  rcases seekRelative_spec s1.inner (offset - s1.off) with ⟨_, p, hp, h⟩ | ⟨h', _⟩
  · rw [h]; exact ⟨_, rfl, rfl, by show p = _; omega⟩
  · omega

/-- **C36.** The number of bytes left is the declared length less `tell()`; asking panics exactly when `tell()` is outside `0..=length`: for instance
after any read from a stream whose length was never declared, or a seek past the end. -/
theorem C36_bytes_left (s : Stream) :
    s.bytesLeft = if 0 ≤ s.tell ∧ s.tell ≤ s.len then some (s.len - s.tell) else none := by
  unfold Stream.bytesLeft Stream.tell
  by_cases h0 : s.off < 0
  · rw [if_pos h0, if_neg (by omega)]
  · rw [if_neg h0]
    by_cases h1 : (s.len : Int) < s.off
    · rw [if_pos h1, if_neg (by omega)]
    · rw [if_neg h1, if_pos (show 0 ≤ s.off ∧ s.off ≤ (s.len : Int) by omega)]
      have hz : s.len = 0 → s.off = 0 := by omega
      simp only [Option.some.injEq]
      split
      · rfl
      · rename_i h
        have h3 : s.len = 0 := by by_contra hc; exact h hc
        rw [hz h3, h3]; rfl

/-! ## Output streams -/

inductive WOp
  | write (bs : List UInt8)
  | skip (count : Int)
  | seek (offset : Int)

def WOp.run : WOp → Out → Out
  | .write bs, s => (s.write bs).2
  | .skip c, s => (s.skip c).2
  | .seek o, s => (s.seek o).2

/-- Specification: where a byte store addressed by offsets stands. -/
structure Spec where
  at' : Nat
  size : Nat
  byte : Nat → UInt8

def WOp.spec : WOp → Spec → Spec
  | .write bs, a => if bs = [] then a else
      ⟨a.at' + bs.length, max a.size (a.at' + bs.length), fun i => if a.at' ≤ i ∧ i < a.at' + bs.length then (bs[i - a.at']?).getD 0 else a.byte i⟩
  | .skip c, a => if c < 0 then a else { a with at' := a.at' + c.toNat }
  | .seek o, a => if o < 0 then a else { a with at' := o.toNat }

def Out.matches (s : Out) (a : Spec) : Prop :=
  s.tell = a.at' ∧ s.pos = a.at' ∧ s.data.length = a.size ∧ (∀ i, i < a.size → s.data[i]? = some (a.byte i)) ∧ ∀ i, a.size ≤ i → a.byte i = 0

theorem put_length (data : List UInt8) (pos : Nat) (bs : List UInt8) (h : bs ≠ []) : (put data pos bs).length = max data.length (pos + bs.length) := by
  have hl := List.length_pos_iff.mpr h
  unfold put
  rw [if_neg h]
  simp
  omega

theorem put_get (data : List UInt8) (pos : Nat) (bs : List UInt8) (h : bs ≠ []) (i : Nat) (hi : i < max data.length (pos + bs.length)) :
    (put data pos bs)[i]? = some (if pos ≤ i ∧ i < pos + bs.length then (bs[i - pos]?).getD 0 else (data[i]?).getD 0) := by
  have hl := List.length_pos_iff.mpr h
  have hA : ((data ++ List.replicate (pos - data.length) 0).take pos).length = pos := by simp; omega
  unfold put
  rw [if_neg h]
  by_cases h1 : i < pos
  · rw [List.append_assoc, List.getElem?_append_left (by omega), if_neg (by omega), List.getElem?_take_of_lt h1]
    by_cases h2 : i < data.length
    · rw [List.getElem?_append_left h2, List.getElem?_eq_getElem h2]; rfl
    · rw [List.getElem?_append_right (by omega), List.getElem?_replicate, if_pos (by omega), List.getElem?_eq_none (by omega)]; rfl
  · by_cases h2 : i < pos + bs.length
    · rw [List.append_assoc, List.getElem?_append_right (by omega), hA, List.getElem?_append_left (by omega), if_pos (by omega),
        List.getElem?_eq_getElem (by omega)]; rfl
    · have hlen2 : ((data ++ List.replicate (pos - data.length) 0).take pos ++ bs).length = pos + bs.length := by rw [List.length_append, hA]
      rw [List.getElem?_append_right (by omega), hlen2, List.getElem?_drop, if_neg (by omega), show pos + bs.length + (i - (pos + bs.length)) = i by omega,
        List.getElem?_eq_getElem (by omega)]; rfl

/-- **C36.** Output: after any sequence of writes, skips and seeks, `tell()` is the offset of the next byte written, and the file holds, at each offset, the
byte last written there, zeros in the gaps, and nothing beyond the furthest write. -/
theorem C36_output (ops : List WOp) :
    (ops.foldl (fun s o => o.run s) (⟨[], 0, 0⟩ : Out)).matches (ops.foldl (fun a o => o.spec a) ⟨0, 0, fun _ => 0⟩) := by
  have main : ∀ (ops : List WOp) (s : Out) (a : Spec), s.matches a → (ops.foldl (fun s o => o.run s) s).matches (ops.foldl (fun a o => o.spec a) a) := by
    intro ops
    induction ops with
    | nil => intro s a h; exact h
    | cons o os ih =>
      intro s a h
      apply ih
      obtain ⟨h1, h2, h3, h4, h5⟩ := h
      unfold Out.tell at h1
      cases o with
      | write bs =>
        simp only [WOp.run, WOp.spec, Out.write]
        by_cases hb : bs = []
        · subst hb
          rw [if_pos rfl]
          refine ⟨by unfold Out.tell; simp [h1], by simp [h2], ?_, ?_, h5⟩
          · simp [put, h3]
          · simpa [put] using h4
        · rw [if_neg hb]
          have hl := List.length_pos_iff.mpr hb
          refine ⟨by unfold Out.tell; simp [h1], by simp [h2], by simp only [put_length _ _ _ hb, h2, h3], ?_, ?_⟩
          · intro i hi
            simp only at hi ⊢
            rw [put_get _ _ _ hb i (by rw [h2, h3]; exact hi), h2]
            congr 1
            split
            · rfl
            · by_cases hi2 : i < a.size
              · rw [h4 i hi2]; rfl
              · rw [h5 i (by omega), List.getElem?_eq_none (by omega)]; rfl
          · intro i hi
            simp only at hi ⊢
            rw [if_neg (by omega), h5 i (by omega)]
      | skip c =>
        simp only [WOp.run, WOp.spec, Out.skip]
        by_cases hc : c < 0
        · rw [if_pos hc, if_pos hc]; exact ⟨h1, h2, h3, h4, h5⟩
        · rw [if_neg hc, if_neg hc, if_neg (by omega)]
          exact ⟨by unfold Out.tell; simp only; omega, by simp only; omega, h3, h4, h5⟩
      | seek c =>
        simp only [WOp.run, WOp.spec, Out.seek]
        by_cases hc : c < 0
        · rw [if_pos (by omega), if_pos hc]; exact ⟨h1, h2, h3, h4, h5⟩
        · rw [if_neg (by omega), if_neg hc]
          exact ⟨by unfold Out.tell; simp only; omega, by simp only; omega, h3, h4, h5⟩
  exact main ops _ _ ⟨rfl, rfl, rfl, fun i h => by simp at h, fun _ _ => rfl⟩

/-! Cases that meet the hypotheses. -/

example : Quiet [Ev.upTo 1, .intr, .upTo 2] := by unfold Quiet; decide
example : (newFile [1, 2, 3, 4] [Ev.upTo 1, .intr, .upTo 2]).read [0, 0, 0] = (.ok 3, [1, 2, 3], ⟨⟨[1, 2, 3, 4], 3, []⟩, 4, 3⟩) := rfl
example : AllFine [.read [0, 0], .skip 1, .read [0], .read [0], .seek 1, .read [0]] (newFile [1, 2, 3, 4] [.upTo 1]) := by
  refine ⟨Or.inl ?_, trivial, Or.inl ?_, Or.inr ?_, trivial, Or.inl ?_, trivial⟩ <;> decide
example : (([.write [1, 2], .seek 4, .write [9], .seek 1, .write [7, 7]] : List WOp).foldl (fun s o => o.run s) (⟨[], 0, 0⟩ : Out)) = ⟨[1, 7, 7, 0, 9], 3, 3⟩ := by decide

end Jp2.Stream

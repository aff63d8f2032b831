import Verif.Jp2.Cio
/-!
# Property theorems about the big-endian codecs (C25)
-/
namespace Jp2.Cio

/-! ## Helpers -/

theorem toBe_length (n v : Nat) : (toBe n v).length = n := by
  induction n with
  | zero => rfl
  | succ n ih => simp [toBe, ih]

theorem fromBe_append (a b : List UInt8) : fromBe (a ++ b) = fromBe a * 256 ^ b.length + fromBe b := by
  unfold fromBe
  rw [List.foldl_append]
  generalize List.foldl (fun a b => a * 256 + UInt8.toNat b) 0 a = x
  induction b generalizing x with
  | nil => simp
  | cons y b ih =>
    simp only [List.foldl_cons, List.length_cons]
    rw [ih, ih (0 * 256 + y.toNat)]
    rw [Nat.pow_succ, Nat.add_mul]
    have e : x * 256 * 256 ^ b.length = x * (256 ^ b.length * 256) := by
      rw [Nat.mul_assoc, Nat.mul_comm 256]
    rw [e]; simp [Nat.add_assoc]

theorem fromBe_cons (x : UInt8) (l : List UInt8) : fromBe (x :: l) = x.toNat * 256 ^ l.length + fromBe l := by
  have := fromBe_append [x] l
  simpa [fromBe] using this

theorem fromBe_toBe (n v : Nat) : fromBe (toBe n v) = v % 256 ^ n := by
  induction n with
  | zero => simp [toBe, fromBe, Nat.mod_one]
  | succ n ih =>
    rw [toBe, fromBe_cons, ih, toBe_length, UInt8.toNat_ofNat_of_lt' (by show _ < 256; omega)]
    have : v % 256 ^ (n + 1) = v % 256 ^ n + 256 ^ n * (v / 256 ^ n % 256) := Nat.mod_pow_succ
    rw [this, Nat.mul_comm]; omega

theorem fromBe_lt (l : List UInt8) : fromBe l < 256 ^ l.length := by
  induction l with
  | nil => simp [fromBe]
  | cons x l ih =>
    rw [fromBe_cons, List.length_cons, Nat.pow_succ]
    have := x.toNat_lt
    have h2 : x.toNat * 256 ^ l.length ≤ 255 * 256 ^ l.length := Nat.mul_le_mul_right _ (by omega)
    omega

theorem toBe_fromBe (l : List UInt8) : toBe l.length (fromBe l) = l := by
  induction l with
  | nil => rfl
  | cons x l ih =>
    have hlt := fromBe_lt l
    have hx := x.toNat_lt
    simp only [List.length_cons, toBe]
    have hpos : 0 < 256 ^ l.length := Nat.pos_of_neZero _
    have e1 : fromBe (x :: l) / 256 ^ l.length = x.toNat := by
      rw [fromBe_cons, Nat.mul_comm, Nat.mul_add_div hpos, Nat.div_eq_of_lt hlt]; rfl
    have e2 : ∀ (n v w : Nat), v % 256 ^ n = w % 256 ^ n → toBe n v = toBe n w := by
      intro n
      induction n with
      | zero => intros; rfl
      | succ n ihn =>
        intro v w h
        have h1 : v / 256 ^ n % 256 = w / 256 ^ n % 256 := by
          have a : v % 256 ^ (n + 1) / 256 ^ n = v / 256 ^ n % 256 := by
            rw [Nat.pow_succ, Nat.mod_mul_right_div_self]
          have b : w % 256 ^ (n + 1) / 256 ^ n = w / 256 ^ n % 256 := by
            rw [Nat.pow_succ, Nat.mod_mul_right_div_self]
          rw [← a, ← b, h]
        have h2 : v % 256 ^ n = w % 256 ^ n := by
          have := congrArg (· % 256 ^ n) h
          simpa [Nat.pow_succ, Nat.mod_mul_right_mod] using this
        rw [toBe, toBe, h1, ihn v w h2]
    rw [e1, e2 l.length _ (fromBe l), ih]
    · have e3 : x.toNat % 256 = x.toNat := Nat.mod_eq_of_lt hx
      rw [e3]; simp
    · rw [fromBe_cons, Nat.mul_comm, Nat.mul_add_mod]

theorem toBe_drop (n k v : Nat) : (toBe (k + n) v).drop k = toBe n v := by
  induction k with
  | zero => simp
  | succ k ih =>
    rw [show k + 1 + n = k + n + 1 by omega, toBe, List.drop_succ_cons, ih]

theorem sliceOf_copyTo (mem src mem' : List UInt8) (off : Nat) (h : copyTo mem off src = some mem') :
    sliceOf mem' off src.length = some src := by
  unfold copyTo at h
  split at h
  · rename_i hl
    simp only [Option.some.injEq] at h
    subst h
    unfold sliceOf
    have hm : (mem.take off).length = off := by rw [List.length_take]; omega
    rw [if_pos (by simp; omega), List.append_assoc, List.drop_append_of_le_length (by omega),
      List.drop_of_length_le (by omega), List.nil_append, List.take_left']
    rfl
  · simp at h

theorem fromBe_zeros (k : Nat) (l : List UInt8) : fromBe (List.replicate k 0 ++ l) = fromBe l := by
  induction k with
  | zero => simp
  | succ k ih =>
    rw [List.replicate_succ, List.cons_append, fromBe_cons, ih]
    simp

theorem write_src (v nb : Nat) (h : nb ≤ 4) : (toBe 4 v).drop (4 - nb) = toBe nb v := by
  have := toBe_drop nb (4 - nb) v
  rwa [Nat.sub_add_cancel h] at this

/-! ## Properties -/

/-- **C25.** Reading back an `nb`-byte field yields the value modulo `2^(8·nb)`. -/
theorem C25_read_write (mem mem' : List UInt8) (off v nb : Nat) (h : writeBytes mem off v nb = some mem') :
    readBytes mem' off nb = some (v % 2 ^ (8 * nb)) := by
  unfold writeBytes at h
  split at h
  · rename_i hn
    rw [write_src v nb hn.2] at h
    have := sliceOf_copyTo mem _ mem' off h
    rw [toBe_length] at this
    unfold readBytes
    rw [if_pos hn, this, Option.map_some, fromBe_zeros, fromBe_toBe, Nat.pow_mul]
  · simp at h

/-- **C25.** A write changes exactly the bytes `off .. off+nb` and keeps the buffer length. -/
theorem C25_write_frame (mem mem' : List UInt8) (off v nb : Nat) (h : writeBytes mem off v nb = some mem') :
    mem'.length = mem.length ∧ ∀ i, (i < off ∨ off + nb ≤ i) → mem'[i]? = mem[i]? := by
  unfold writeBytes at h
  split at h
  · rename_i hn
    rw [write_src v nb hn.2] at h
    unfold copyTo at h
    rw [toBe_length] at h
    split at h
    · rename_i hl
      simp only [Option.some.injEq] at h
      subst h
      refine ⟨by simp [toBe_length]; omega, fun i hi => ?_⟩
      rcases hi with hi | hi
      · rw [List.append_assoc, List.getElem?_append_left (by simp; omega), List.getElem?_take_of_lt hi]
      · rw [List.getElem?_append_right (by simp [toBe_length]; omega), List.getElem?_drop]
        congr 1
        simp [toBe_length]; omega
    · simp at h
  · simp at h

/-- **C25.** Both directions are defined exactly for widths 1 to 4 inside the buffer. -/
theorem C25_defined (mem : List UInt8) (off v nb : Nat) :
    ((writeBytes mem off v nb).isSome ↔ 1 ≤ nb ∧ nb ≤ 4 ∧ off + nb ≤ mem.length) ∧
    ((readBytes mem off nb).isSome ↔ 1 ≤ nb ∧ nb ≤ 4 ∧ off + nb ≤ mem.length) := by
  unfold writeBytes readBytes
  by_cases hn : 0 < nb ∧ nb ≤ 4
  · rw [if_pos hn, if_pos hn, write_src v nb hn.2]
    unfold copyTo sliceOf
    rw [toBe_length]
    by_cases hl : off + nb ≤ mem.length
    · simp [hl]; omega
    · simp [hl]
  · rw [if_neg hn, if_neg hn]
    simp; omega

/-- **C25.** A field read is in range, and writing it back where it came from changes nothing: the two
directions are inverse bijections between `nb`-byte strings and numbers below `2^(8·nb)`. -/
theorem C25_write_read (mem : List UInt8) (off v nb : Nat) (h : readBytes mem off nb = some v) :
    v < 2 ^ (8 * nb) ∧ writeBytes mem off v nb = some mem := by
  unfold readBytes at h
  split at h
  · rename_i hn
    unfold sliceOf at h
    split at h
    · rename_i hl
      simp only [Option.map_some, Option.some.injEq] at h
      rw [fromBe_zeros] at h
      have hlen : ((mem.drop off).take nb).length = nb := by simp; omega
      subst h
      constructor
      · have := fromBe_lt ((mem.drop off).take nb)
        rw [hlen] at this
        rw [Nat.pow_mul]; exact this
      · unfold writeBytes
        rw [if_pos hn, write_src _ nb hn.2]
        have := toBe_fromBe ((mem.drop off).take nb)
        rw [hlen] at this
        rw [this]
        unfold copyTo
        rw [hlen, if_pos hl, List.append_assoc, ← List.drop_drop, List.take_append_drop, List.take_append_drop]
    · simp at h
  · simp at h

/-- **C25.** Most significant byte first: byte `i` of the field is bits `8(nb-1-i) ..` of the value. -/
theorem C25_big_endian (mem mem' : List UInt8) (off v nb : Nat) (h : writeBytes mem off v nb = some mem')
    (i : Nat) (hi : i < nb) : mem'[off + i]? = some (UInt8.ofNat (v / 2 ^ (8 * (nb - 1 - i)) % 256)) := by
  have key : ∀ (n i : Nat), i < n → (toBe n v)[i]? = some (UInt8.ofNat (v / 256 ^ (n - 1 - i) % 256)) := by
    intro n
    induction n with
    | zero => intro i h; omega
    | succ n ih =>
      intro i h
      cases i with
      | zero => simp [toBe]
      | succ i =>
        rw [toBe, List.getElem?_cons_succ, ih i (by omega)]
        rw [show n + 1 - 1 - (i + 1) = n - 1 - i by omega]
  unfold writeBytes at h
  split at h
  · rename_i hn
    rw [write_src v nb hn.2] at h
    unfold copyTo at h
    rw [toBe_length] at h
    split at h
    · rename_i hl
      simp only [Option.some.injEq] at h
      subst h
      rw [List.append_assoc, List.getElem?_append_right (by simp; omega), List.getElem?_append_left (by simp [toBe_length]; omega)]
      rw [Nat.pow_mul]
      have : off + i - (mem.take off).length = i := by simp; omega
      rw [this]
      exact key nb i hi
    · simp at h
  · simp at h

/-- **C25.** Floating-point fields keep their exact bit pattern (including NaN payloads). -/
theorem C25_float_round_trip (mem mem' : List UInt8) (off bits : Nat) :
    (writeDouble mem off bits = some mem' → bits < 2 ^ 64 → readDouble mem' off = some bits) ∧
    (writeFloat mem off bits = some mem' → bits < 2 ^ 32 → readFloat mem' off = some bits) := by
  refine ⟨fun h hb => ?_, fun h hb => ?_⟩
  · have := sliceOf_copyTo mem _ mem' off h
    rw [toBe_length] at this
    unfold readDouble
    rw [this, Option.map_some, fromBe_toBe, Nat.mod_eq_of_lt (by simpa using hb)]
  · have := sliceOf_copyTo mem _ mem' off h
    rw [toBe_length] at this
    unfold readFloat
    rw [this, Option.map_some, fromBe_toBe, Nat.mod_eq_of_lt (by simpa using hb)]

example : writeBytes [1, 2, 3, 4, 5] 1 0xABCDEF 3 = some [1, 0xAB, 0xCD, 0xEF, 5] := by decide
example : readBytes [1, 0xAB, 0xCD, 0xEF, 5] 1 3 = some 0xABCDEF := by decide
example : writeDouble [0, 0, 0, 0, 0, 0, 0, 0, 9] 1 0x3FF0000000000000 = some [0, 0x3F, 0xF0, 0, 0, 0, 0, 0, 0] := by decide

end Jp2.Cio

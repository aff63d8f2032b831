import Verif.Jp2.Bio
import Verif.Jp2.Bits
/-! Helper lemmas about the bit coder. -/
namespace Jp2.Bio

/-- Payload bits of a byte: 7 after `0xFF` (bit stuffing), otherwise 8. -/
def width (prev : Nat) : Nat := if prev = 255 then 7 else 8

/-- The payload bits of a byte sequence, given the byte before it. -/
def unstuff (prev : Nat) : List UInt8 → List Bool
  | [] => []
  | b :: r => bitsOf (width prev) b.toNat ++ unstuff b.toNat r

/-- Every byte after `0xFF` is below `0x80`. -/
def Stuffed (prev : Nat) : List UInt8 → Prop
  | [] => True
  | b :: r => b.toNat < 2 ^ width prev ∧ Stuffed b.toNat r

/-- The last byte of a sequence, or `prev`. -/
def lastByte (prev : Nat) : List UInt8 → Nat
  | [] => prev
  | b :: r => lastByte b.toNat r

theorem unstuff_append (p : Nat) (a b : List UInt8) :
    unstuff p (a ++ b) = unstuff p a ++ unstuff (lastByte p a) b := by
  induction a generalizing p with
  | nil => rfl
  | cons x a ih => simp [unstuff, lastByte, ih]

theorem lastByte_append (p : Nat) (a b : List UInt8) : lastByte p (a ++ b) = lastByte (lastByte p a) b := by
  induction a generalizing p with
  | nil => rfl
  | cons x a ih => simp [lastByte, ih]

theorem stuffed_append (p : Nat) (a b : List UInt8) (ha : Stuffed p a) (hb : Stuffed (lastByte p a) b) :
    Stuffed p (a ++ b) := by
  induction a generalizing p with
  | nil => exact hb
  | cons x a ih => exact ⟨ha.1, ih _ ha.2 hb⟩

theorem width_le (p : Nat) : 7 ≤ width p ∧ width p ≤ 8 := by unfold width; split <;> omega

theorem shift_facts (buf : Nat) :
    (buf <<< 8 % 2 ^ 32) &&& 0xFFFF = buf % 256 * 256 := by
  have : (0xFFFF : Nat) = 2 ^ 16 - 1 := rfl
  rw [this, Nat.and_two_pow_sub_one_eq_mod, Nat.shiftLeft_eq]
  omega

theorem byteout_eq (s : Bio) :
    byteout s = some (if s.mem.length ≤ s.bp
      then ({ s with buf := s.buf % 256 * 256, ct := width (s.buf % 256) }, false)
      else (⟨s.mem.set s.bp (UInt8.ofNat (s.buf % 256)), s.bp + 1, s.buf % 256 * 256, width (s.buf % 256)⟩, true)) := by
  have e1 : (if s.buf % 256 * 256 = 0xFF00 then 7 else 8) = width (s.buf % 256) := by
    unfold width; congr 1; rw [eq_iff_iff]; omega
  have e2 : (s.buf % 256 * 256) >>> 8 = s.buf % 256 := by rw [Nat.shiftRight_eq_div_pow]; omega
  unfold byteout
  simp only [shift_facts, e1, e2]
  split
  · rfl
  · rename_i hc
    unfold store
    rw [if_pos (by omega)]

theorem bytein_eq (s : Bio) :
    bytein s = some (match s.mem[s.bp]? with
      | none => ({ s with buf := s.buf % 256 * 256, ct := width (s.buf % 256) }, false)
      | some b => (⟨s.mem, s.bp + 1, s.buf % 256 * 256 + b.toNat, width (s.buf % 256)⟩, true)) := by
  have e1 : (if s.buf % 256 * 256 = 0xFF00 then 7 else 8) = width (s.buf % 256) := by
    unfold width; congr 1; rw [eq_iff_iff]; omega
  unfold bytein
  simp only [shift_facts, e1]
  by_cases hc : s.mem.length ≤ s.bp
  · rw [if_pos hc, List.getElem?_eq_none hc]
  · rw [if_neg hc, List.getElem?_eq_getElem (by omega)]
    have hb := (s.mem[s.bp]'(by omega)).toNat_lt
    have : s.buf % 256 * 256 ||| (s.mem[s.bp]'(by omega)).toNat = s.buf % 256 * 256 + (s.mem[s.bp]'(by omega)).toNat := by
      have := Nat.shiftLeft_add_eq_or_of_lt (i := 8) hb (s.buf % 256)
      rw [Nat.shiftLeft_eq] at this
      exact this.symm
    simp only [this]

/-! ## Encoder -/

/-- What holds of the encoder whatever happened. -/
structure EncSafe (s : Bio) : Prop where
  buf : s.buf < 65536
  ct : s.ct ≤ 8
  bp : s.bp ≤ s.mem.length

/-- The encoder state represents the bits written so far. -/
structure EncInv (s : Bio) (bits : List Bool) : Prop where
  ct : s.ct ≤ width (s.buf / 256)
  low : s.buf % 256 < 2 ^ width (s.buf / 256)
  zero : s.buf % 256 % 2 ^ s.ct = 0
  prev : lastByte 0 (s.mem.take s.bp) = s.buf / 256
  bits : bits = unstuff 0 (s.mem.take s.bp) ++
    bitsOf (width (s.buf / 256) - s.ct) (s.buf % 256 / 2 ^ s.ct)
  stuffed : Stuffed 0 (s.mem.take s.bp)

theorem encSafe_init (mem : List UInt8) : EncSafe (initEnc mem) := ⟨by simp [initEnc], by simp [initEnc], by simp [initEnc]⟩

theorem encInv_init (mem : List UInt8) : EncInv (initEnc mem) [] := by
  constructor <;> simp [initEnc, width, lastByte, unstuff, bitsOf, Stuffed]

theorem take_set_succ (l : List UInt8) (i : Nat) (v : UInt8) (h : i < l.length) :
    (l.set i v).take (i + 1) = l.take i ++ [v] := by
  rw [List.take_add_one, List.take_set_of_le (Nat.le_refl _)]
  simp [h]

theorem byteout_safe (s : Bio) (hs : EncSafe s) :
    ∃ s' ok, byteout s = some (s', ok) ∧ EncSafe s' ∧ 0 < s'.ct ∧ s'.mem.length = s.mem.length ∧
      s'.buf = s.buf % 256 * 256 ∧
      s.bp ≤ s'.bp ∧ s'.bp ≤ s.bp + 1 ∧ (ok = true ↔ s.bp < s.mem.length) ∧ (ok = true → s'.bp = s.bp + 1) := by
  rw [byteout_eq s]
  have hw := width_le (s.buf % 256)
  have := hs.bp
  split
  · rename_i h
    refine ⟨_, _, rfl, ⟨?_, ?_, hs.bp⟩, ?_, ?_, rfl, ?_, ?_, ?_, ?_⟩ <;> simp <;> omega
  · rename_i h
    refine ⟨_, _, rfl, ⟨?_, ?_, ?_⟩, ?_, ?_, rfl, ?_, ?_, ?_, ?_⟩ <;> simp <;> omega

/-- Writing out a pending byte with no free bits keeps the bits. -/
theorem byteout_inv (s : Bio) (bits : List Bool) (_ : EncSafe s) (hi : EncInv s bits)
    (hbp : s.bp < s.mem.length) (s' : Bio) (ok : Bool) (h : byteout s = some (s', ok)) :
    EncInv s' (bits ++ List.replicate s.ct false) ∧ s'.ct = width (s.buf % 256) ∧ s'.buf = s.buf % 256 * 256 ∧
    s'.mem.take s'.bp = s.mem.take s.bp ++ [UInt8.ofNat (s.buf % 256)] := by
  rw [byteout_eq s, if_neg (by omega)] at h
  simp only [Option.some.injEq, Prod.mk.injEq] at h
  obtain ⟨rfl, rfl⟩ := h
  have hw := width_le (s.buf % 256)
  have htake : (s.mem.set s.bp (UInt8.ofNat (s.buf % 256))).take (s.bp + 1) =
      s.mem.take s.bp ++ [UInt8.ofNat (s.buf % 256)] := take_set_succ _ _ _ hbp
  have hto : (UInt8.ofNat (s.buf % 256)).toNat = s.buf % 256 :=
    UInt8.toNat_ofNat_of_lt' (by show _ < 256; omega)
  have hdiv : s.buf % 256 * 256 / 256 = s.buf % 256 := by omega
  have hmod : s.buf % 256 * 256 % 256 = 0 := by omega
  refine ⟨⟨?_, ?_, ?_, ?_, ?_, ?_⟩, rfl, rfl, htake⟩
  · simp only [hdiv]; exact Nat.le_refl _
  · simp only [hmod]; exact Nat.two_pow_pos _
  · simp [hmod]
  · simp only [htake, lastByte_append, lastByte, hto, hdiv]
  · simp only [htake, hdiv, hmod, unstuff_append, unstuff, hi.prev, hto, List.append_nil]
    rw [Nat.sub_self]
    simp only [bitsOf, List.append_nil]
    rw [hi.bits, List.append_assoc]
    congr 1
    have hct := hi.ct
    have : width (s.buf / 256) = (width (s.buf / 256) - s.ct) + s.ct := by omega
    rw [this, bitsOf_append]
    rw [Nat.add_sub_cancel]
    congr 1
    rw [← bitsOf_mod _ _ _ (Nat.le_refl s.ct), hi.zero, bitsOf_zero]
  · simp only [htake]
    refine stuffed_append _ _ _ hi.stuffed ⟨?_, trivial⟩
    rw [hi.prev, hto]; exact hi.low

theorem or_bit (low ct b : Nat) (hz : low % 2 ^ (ct + 1) = 0) (hb : b ≤ 1) :
    low ||| (b <<< ct) = low + b * 2 ^ ct := by
  have hlt : b <<< ct < 2 ^ (ct + 1) := by
    rw [Nat.shiftLeft_eq, Nat.pow_succ]
    have := Nat.two_pow_pos ct
    have : b * 2 ^ ct ≤ 1 * 2 ^ ct := Nat.mul_le_mul_right _ hb
    omega
  have h := Nat.shiftLeft_add_eq_or_of_lt hlt (low / 2 ^ (ct + 1))
  rw [Nat.shiftLeft_eq, Nat.shiftLeft_eq, Nat.div_mul_cancel (Nat.dvd_of_mod_eq_zero hz)] at h
  rw [Nat.shiftLeft_eq]; exact h.symm

/-- Adding one bit to a pending byte with room. -/
theorem putbit_room (s : Bio) (bits : List Bool) (b : Nat) (hb : b ≤ 1) (hs : EncSafe s) (hct : 0 < s.ct)
    (hi : s.bp < s.mem.length → EncInv s bits) :
    EncSafe { s with ct := s.ct - 1, buf := s.buf ||| (b <<< (s.ct - 1) % 2 ^ 32) } ∧
    (s.bp < s.mem.length →
      EncInv { s with ct := s.ct - 1, buf := s.buf ||| (b <<< (s.ct - 1) % 2 ^ 32) } (bits ++ [b == 1])) := by
  obtain ⟨c, hc⟩ : ∃ c, s.ct = c + 1 := ⟨s.ct - 1, by omega⟩
  have hc8 := hs.ct
  have hpow : 2 ^ c ≤ 128 := by
    calc 2 ^ c ≤ 2 ^ 7 := Nat.pow_le_pow_right (by omega) (by omega)
      _ = 128 := rfl
  have hsh : b <<< c % 2 ^ 32 = b <<< c := by
    rw [Nat.shiftLeft_eq]; apply Nat.mod_eq_of_lt
    have : b * 2 ^ c ≤ 1 * 128 := Nat.mul_le_mul hb hpow
    omega
  have hblt : b <<< c < 2 ^ 16 := by
    rw [Nat.shiftLeft_eq]
    have : b * 2 ^ c ≤ 1 * 128 := Nat.mul_le_mul hb hpow
    omega
  rw [hc, Nat.add_sub_cancel, hsh]
  refine ⟨⟨Nat.or_lt_two_pow hs.buf hblt, by simp; omega, hs.bp⟩, fun hbp => ?_⟩
  have hi := hi hbp
  obtain ⟨h1, h2, h3, h4, h5, h6⟩ := hi
  rw [hc] at h1 h3 h5
  have hw := width_le (s.buf / 256)
  have hw' : 2 ^ (c + 1) ∣ 256 := by
    have : (256 : Nat) = 2 ^ 8 := rfl
    rw [this]; exact Nat.pow_dvd_pow 2 (by omega)
  have hz : s.buf % 2 ^ (c + 1) = 0 := by rw [← Nat.mod_mod_of_dvd _ hw']; exact h3
  have hor : s.buf ||| b <<< c = s.buf + b * 2 ^ c := or_bit s.buf c b hz hb
  -- low byte: fits
  have hbp' : b * 2 ^ c < 2 ^ (c + 1) := by
    rw [Nat.pow_succ]
    have := Nat.two_pow_pos c
    have : b * 2 ^ c ≤ 1 * 2 ^ c := Nat.mul_le_mul_right _ hb
    omega
  have hlow : s.buf % 256 + b * 2 ^ c < 2 ^ width (s.buf / 256) := by
    have hd : 2 ^ (c + 1) ∣ 2 ^ width (s.buf / 256) := Nat.pow_dvd_pow 2 h1
    obtain ⟨k, hk⟩ := hd
    obtain ⟨m, hm⟩ := Nat.dvd_of_mod_eq_zero h3
    rw [hm, hk] at h2 ⊢
    have : m < k := Nat.lt_of_mul_lt_mul_left h2
    have : 2 ^ (c + 1) * (m + 1) ≤ 2 ^ (c + 1) * k := Nat.mul_le_mul_left _ this
    rw [Nat.mul_add, Nat.mul_one] at this
    omega
  have hw256 : 2 ^ width (s.buf / 256) ≤ 256 := by
    calc 2 ^ width (s.buf / 256) ≤ 2 ^ 8 := Nat.pow_le_pow_right (by omega) hw.2
      _ = 256 := rfl
  have hdiv : (s.buf + b * 2 ^ c) / 256 = s.buf / 256 := by omega
  have hmod : (s.buf + b * 2 ^ c) % 256 = s.buf % 256 + b * 2 ^ c := by omega
  simp only [hor]
  have hlz : (s.buf % 256 + b * 2 ^ c) / 2 ^ c = 2 * (s.buf % 256 / 2 ^ (c + 1)) + b := by
    obtain ⟨m, hm⟩ := Nat.dvd_of_mod_eq_zero h3
    rw [hm, Nat.mul_div_cancel_left _ (Nat.two_pow_pos _), Nat.pow_succ]
    have : 2 ^ c * 2 * m + b * 2 ^ c = (2 * m + b) * 2 ^ c := by
      rw [Nat.add_mul]; congr 1; rw [Nat.mul_comm (2 ^ c) 2, Nat.mul_assoc, Nat.mul_comm (2 ^ c), Nat.mul_assoc]
    rw [this, Nat.mul_div_cancel _ (Nat.two_pow_pos _)]
  refine ⟨?_, ?_, ?_, ?_, ?_, h6⟩
  · show c ≤ width ((s.buf + b * 2 ^ c) / 256); rw [hdiv]; omega
  · show (s.buf + b * 2 ^ c) % 256 < 2 ^ width ((s.buf + b * 2 ^ c) / 256); rw [hdiv, hmod]; exact hlow
  · show (s.buf + b * 2 ^ c) % 256 % 2 ^ c = 0
    rw [hmod, Nat.add_mul_mod_self_right]
    have : 2 ^ c ∣ 2 ^ (c + 1) := Nat.pow_dvd_pow 2 (by omega)
    exact Nat.mod_eq_zero_of_dvd (Nat.dvd_trans this (Nat.dvd_of_mod_eq_zero h3))
  · show lastByte 0 (s.mem.take s.bp) = (s.buf + b * 2 ^ c) / 256; rw [hdiv]; exact h4
  · show bits ++ [b == 1] = unstuff 0 (s.mem.take s.bp) ++
      bitsOf (width ((s.buf + b * 2 ^ c) / 256) - c) ((s.buf + b * 2 ^ c) % 256 / 2 ^ c)
    rw [hdiv, hmod, hlz, h5, List.append_assoc]
    congr 1
    have e : width (s.buf / 256) - c = (width (s.buf / 256) - (c + 1)) + 1 := by omega
    rw [e, bitsOf_append]
    have e2 : (2 * (s.buf % 256 / 2 ^ (c + 1)) + b) / 2 ^ 1 = s.buf % 256 / 2 ^ (c + 1) := by omega
    rw [e2]
    congr 1
    simp only [bitsOf, List.cons.injEq, and_true]
    have : b = 0 ∨ b = 1 := by omega
    rcases this with rfl | rfl
    · simp [Nat.testBit_zero]
    · simp [Nat.testBit_zero]

theorem putbit_spec (s : Bio) (bits : List Bool) (b : Nat) (hb : b ≤ 1) (hs : EncSafe s)
    (hi : s.bp < s.mem.length → EncInv s bits) :
    ∃ s', putbit s b = some s' ∧ EncSafe s' ∧ s'.mem.length = s.mem.length ∧ s.bp ≤ s'.bp ∧
      s'.ct < 8 ∧ (s'.bp < s'.mem.length → EncInv s' (bits ++ [b == 1]) ∧ s'.ct < width (s'.buf / 256)) := by
  unfold putbit
  by_cases h0 : s.ct = 0
  · obtain ⟨t, ok, ht, hts, htc, hlen, hbuf, hle, hle', hok, hok'⟩ := byteout_safe s hs
    simp only [h0, if_true, ht]
    rw [if_neg (by omega)]
    have hti : t.bp < t.mem.length → EncInv t bits ∧ t.ct = width (t.buf / 256) := by
      intro hlt
      have := byteout_inv s bits hs (hi (by omega)) (by omega) t ok ht
      rw [h0] at this
      simp at this
      refine ⟨this.1, ?_⟩
      rw [this.2.1, this.2.2.1]; congr 1; omega
    have := putbit_room t bits b hb hts htc (fun h => (hti h).1)
    refine ⟨_, rfl, this.1, hlen, hle, ?_, fun h => ⟨this.2 h, ?_⟩⟩
    · have := hts.ct; simp; omega
    · have h1 := (hti h).1
      have h2 := (hti h).2
      -- width unchanged
      have h3 := (this.2 h).prev
      have h4 := h1.prev
      simp only at h3
      rw [h4] at h3
      simp only [← h3]
      omega
  · simp only [h0, if_false]
    have := putbit_room s bits b hb hs (by omega) hi
    refine ⟨_, rfl, this.1, rfl, Nat.le_refl _, ?_, fun h => ⟨this.2 h, ?_⟩⟩
    · have := hs.ct; simp; omega
    · have h1 := hi h
      have h3 := (this.2 h).prev
      have h4 := h1.prev
      simp only at h3
      rw [h4] at h3
      have := h1.ct
      simp only [← h3]
      omega

/-- Write a list of bits one by one. -/
def putBits (s : Bio) : List Bool → Option Bio
  | [] => some s
  | b :: bs => (putbit s b.toNat).bind fun s' => putBits s' bs

theorem putBits_append (s : Bio) (a b : List Bool) : putBits s (a ++ b) = (putBits s a).bind fun t => putBits t b := by
  induction a generalizing s with
  | nil => rfl
  | cons x a ih =>
    simp only [List.cons_append, putBits]
    cases putbit s x.toNat with
    | none => rfl
    | some t => simp [ih]

theorem putBits_spec (s : Bio) (bits new : List Bool) (hs : EncSafe s)
    (hi : s.bp < s.mem.length → EncInv s bits) :
    ∃ s', putBits s new = some s' ∧ EncSafe s' ∧ s'.mem.length = s.mem.length ∧ s.bp ≤ s'.bp ∧
      (s'.bp < s'.mem.length → EncInv s' (bits ++ new) ∧ (new ≠ [] → s'.ct < width (s'.buf / 256))) := by
  induction new generalizing s bits with
  | nil =>
    refine ⟨s, rfl, hs, rfl, Nat.le_refl _, fun h => ⟨?_, by simp⟩⟩
    rw [List.append_nil]; exact hi h
  | cons b new ih =>
    obtain ⟨t, h1, h2, h3, h4, _, h5⟩ := putbit_spec s bits b.toNat (by cases b <;> decide) hs hi
    obtain ⟨u, g1, g2, g3, g4, g5⟩ := ih t (bits ++ [b.toNat == 1]) h2 (fun h => (h5 h).1)
    have e : (b.toNat == 1) = b := by cases b <;> rfl
    refine ⟨u, by simp [putBits, h1, g1], g2, by omega, by omega, fun h => ?_⟩
    have := g5 h
    rw [e] at this
    refine ⟨by simpa using this.1, fun _ => ?_⟩
    cases new with
    | nil =>
      simp only [putBits, Option.some.injEq] at g1; subst g1
      exact (h5 h).2
    | cons c new => exact this.2 (by simp)

theorem shift_and (v i : Nat) : v >>> i &&& 1 = (v.testBit i).toNat := by
  rw [Nat.and_comm, Nat.testBit]
  have : ∀ x : Nat, 1 &&& x = x % 2 := by
    intro x; rw [Nat.and_comm]; exact Nat.and_one_is_mod x
  rw [this]
  have : v >>> i % 2 = 0 ∨ v >>> i % 2 = 1 := by omega
  rcases this with h | h <;> simp [h]

theorem writeLoop_eq (s : Bio) (v n : Nat) : writeLoop s v n = putBits s (bitsOf n v) := by
  induction n generalizing s with
  | zero => rfl
  | succ n ih =>
    simp only [writeLoop, bitsOf, putBits, shift_and]
    cases putbit s (v.testBit n).toNat with
    | none => rfl
    | some t => simp [ih]

theorem write_eq (s : Bio) (v n : Nat) (h1 : 0 < n) (h2 : n ≤ 32) : write s v n = putBits s (bitsOf n v) := by
  unfold write; rw [if_pos ⟨h1, h2⟩, writeLoop_eq]

/-- Everything about flushing after `bits` were written. -/
theorem flush_spec (s : Bio) (bits : List Bool) (hs : EncSafe s)
    (hi : s.bp < s.mem.length → EncInv s bits) :
    ∃ s' ok, flush s = some (s', ok) ∧ s'.mem.length = s.mem.length ∧ s'.bp ≤ s'.mem.length ∧
      EncSafe s' ∧ (ok = true → s.bp < s.mem.length ∧ EncInv s bits ∧ (∃ bits', EncInv s' bits') ∧
        s'.buf % 256 = 0 ∧ s'.buf / 256 ≠ 255 ∧
        s'.mem.take s'.bp = s.mem.take s.bp ++ [UInt8.ofNat (s.buf % 256)] ++
          (if s.buf % 256 = 255 then [0] else [])) := by
  obtain ⟨t, ok, ht, hts, htc, hlen, hbuf, hle, hle', hok, hok'⟩ := byteout_safe s hs
  unfold flush
  rw [ht]
  cases ok with
  | false => exact ⟨t, false, rfl, hlen, by have := hts.bp; omega, hts, by simp⟩
  | true =>
    have hlt := hok.1 rfl
    have hinv := byteout_inv s bits hs (hi hlt) hlt t true ht
    simp only
    by_cases h7 : t.ct = 7
    · rw [if_pos h7]
      have h255 : s.buf % 256 = 255 := by
        have h := hinv.2.1
        rw [h7] at h
        unfold width at h; split at h <;> first | assumption | omega
      obtain ⟨u, ok2, hu, hus, _, hulen, _, _, _, huok, huok'⟩ := byteout_safe t hts
      refine ⟨u, ok2, hu, by omega, hus.bp, hus, fun hok2 => ⟨hlt, hi hlt, ?_⟩⟩
      have hltt := huok.1 hok2
      have hinv2 := byteout_inv t _ hts hinv.1 hltt u ok2 hu
      refine ⟨⟨_, hinv2.1⟩, by rw [hinv2.2.2.1]; omega, by rw [hinv2.2.2.1, hinv.2.2.1]; omega, ?_⟩
      rw [hinv2.2.2.2, hinv.2.2.2, hinv.2.2.1, if_pos h255]
      congr 2
      rw [h255]; rfl
    · rw [if_neg h7]
      have h255 : s.buf % 256 ≠ 255 := by
        intro h
        apply h7
        rw [hinv.2.1, h]; rfl
      refine ⟨t, true, rfl, hlen, by have := hts.bp; omega, hts, fun _ => ⟨hlt, hi hlt, ?_⟩⟩
      refine ⟨⟨_, hinv.1⟩, by rw [hinv.2.2.1]; omega, by rw [hinv.2.2.1]; omega, ?_⟩
      rw [hinv.2.2.2, if_neg h255, List.append_nil]

/-! ## Decoder -/

structure DecSafe (s : Bio) : Prop where
  buf : s.buf < 65536
  ct : s.ct ≤ 8
  bp : s.bp ≤ s.mem.length

/-- Bits still to be read. -/
def rem (s : Bio) : List Bool := bitsOf s.ct s.buf ++ unstuff (s.buf % 256) (s.mem.drop s.bp)

theorem decSafe_init (mem : List UInt8) : DecSafe (initDec mem) :=
  ⟨by simp [initDec], by simp [initDec], by simp [initDec]⟩

theorem rem_init (mem : List UInt8) : rem (initDec mem) = unstuff 0 mem := by
  simp [rem, initDec, bitsOf]

theorem bytein_spec (s : Bio) (hs : DecSafe s) (h0 : s.ct = 0) :
    ∃ s' ok, bytein s = some (s', ok) ∧ DecSafe s' ∧ s'.mem = s.mem ∧ s'.ct = width (s.buf % 256) ∧
      (ok = true ↔ s.bp < s.mem.length) ∧ s'.bp = (if s.bp < s.mem.length then s.bp + 1 else s.bp) ∧
      rem s' = (if s.bp < s.mem.length then rem s else List.replicate (width (s.buf % 256)) false) ∧
      (s.bp < s.mem.length → s'.buf % 256 = (s.mem[s.bp]?.map UInt8.toNat).getD 0) ∧
      (¬ s.bp < s.mem.length → s'.buf % 256 = 0) := by
  rw [bytein_eq s]
  have hw := width_le (s.buf % 256)
  have hbp := hs.bp
  by_cases hc : s.bp < s.mem.length
  · have hlt := (s.mem[s.bp]).toNat_lt
    simp only [List.getElem?_eq_getElem hc]
    refine ⟨_, _, rfl, ⟨?_, ?_, ?_⟩, rfl, rfl, ?_, ?_, ?_, ?_, ?_⟩
    · simp only; omega
    · exact hw.2
    · simp only; omega
    · simp [hc]
    · simp [hc]
    · rw [if_pos hc]
      unfold rem
      simp only [h0, bitsOf, List.nil_append]
      rw [List.drop_eq_getElem_cons hc]
      simp only [unstuff]
      have e : (s.buf % 256 * 256 + s.mem[s.bp].toNat) % 256 = s.mem[s.bp].toNat := by omega
      rw [e]
      congr 1
      rw [← bitsOf_mod (width (s.buf % 256)) _ 8 hw.2]
      congr 1
    · intro _; simp
    · intro h; exact absurd hc h
  · rw [List.getElem?_eq_none (by omega)]
    refine ⟨_, _, rfl, ⟨?_, ?_, ?_⟩, rfl, rfl, ?_, ?_, ?_, ?_, ?_⟩
    · simp only; omega
    · exact hw.2
    · exact hs.bp
    · simp [hc]
    · simp [hc]
    · rw [if_neg hc]
      unfold rem
      simp only
      rw [List.drop_eq_nil_of_le (by omega)]
      simp only [unstuff, List.append_nil]
      rw [← bitsOf_mod _ _ 8 hw.2]
      have : s.buf % 256 * 256 % 2 ^ 8 = 0 := by omega
      rw [this, bitsOf_zero]
    · intro h; exact absurd h hc
    · intro _; simp

/-- The bits to be read, as an infinite stream: zeros after the end. -/
def stream (s : Bio) (i : Nat) : Bool := (rem s).getD i false

theorem getbit_room (s : Bio) (hs : DecSafe s) (h : 0 < s.ct) :
    (s.ct + (2 ^ 32 - 1)) % 2 ^ 32 = s.ct - 1 := by have := hs.ct; omega

theorem getbit_spec (s : Bio) (hs : DecSafe s) :
    ∃ s', getbit s = some ((stream s 0).toNat, s') ∧ DecSafe s' ∧ s'.mem = s.mem ∧
      (∀ i, stream s' i = stream s (i + 1)) ∧
      (s.ct ≠ 0 → s'.bp = s.bp ∧ s'.buf = s.buf ∧ s'.ct = s.ct - 1) ∧
      (s.ct = 0 → s'.bp = (if s.bp < s.mem.length then s.bp + 1 else s.bp) ∧ s'.ct = width (s.buf % 256) - 1 ∧
        (s.bp < s.mem.length → s'.buf % 256 = (s.mem[s.bp]?.map UInt8.toNat).getD 0) ∧
        (¬ s.bp < s.mem.length → s'.buf % 256 = 0)) := by
  have room : ∀ t : Bio, DecSafe t → 0 < t.ct →
      t.buf >>> (t.ct - 1) &&& 1 = (stream t 0).toNat ∧
      (∀ i, stream { t with ct := t.ct - 1 } i = stream t (i + 1)) := by
    intro t ht hct
    obtain ⟨c, hc⟩ : ∃ c, t.ct = c + 1 := ⟨t.ct - 1, by omega⟩
    have hr : rem t = t.buf.testBit c :: rem { t with ct := t.ct - 1 } := by
      unfold rem; simp [hc, bitsOf]
    constructor
    · rw [shift_and, stream, hr, hc]; simp
    · intro i; unfold stream; rw [hr]; simp
  unfold getbit
  by_cases h0 : s.ct = 0
  · obtain ⟨t, ok, ht, hts, hmem, hct, _, hbp, hrem, hb1, hb2⟩ := bytein_spec s hs h0
    have hw := width_le (s.buf % 256)
    simp only [h0, if_true, ht]
    have hr := room t hts (by omega)
    have hst : ∀ i, stream t i = stream s i := by
      intro i
      unfold stream
      rw [hrem]
      split
      · rfl
      · rename_i hc
        have : rem s = [] := by
          unfold rem; rw [h0, List.drop_eq_nil_of_le (by omega)]; rfl
        rw [this]
        simp only [List.getD_eq_getElem?_getD, List.getElem?_replicate, List.getElem?_nil, Option.getD_none]
        split <;> rfl
    rw [getbit_room t hts (by omega), if_pos (by have := hts.ct; omega)]
    refine ⟨{ t with ct := t.ct - 1 }, by rw [hr.1, hst], ⟨hts.buf, by have := hts.ct; simp; omega, hts.bp⟩, hmem, ?_, ?_, ?_⟩
    · intro i; rw [hr.2, hst]
    · intro h; exact absurd rfl h
    · intro _
      exact ⟨hbp, by simp [hct], hb1, hb2⟩
  · simp only [h0, if_false]
    have hr := room s hs (by omega)
    rw [getbit_room s hs (by omega), if_pos (by have := hs.ct; omega)]
    refine ⟨{ s with ct := s.ct - 1 }, by rw [hr.1], ⟨hs.buf, by have := hs.ct; simp; omega, hs.bp⟩, rfl, hr.2, ?_, ?_⟩
    · intro _; exact ⟨rfl, rfl, rfl⟩
    · intro h; exact absurd h (by simp)

/-- Read `n` bits one by one. -/
def getBits (s : Bio) : Nat → Option (List Bool × Bio)
  | 0 => some ([], s)
  | n + 1 => (getbit s).bind fun (b, s') => (getBits s' n).map fun (bs, t) => ((b == 1) :: bs, t)

theorem getBits_spec (s : Bio) (hs : DecSafe s) (n : Nat) :
    ∃ s', getBits s n = some ((List.range n).map (stream s), s') ∧ DecSafe s' ∧ s'.mem = s.mem ∧
      (∀ i, stream s' i = stream s (i + n)) := by
  induction n generalizing s with
  | zero => exact ⟨s, rfl, hs, rfl, fun i => rfl⟩
  | succ n ih =>
    obtain ⟨t, h1, h2, h3, h4, _, _⟩ := getbit_spec s hs
    obtain ⟨u, g1, g2, g3, g4⟩ := ih t h2
    refine ⟨u, ?_, g2, by rw [g3, h3], fun i => by rw [g4, h4]; congr 1⟩
    simp only [getBits, h1, g1, Option.bind_some, Option.map_some]
    rw [List.range_succ_eq_map]
    simp only [List.map_cons, List.map_map]
    congr 3
    · cases stream s 0 <;> rfl
    · apply List.map_congr_left
      intro i _; rw [h4]; rfl

theorem readLoop_eq (s : Bio) (hs : DecSafe s) (v n : Nat) (hn : n ≤ 32) (hv : v % 2 ^ n = 0) :
    readLoop s v n = (getBits s n).map fun (bs, t) => (v + valOf bs, t) := by
  induction n generalizing s v with
  | zero => simp [readLoop, getBits, valOf]
  | succ n ih =>
    obtain ⟨t, h1, h2, h3, h4, _, _⟩ := getbit_spec s hs
    obtain ⟨u, g1, _, _, _⟩ := getBits_spec t h2 n
    simp only [readLoop, getBits, h1, Option.bind_some]
    have hb : (stream s 0).toNat ≤ 1 := by cases stream s 0 <;> decide
    have hlt : (stream s 0).toNat <<< n % 2 ^ 32 = (stream s 0).toNat <<< n := by
      apply Nat.mod_eq_of_lt
      rw [Nat.shiftLeft_eq]
      have : 2 ^ n < 2 ^ 32 := Nat.pow_lt_pow_right (by omega) (by omega)
      have : (stream s 0).toNat * 2 ^ n ≤ 1 * 2 ^ n := Nat.mul_le_mul_right _ hb
      omega
    rw [hlt, or_bit v n _ hv hb, ih t h2 _ (by omega)]
    · rw [g1]
      simp only [Option.map_some, Option.some.injEq, Prod.mk.injEq, and_true]
      rw [valOf_cons, List.length_map, List.length_range]
      have : ((stream s 0).toNat == 1) = stream s 0 := by cases stream s 0 <;> rfl
      rw [this]; omega
    · rw [Nat.add_mul_mod_self_right]
      have : 2 ^ n ∣ 2 ^ (n + 1) := Nat.pow_dvd_pow 2 (by omega)
      exact Nat.mod_eq_zero_of_dvd (Nat.dvd_trans this (Nat.dvd_of_mod_eq_zero hv))

theorem read_spec (s : Bio) (hs : DecSafe s) (n : Nat) (h1 : 0 < n) (h2 : n ≤ 32) :
    ∃ s', read s n = some (valOf ((List.range n).map (stream s)), s') ∧ DecSafe s' ∧ s'.mem = s.mem ∧
      (∀ i, stream s' i = stream s (i + n)) ∧ getBits s n = some ((List.range n).map (stream s), s') := by
  obtain ⟨t, g1, g2, g3, g4⟩ := getBits_spec s hs n
  refine ⟨t, ?_, g2, g3, g4, g1⟩
  unfold read
  rw [if_pos ⟨h1, h2⟩, readLoop_eq s hs 0 n h2 (by simp), g1]
  simp

end Jp2.Bio

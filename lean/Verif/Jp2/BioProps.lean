import Verif.Jp2.BioLemmas
/-!
# Property theorems about the bit coder (C22, C23, C24)
-/
namespace Jp2.Bio

/-! ## Vocabulary of the statements: sequences of API calls -/

/-- Write a sequence of fields `(value, width)` with `opj_bio_write`. -/
def writeAll (s : Bio) : List (Nat × Nat) → Option Bio
  | [] => some s
  | (v, n) :: fs => (write s v n).bind fun s' => writeAll s' fs

/-- Read fields of the given widths with `opj_bio_read`. -/
def readAll (s : Bio) : List Nat → Option (List Nat × Bio)
  | [] => some ([], s)
  | n :: ns => (read s n).bind fun (v, s') => (readAll s' ns).map fun (vs, t) => (v :: vs, t)

/-- Calls on an encoder. -/
inductive EncOp where
  | putbit (b : Bool)
  | write (v n : Nat)
  | flush

/-- Calls on a decoder. -/
inductive DecOp where
  | getbit
  | read (n : Nat)
  | inalign

def EncOp.run (s : Bio) : EncOp → Option Bio
  | .putbit b => Bio.putbit s b.toNat
  | .write v n => Bio.write s v n
  | .flush => (Bio.flush s).map (·.1)

def DecOp.run (s : Bio) : DecOp → Option Bio
  | .getbit => (Bio.getbit s).map (·.2)
  | .read n => (Bio.read s n).map (·.2)
  | .inalign => (Bio.inalign s).map (·.1)

/-- The documented precondition: fields are 1 to 32 bits wide. -/
def EncOp.Ok : EncOp → Prop
  | .write _ n => 1 ≤ n ∧ n ≤ 32
  | _ => True

def DecOp.Ok : DecOp → Prop
  | .read n => 1 ≤ n ∧ n ≤ 32
  | _ => True

/-! ## Helpers -/

def fieldBits (fs : List (Nat × Nat)) : List Bool := (fs.map fun f => bitsOf f.2 f.1).flatten

theorem writeAll_eq (s : Bio) (fs : List (Nat × Nat)) (h : ∀ f ∈ fs, 1 ≤ f.2 ∧ f.2 ≤ 32) :
    writeAll s fs = putBits s (fieldBits fs) := by
  induction fs generalizing s with
  | nil => rfl
  | cons f fs ih =>
    obtain ⟨v, n⟩ := f
    have := h (v, n) (by simp)
    simp only [writeAll, fieldBits, List.map_cons, List.flatten_cons]
    rw [write_eq s v n this.1 this.2, putBits_append]
    congr 1
    funext t
    exact ih t (fun f hf => h f (by simp [hf]))

theorem getBits_add (s : Bio) (a b : Nat) :
    getBits s (a + b) = (getBits s a).bind fun (x, t) => (getBits t b).map fun (y, u) => (x ++ y, u) := by
  induction a generalizing s with
  | zero => simp [getBits]
  | succ a ih =>
    rw [Nat.succ_add]
    simp only [getBits]
    cases getbit s with
    | none => rfl
    | some r =>
      obtain ⟨c, t⟩ := r
      simp only [Option.bind_some, ih]
      cases getBits t a with
      | none => rfl
      | some r =>
        obtain ⟨x, u⟩ := r
        simp only [Option.bind_some, Option.map_some]
        cases getBits u b <;> rfl

theorem range_map_stream (f : Nat → Bool) (l : List Bool) (off : Nat)
    (h : ∀ i (hi : i < l.length), f (off + i) = l[i]) :
    (List.range l.length).map (fun i => f (off + i)) = l := by
  apply List.ext_getElem
  · simp
  · intro i h1 h2
    simp only [List.getElem_map, List.getElem_range]
    exact h i h2

theorem readAll_spec (s : Bio) (hs : DecSafe s) (fs : List (Nat × Nat))
    (hf : ∀ f ∈ fs, 1 ≤ f.2 ∧ f.2 ≤ 32)
    (hst : ∀ i (hi : i < (fieldBits fs).length), stream s i = (fieldBits fs)[i]) :
    ∃ t, readAll s (fs.map (·.2)) = some (fs.map (fun f => f.1 % 2 ^ f.2), t) ∧ DecSafe t ∧ t.mem = s.mem ∧
      (∀ i, stream t i = stream s (i + (fieldBits fs).length)) ∧
      getBits s (fieldBits fs).length = some (fieldBits fs, t) := by
  induction fs generalizing s with
  | nil => exact ⟨s, rfl, hs, rfl, fun i => rfl, rfl⟩
  | cons f fs ih =>
    obtain ⟨v, n⟩ := f
    have hn := hf (v, n) (by simp)
    obtain ⟨t, h1, h2, h3, h4, h5⟩ := read_spec s hs n hn.1 hn.2
    have hfb : fieldBits ((v, n) :: fs) = bitsOf n v ++ fieldBits fs := rfl
    rw [hfb] at hst ⊢
    have hbits : (List.range n).map (stream s) = bitsOf n v := by
      have := range_map_stream (stream s) (bitsOf n v) 0 (fun i hi => by
        rw [Nat.zero_add, hst i (by rw [List.length_append]; omega), List.getElem_append_left])
      rw [bitsOf_length] at this
      simpa using this
    obtain ⟨u, g1, g2, g3, g4, g5⟩ := ih t h2 (fun f h => hf f (by simp [h])) (fun i hi => by
      rw [h4]
      have e : i + n = (bitsOf n v).length + i := by rw [bitsOf_length, Nat.add_comm]
      rw [hst (i + n) (by rw [List.length_append, bitsOf_length]; omega)]
      simp only [e]
      rw [List.getElem_append_right (by omega)]
      simp)
    refine ⟨u, ?_, g2, by rw [g3, h3], fun i => ?_, ?_⟩
    · simp only [List.map_cons, readAll, h1, Option.bind_some, g1, Option.map_some, hbits, valOf_bitsOf]
    · rw [g4, h4, List.length_append, bitsOf_length]; congr 1; omega
    · rw [List.length_append, bitsOf_length, getBits_add, h5, hbits]
      simp only [Option.bind_some, g5, Option.map_some]

/-! ### Where the decoder stands -/

def plen (mem : List UInt8) (p : Nat) : Nat := (unstuff 0 (mem.take p)).length

theorem unstuff_length_cons (p : Nat) (b : UInt8) (r : List UInt8) :
    (unstuff p (b :: r)).length = width p + (unstuff b.toNat r).length := by
  simp [unstuff, bitsOf_length]

theorem plen_succ (mem : List UInt8) (p : Nat) (h : p < mem.length) :
    plen mem (p + 1) = plen mem p + width (lastByte 0 (mem.take p)) := by
  unfold plen
  rw [List.take_add_one, List.getElem?_eq_getElem h]
  simp only [Option.toList_some, unstuff_append, List.length_append]
  simp [unstuff, bitsOf_length]

theorem plen_mono (mem : List UInt8) (p q : Nat) (h : p ≤ q) : plen mem p ≤ plen mem q := by
  induction q with
  | zero => have : p = 0 := by omega
            subst this; exact Nat.le_refl _
  | succ q ih =>
    by_cases hq : p = q + 1
    · subst hq; exact Nat.le_refl _
    · have := ih (by omega)
      by_cases hl : q < mem.length
      · rw [plen_succ mem q hl]; omega
      · have : mem.take (q + 1) = mem.take q := by
          rw [List.take_of_length_le (by omega), List.take_of_length_le (by omega)]
        unfold plen at *
        rw [this]; assumption

theorem lastByte_take_succ (mem : List UInt8) (p : Nat) (h : p < mem.length) :
    lastByte 0 (mem.take (p + 1)) = mem[p].toNat := by
  rw [List.take_add_one, List.getElem?_eq_getElem h, lastByte_append]
  rfl

structure DecPos (s : Bio) (m : Nat) : Prop where
  safe : DecSafe s
  len : plen s.mem s.bp = m + s.ct
  last : s.buf % 256 = lastByte 0 (s.mem.take s.bp)
  min : 0 < m → 0 < s.bp ∧ plen s.mem (s.bp - 1) < m

theorem decPos_init (mem : List UInt8) : DecPos (initDec mem) 0 :=
  ⟨decSafe_init mem, by simp [plen, initDec, unstuff], by simp [initDec, lastByte], by omega⟩

theorem decPos_getbit (s : Bio) (m : Nat) (h : DecPos s m) (hm : m < plen s.mem s.mem.length) :
    ∃ b s', getbit s = some (b, s') ∧ s'.mem = s.mem ∧ DecPos s' (m + 1) := by
  obtain ⟨t, h1, h2, h3, h4, h5, h6⟩ := getbit_spec s h.safe
  refine ⟨_, t, h1, h3, h2, ?_, ?_, ?_⟩
  · by_cases hc : s.ct = 0
    · have hbp : s.bp < s.mem.length := by
        apply Decidable.byContradiction
        intro hn
        have : s.bp = s.mem.length := by have := h.safe.bp; omega
        have := h.len
        rw [hc] at this
        rw [‹s.bp = _›] at this
        omega
      have := h6 hc
      rw [if_pos hbp] at this
      rw [h3, this.1, plen_succ _ _ hbp, h.len, hc, this.2.1, h.last]
      have := width_le (lastByte 0 (s.mem.take s.bp))
      omega
    · have := h5 hc
      rw [h3, this.1, this.2.2, h.len]; omega
  · by_cases hc : s.ct = 0
    · have hbp : s.bp < s.mem.length := by
        apply Decidable.byContradiction
        intro hn
        have : s.bp = s.mem.length := by have := h.safe.bp; omega
        have := h.len
        rw [hc] at this
        rw [‹s.bp = _›] at this
        omega
      have := h6 hc
      rw [if_pos hbp] at this
      rw [h3, this.1, this.2.2.1 hbp, lastByte_take_succ _ _ hbp, List.getElem?_eq_getElem hbp]
      rfl
    · have := h5 hc
      rw [h3, this.1, this.2.1, h.last]
  · intro _
    by_cases hc : s.ct = 0
    · have hbp : s.bp < s.mem.length := by
        apply Decidable.byContradiction
        intro hn
        have : s.bp = s.mem.length := by have := h.safe.bp; omega
        have := h.len
        rw [hc] at this
        rw [‹s.bp = _›] at this
        omega
      have := h6 hc
      rw [if_pos hbp] at this
      rw [h3, this.1]
      refine ⟨by omega, ?_⟩
      rw [Nat.add_sub_cancel, h.len, hc]; omega
    · have := h5 hc
      rw [h3, this.1]
      by_cases h0 : 0 < m
      · have := h.min h0; omega
      · have hl := h.len
        have h0 : m = 0 := by omega
        subst h0
        have hpos : 0 < s.bp := by
          apply Decidable.byContradiction
          intro hz
          have hz : s.bp = 0 := by omega
          rw [hz] at hl
          simp [plen, unstuff] at hl
          omega
        refine ⟨hpos, ?_⟩
        -- all of the bits of the only byte are unread: impossible beyond one byte
        have hb8 := h.safe.ct
        obtain ⟨p, hp⟩ : ∃ p, s.bp = p + 1 := ⟨s.bp - 1, by omega⟩
        have hple : p < s.mem.length := by have := h.safe.bp; omega
        rw [hp, plen_succ _ _ hple] at hl
        have := width_le (lastByte 0 (s.mem.take p))
        rw [hp, Nat.add_sub_cancel]
        cases p with
        | zero => simp [plen, unstuff]
        | succ q =>
          rw [plen_succ _ q (by omega)] at hl
          have := width_le (lastByte 0 (s.mem.take q))
          omega

theorem decPos_getBits (n : Nat) (s : Bio) (m : Nat) (h : DecPos s m) (hm : m + n ≤ plen s.mem s.mem.length) :
    ∃ bs s', getBits s n = some (bs, s') ∧ s'.mem = s.mem ∧ DecPos s' (m + n) := by
  induction n generalizing s m with
  | zero => exact ⟨[], s, rfl, rfl, h⟩
  | succ n ih =>
    obtain ⟨b, t, h1, h2, h3⟩ := decPos_getbit s m h (by omega)
    obtain ⟨bs, u, g1, g2, g3⟩ := ih t (m + 1) h3 (by rw [h2]; omega)
    refine ⟨_, u, by simp only [getBits, h1, g1, Option.bind_some, Option.map_some]; rfl, by rw [g2, h2], ?_⟩
    rw [show m + (n + 1) = m + 1 + n by omega]; exact g3

/-! ## C22 -/

/-- After a successful flush, a reader that took as many bits as were written is aligned to the end of the bytes produced. -/
theorem flush_align (mem : List UInt8) (bits : List Bool) (s s' : Bio) (hne : bits ≠ [])
    (h : putBits (initEnc mem) bits = some s) (hf : flush s = some (s', true)) (tail : List UInt8) (bs : List Bool) (t : Bio)
    (r5 : getBits (initDec (s'.mem.take (numbytes s') ++ tail)) bits.length = some (bs, t)) :
    ∃ t', inalign t = some (t', true) ∧ numbytes t' = numbytes s' := by
  obtain ⟨s0, h1, h2, h3, h4, h5⟩ := putBits_spec (initEnc mem) [] bits (encSafe_init mem)
    (fun _ => encInv_init mem)
  rw [h] at h1
  simp only [Option.some.injEq] at h1
  subst h1
  obtain ⟨s1, ok, g1, g2, g3, gs, g4⟩ := flush_spec s bits h2 (fun hl => by
    have := (h5 hl).1; simpa using this)
  rw [hf] at g1
  simp only [Option.some.injEq, Prod.mk.injEq] at g1
  obtain ⟨rfl, rfl⟩ := g1
  obtain ⟨hlt, hinv, _, _, _, hout⟩ := g4 rfl
  have hct := (h5 hlt).2 hne
  unfold numbytes at r5 ⊢
  obtain ⟨out, hout'⟩ : ∃ out, out = s'.mem.take s'.bp := ⟨_, rfl⟩
  have houtlen : out.length = s'.bp := by rw [hout', List.length_take]; omega
  rw [← hout'] at hout r5
  -- payload of the output
  have hto : (UInt8.ofNat (s.buf % 256)).toNat = s.buf % 256 :=
    UInt8.toNat_ofNat_of_lt' (by show _ < 256; omega)
  have hbits := hinv.bits
  have hlow : bitsOf (width (s.buf / 256)) (s.buf % 256) =
      bitsOf (width (s.buf / 256) - s.ct) (s.buf % 256 / 2 ^ s.ct) ++ bitsOf s.ct (s.buf % 256) := by
    have := hinv.ct
    rw [← bitsOf_append]; congr 1; omega
  obtain ⟨ext, hext⟩ : ∃ ext : List UInt8, ext = if s.buf % 256 = 255 then [0] else [] := ⟨_, rfl⟩
  rw [← hext] at hout
  have hpay : ∃ rest, unstuff 0 (out ++ tail) = bits ++ rest := by
    refine ⟨bitsOf s.ct (s.buf % 256) ++ unstuff (s.buf % 256) (ext ++ tail), ?_⟩
    rw [hout, List.append_assoc, List.append_assoc, unstuff_append, hinv.prev]
    simp only [List.cons_append, List.nil_append, unstuff, hto]
    rw [hlow, hbits]
    simp only [List.append_assoc]
  obtain ⟨rest, hpay⟩ := hpay
  -- position
  have hmem : (initDec (out ++ tail)).mem = out ++ tail := rfl
  have hlen1 : bits.length ≤ plen (out ++ tail) (out ++ tail).length := by
    unfold plen; rw [List.take_length, hpay, List.length_append]; omega
  obtain ⟨bs, t', p1, p2, p3⟩ := decPos_getBits bits.length (initDec (out ++ tail)) 0
    (decPos_init _) (by rw [hmem]; omega)
  rw [r5] at p1
  simp only [Option.some.injEq, Prod.mk.injEq] at p1
  obtain ⟨_, rfl⟩ := p1
  rw [Nat.zero_add] at p3
  have r3 : t.mem = (initDec (out ++ tail)).mem := p2
  have hfl : bits.length = (unstuff 0 (s.mem.take s.bp)).length + (width (s.buf / 256) - s.ct) := by
    rw [hbits, List.length_append, bitsOf_length]
  have hslen : (s.mem.take s.bp).length = s.bp := by rw [List.length_take]; omega
  have htk : (out ++ tail).take s.bp = s.mem.take s.bp := by
    rw [hout, List.append_assoc, List.append_assoc, List.take_append_of_le_length (by omega),
      List.take_of_length_le (by omega)]
  have hblt : s.bp < (out ++ tail).length := by
    rw [hout]; simp only [List.length_append, hslen]; simp; omega
  have hget : (out ++ tail)[s.bp] = UInt8.ofNat (s.buf % 256) := by
    simp only [hout, List.append_assoc]
    rw [List.getElem_append_right (by omega)]
    simp [hslen]
  have hbp : t.bp = s.bp + 1 := by
    have hmin := p3.min (by omega)
    have hl := p3.len
    rw [r3, hmem] at hmin hl
    have e1 : plen (out ++ tail) s.bp < bits.length := by
      unfold plen; rw [htk, hfl]; omega
    have e2 : bits.length ≤ plen (out ++ tail) (s.bp + 1) := by
      rw [plen_succ _ _ hblt]
      unfold plen; rw [htk, hfl, hinv.prev]; omega
    have a1 : ¬ t.bp ≤ s.bp := by
      intro hle
      have := plen_mono (out ++ tail) _ _ hle
      omega
    have a2 : ¬ s.bp + 1 ≤ t.bp - 1 := by
      intro hle
      have := plen_mono (out ++ tail) _ _ hle
      omega
    omega
  have hbuf : t.buf % 256 = s.buf % 256 := by
    rw [p3.last, r3, hmem, hbp, lastByte_take_succ _ _ hblt, hget, hto]
  have hand : t.buf &&& 0xFF = t.buf % 256 := by
    have : (0xFF : Nat) = 2 ^ 8 - 1 := rfl
    rw [this, Nat.and_two_pow_sub_one_eq_mod]
  have hol : out.length = s.bp + 1 + ext.length := by
    rw [hout]; simp only [List.length_append, hslen, List.length_cons, List.length_nil]
  unfold inalign
  rw [hand, hbuf]
  by_cases h255 : s.buf % 256 = 255
  · rw [if_pos h255] at hext ⊢
    rw [bytein_eq]
    have hb1 : t.bp < t.mem.length := by
      rw [r3, hmem, hbp, List.length_append, hol, hext]; simp; omega
    simp only [List.getElem?_eq_getElem hb1]
    refine ⟨_, rfl, ?_⟩
    simp only [hbp]
    rw [hext] at hol
    simp at hol
    omega
  · rw [if_neg h255] at hext ⊢
    refine ⟨_, rfl, ?_⟩
    simp only [hbp]
    rw [hext] at hol
    simp at hol
    omega

/-- **C22.** Whatever fields are written, once `opj_bio_flush` reports success the bytes produced —
followed by anything — read back as exactly those fields; and (if anything was written) aligning the
reader afterwards leaves it exactly at the end of the bytes produced. -/
theorem C22_bio_round_trip (mem : List UInt8) (fields : List (Nat × Nat))
    (hw : ∀ f ∈ fields, 1 ≤ f.2 ∧ f.2 ≤ 32) (s s' : Bio)
    (h : writeAll (initEnc mem) fields = some s) (hf : flush s = some (s', true)) (tail : List UInt8) :
    ∃ t, readAll (initDec (s'.mem.take (numbytes s') ++ tail)) (fields.map (·.2)) =
        some (fields.map (fun f => f.1 % 2 ^ f.2), t) ∧
      (fields ≠ [] → ∃ t', inalign t = some (t', true) ∧ numbytes t' = numbytes s') := by
  rw [writeAll_eq _ _ hw] at h
  obtain ⟨s0, h1, h2, h3, h4, h5⟩ := putBits_spec (initEnc mem) [] (fieldBits fields) (encSafe_init mem)
    (fun _ => encInv_init mem)
  rw [h] at h1
  simp only [Option.some.injEq] at h1
  subst h1
  obtain ⟨s1, ok, g1, g2, g3, gs, g4⟩ := flush_spec s (fieldBits fields) h2 (fun hl => by
    have := (h5 hl).1; simpa using this)
  rw [hf] at g1
  simp only [Option.some.injEq, Prod.mk.injEq] at g1
  obtain ⟨rfl, rfl⟩ := g1
  obtain ⟨hlt, hinv, _, _, _, hout⟩ := g4 rfl
  have hal := fun (hne : fieldBits fields ≠ []) => flush_align mem _ s s' hne h hf tail
  unfold numbytes at hal ⊢
  obtain ⟨out, hout'⟩ : ∃ out, out = s'.mem.take s'.bp := ⟨_, rfl⟩
  have houtlen : out.length = s'.bp := by rw [hout', List.length_take]; omega
  rw [← hout'] at hout hal ⊢
  -- payload of the output
  have hto : (UInt8.ofNat (s.buf % 256)).toNat = s.buf % 256 :=
    UInt8.toNat_ofNat_of_lt' (by show _ < 256; omega)
  have hbits := hinv.bits
  have hlow : bitsOf (width (s.buf / 256)) (s.buf % 256) =
      bitsOf (width (s.buf / 256) - s.ct) (s.buf % 256 / 2 ^ s.ct) ++ bitsOf s.ct (s.buf % 256) := by
    have := hinv.ct
    rw [← bitsOf_append]; congr 1; omega
  obtain ⟨ext, hext⟩ : ∃ ext : List UInt8, ext = if s.buf % 256 = 255 then [0] else [] := ⟨_, rfl⟩
  rw [← hext] at hout
  have hpay : ∃ rest, unstuff 0 (out ++ tail) = fieldBits fields ++ rest := by
    refine ⟨bitsOf s.ct (s.buf % 256) ++ unstuff (s.buf % 256) (ext ++ tail), ?_⟩
    rw [hout, List.append_assoc, List.append_assoc, unstuff_append, hinv.prev]
    simp only [List.cons_append, List.nil_append, unstuff, hto]
    rw [hlow, hbits]
    simp only [List.append_assoc]
  obtain ⟨rest, hpay⟩ := hpay
  obtain ⟨t, r1, r2, r3, r4, r5⟩ := readAll_spec (initDec (out ++ tail)) (decSafe_init _) fields hw (fun i hi => by
    unfold stream
    rw [rem_init, hpay, List.getD_eq_getElem?_getD, List.getElem?_append_left hi, List.getElem?_eq_getElem hi]
    rfl)
  refine ⟨t, r1, fun hne => ?_⟩
  refine hal ?_ _ t r5
  obtain ⟨f, fs, rfl⟩ := List.exists_cons_of_ne_nil hne
  have := hw f (by simp)
  intro hc
  have := congrArg List.length hc
  simp [fieldBits, bitsOf_length] at this
  omega

/-- Non-vacuity: fields producing a stuffed byte, with room, flush successfully. -/
example : ∃ s s', writeAll (initEnc [9, 9, 9, 9]) [(0xFF, 8), (3, 2), (1, 1)] = some s ∧ flush s = some (s', true) ∧
    s'.mem.take (numbytes s') = [0xFF, 0x70] := ⟨_, _, rfl, rfl, by decide⟩

/-! ## C23 -/

theorem stuffed_getElem (p : Nat) (l : List UInt8) (h : Stuffed p l) (i : Nat) (a b : UInt8)
    (ha : l[i]? = some a) (hb : l[i + 1]? = some b) (hff : a = 0xFF) : b < 0x80 := by
  induction l generalizing p i with
  | nil => simp at ha
  | cons x l ih =>
    cases i with
    | zero =>
      simp only [List.getElem?_cons_zero, Option.some.injEq] at ha
      subst ha; subst hff
      obtain ⟨_, h⟩ := h
      cases l with
      | nil => simp at hb
      | cons y l =>
        simp only [Nat.zero_add, List.getElem?_cons_succ, List.getElem?_cons_zero, Option.some.injEq] at hb
        subst hb
        have := h.1
        rw [UInt8.lt_iff_toNat_lt]
        simpa [width] using this
    | succ i =>
      simp only [List.getElem?_cons_succ] at ha hb
      exact ih _ h.2 i ha hb

/-- **C23.** After a successful flush, in the bytes produced every `0xFF` is followed by a byte below
`0x80`; in particular the bytes do not end in `0xFF`. -/
theorem C23_no_marker (mem : List UInt8) (fields : List (Nat × Nat))
    (hw : ∀ f ∈ fields, 1 ≤ f.2 ∧ f.2 ≤ 32) (s s' : Bio)
    (h : writeAll (initEnc mem) fields = some s) (hf : flush s = some (s', true)) (i : Nat)
    (hi : (s'.mem.take (numbytes s'))[i]? = some 0xFF) :
    ∃ b, (s'.mem.take (numbytes s'))[i + 1]? = some b ∧ b < 0x80 := by
  rw [writeAll_eq _ _ hw] at h
  obtain ⟨s0, h1, h2, h3, h4, h5⟩ := putBits_spec (initEnc mem) [] (fieldBits fields) (encSafe_init mem)
    (fun _ => encInv_init mem)
  rw [h] at h1
  simp only [Option.some.injEq] at h1
  subst h1
  obtain ⟨s1, ok, g1, g2, g3, gs, g4⟩ := flush_spec s (fieldBits fields) h2 (fun hl => by
    have := (h5 hl).1; simpa using this)
  rw [hf] at g1
  simp only [Option.some.injEq, Prod.mk.injEq] at g1
  obtain ⟨rfl, rfl⟩ := g1
  obtain ⟨_, _, ⟨bits', hinv⟩, hz, hl, _⟩ := g4 rfl
  unfold numbytes at *
  cases hb : (s'.mem.take s'.bp)[i + 1]? with
  | some b => exact ⟨b, rfl, stuffed_getElem 0 _ hinv.stuffed i _ b hi hb rfl⟩
  | none =>
    exfalso
    -- the last byte is not FF
    apply hl
    rw [← hinv.prev]
    have hlen : (s'.mem.take s'.bp).length = i + 1 := by
      have a := List.getElem?_eq_none_iff.1 hb
      have b := (List.getElem?_eq_some_iff.1 hi).1
      omega
    obtain ⟨l, hl'⟩ : ∃ l, l = s'.mem.take s'.bp := ⟨_, rfl⟩
    rw [← hl'] at hi hlen ⊢
    have : l = l.take i ++ [0xFF] := by
      have h1 := (List.take_append_drop i l).symm
      rw [List.drop_eq_getElem_cons (by omega), List.drop_of_length_le (by omega)] at h1
      rw [List.getElem?_eq_getElem (by omega), Option.some.injEq] at hi
      rw [hi] at h1
      exact h1
    rw [this, lastByte_append]
    rfl

/-! ## C24 -/

theorem encSafe_op (s : Bio) (hs : EncSafe s) (op : EncOp) (hop : op.Ok) :
    ∃ s', op.run s = some s' ∧ EncSafe s' ∧ s'.mem.length = s.mem.length := by
  -- forget the represented bits: only safety is needed
  have put : ∀ (bs : List Bool) (s : Bio), EncSafe s →
      ∃ s', putBits s bs = some s' ∧ EncSafe s' ∧ s'.mem.length = s.mem.length := by
    intro bs
    induction bs with
    | nil => intro s hs; exact ⟨s, rfl, hs, rfl⟩
    | cons b bs ih =>
      intro s hs
      have : ∃ s', putbit s b.toNat = some s' ∧ EncSafe s' ∧ s'.mem.length = s.mem.length := by
        have room : ∀ t : Bio, EncSafe t → 0 < t.ct →
            EncSafe { t with ct := t.ct - 1, buf := t.buf ||| (b.toNat <<< (t.ct - 1) % 2 ^ 32) } := by
          intro t ht hct
          obtain ⟨c, hc⟩ : ∃ c, t.ct = c + 1 := ⟨t.ct - 1, by omega⟩
          have hc8 := ht.ct
          have hpow : 2 ^ c ≤ 128 := by
            calc 2 ^ c ≤ 2 ^ 7 := Nat.pow_le_pow_right (by omega) (by omega)
              _ = 128 := rfl
          have hb : b.toNat ≤ 1 := by cases b <;> decide
          have hm : b.toNat * 2 ^ c ≤ 1 * 128 := Nat.mul_le_mul hb hpow
          refine ⟨?_, by simp; omega, ht.bp⟩
          simp only [hc, Nat.add_sub_cancel]
          refine Nat.or_lt_two_pow (n := 16) ht.buf ?_
          rw [Nat.shiftLeft_eq]
          omega
        unfold putbit
        by_cases h0 : s.ct = 0
        · obtain ⟨t, ok, ht, hts, htc, hlen, _⟩ := byteout_safe s hs
          simp only [h0, if_true, ht]
          rw [if_neg (by omega)]
          exact ⟨_, rfl, room t hts htc, hlen⟩
        · simp only [h0, if_false]
          exact ⟨_, rfl, room s hs (by omega), rfl⟩
      obtain ⟨t, h1, h2, h3⟩ := this
      obtain ⟨u, g1, g2, g3⟩ := ih t h2
      exact ⟨u, by simp [putBits, h1, g1], g2, by omega⟩
  cases op with
  | putbit b =>
    obtain ⟨s', h1, h2⟩ := put [b] s hs
    simp only [putBits] at h1
    refine ⟨s', ?_, h2⟩
    cases hp : putbit s b.toNat with
    | none => rw [hp] at h1; simp at h1
    | some t => rw [hp] at h1; simp at h1; simp [EncOp.run, hp, h1]
  | write v n =>
    obtain ⟨s', h1, h2⟩ := put (bitsOf n v) s hs
    exact ⟨s', by simp only [EncOp.run]; rw [write_eq s v n hop.1 hop.2, h1], h2⟩
  | flush =>
    obtain ⟨t, ok, ht, hts, htc, hlen, _⟩ := byteout_safe s hs
    simp only [EncOp.run, flush, ht]
    cases ok with
    | false => exact ⟨t, rfl, hts, hlen⟩
    | true =>
      simp only
      split
      · obtain ⟨u, ok2, hu, hus, _, hulen, _⟩ := byteout_safe t hts
        exact ⟨u, by simp [hu], hus, by omega⟩
      · exact ⟨t, rfl, hts, hlen⟩

/-- **C24.** Encoder: from any buffer, any sequence of legal calls runs without a store outside the
buffer and without panicking, never moves past the end and never changes the buffer's length. -/
theorem C24_encoder_in_bounds (mem : List UInt8) (ops : List EncOp) (hops : ∀ op ∈ ops, op.Ok) :
    ∃ s, ops.foldlM EncOp.run (initEnc mem) = some s ∧ numbytes s ≤ mem.length ∧ s.mem.length = mem.length := by
  have : ∀ (ops : List EncOp) (s : Bio), (∀ op ∈ ops, op.Ok) → EncSafe s →
      ∃ s', ops.foldlM EncOp.run s = some s' ∧ EncSafe s' ∧ s'.mem.length = s.mem.length := by
    intro ops
    induction ops with
    | nil => intro s _ hs; exact ⟨s, rfl, hs, rfl⟩
    | cons op ops ih =>
      intro s hok hs
      obtain ⟨t, h1, h2, h3⟩ := encSafe_op s hs op (hok op (by simp))
      obtain ⟨u, g1, g2, g3⟩ := ih t (fun o ho => hok o (by simp [ho])) h2
      exact ⟨u, by simp [List.foldlM_cons, h1, g1], g2, by omega⟩
  obtain ⟨s, h1, h2, h3⟩ := this ops (initEnc mem) hops (encSafe_init mem)
  have h4 : s.mem.length = mem.length := h3
  exact ⟨s, h1, by have := h2.bp; unfold numbytes; omega, h4⟩

theorem bytein_safe (s : Bio) (hs : DecSafe s) :
    ∃ s' ok, bytein s = some (s', ok) ∧ DecSafe s' ∧ s'.mem = s.mem := by
  rw [bytein_eq s]
  have hw := width_le (s.buf % 256)
  by_cases hc : s.bp < s.mem.length
  · have hlt := (s.mem[s.bp]).toNat_lt
    simp only [List.getElem?_eq_getElem hc]
    exact ⟨_, _, rfl, ⟨by simp only; omega, hw.2, by simp only; omega⟩, rfl⟩
  · rw [List.getElem?_eq_none (by omega)]
    exact ⟨_, _, rfl, ⟨by simp only; omega, hw.2, hs.bp⟩, rfl⟩

/-- **C24.** Decoder: likewise; and the buffer is never changed. -/
theorem C24_decoder_in_bounds (mem : List UInt8) (ops : List DecOp) (hops : ∀ op ∈ ops, op.Ok) :
    ∃ s, ops.foldlM DecOp.run (initDec mem) = some s ∧ numbytes s ≤ mem.length ∧ s.mem = mem := by
  have one : ∀ (op : DecOp) (s : Bio), op.Ok → DecSafe s →
      ∃ s', op.run s = some s' ∧ DecSafe s' ∧ s'.mem = s.mem := by
    intro op s hok hs
    cases op with
    | getbit =>
      obtain ⟨t, h1, h2, h3, _⟩ := getbit_spec s hs
      exact ⟨t, by simp [DecOp.run, h1], h2, h3⟩
    | read n =>
      obtain ⟨t, h1, h2, h3, _⟩ := read_spec s hs n hok.1 hok.2
      exact ⟨t, by simp [DecOp.run, h1], h2, h3⟩
    | inalign =>
      simp only [DecOp.run, inalign]
      split
      · obtain ⟨t, ok, h1, h2, h3⟩ := bytein_safe s hs
        rw [h1]
        cases ok with
        | false => exact ⟨t, rfl, h2, h3⟩
        | true => exact ⟨_, rfl, ⟨h2.buf, by simp, h2.bp⟩, h3⟩
      · exact ⟨_, rfl, ⟨hs.buf, by simp, hs.bp⟩, rfl⟩
  have : ∀ (ops : List DecOp) (s : Bio), (∀ op ∈ ops, op.Ok) → DecSafe s →
      ∃ s', ops.foldlM DecOp.run s = some s' ∧ DecSafe s' ∧ s'.mem = s.mem := by
    intro ops
    induction ops with
    | nil => intro s _ hs; exact ⟨s, rfl, hs, rfl⟩
    | cons op ops ih =>
      intro s hok hs
      obtain ⟨t, h1, h2, h3⟩ := one op s (hok op (by simp)) hs
      obtain ⟨u, g1, g2, g3⟩ := ih t (fun o ho => hok o (by simp [ho])) h2
      exact ⟨u, by simp [List.foldlM_cons, h1, g1], g2, by rw [g3, h3]⟩
  obtain ⟨s, h1, h2, h3⟩ := this ops (initDec mem) hops (decSafe_init mem)
  have h3 : s.mem = mem := h3
  exact ⟨s, h1, by have := h2.bp; rw [h3] at this; exact this, h3⟩

example : ∃ s, [EncOp.write 0xFFFF 16, .putbit true, .flush].foldlM EncOp.run (initEnc [0]) = some s ∧
    numbytes s = 1 := ⟨_, rfl, rfl⟩

/-- Two encoders in step, the first with the smaller buffer. -/
structure Sim (a b : Bio) : Prop where
  buf : a.buf = b.buf
  ct : a.ct = b.ct
  le : a.mem.length ≤ b.mem.length
  bpb : b.bp ≤ b.mem.length
  bp : a.bp = min b.bp a.mem.length
  out : a.mem.take a.bp = b.mem.take a.bp

theorem sim_byteout (a b : Bio) (h : Sim a b) (b' : Bio) (ok : Bool) (hb : byteout b = some (b', ok)) :
    ∃ a' oka, byteout a = some (a', oka) ∧ Sim a' b' ∧ a'.mem.length = a.mem.length ∧
      (ok = true → (oka = true ↔ b'.bp ≤ a.mem.length)) := by
  rw [byteout_eq] at hb
  rw [byteout_eq]
  obtain ⟨h1, h2, h3, h4, h5, h6⟩ := h
  by_cases hb1 : b.mem.length ≤ b.bp
  · rw [if_pos hb1] at hb
    simp only [Option.some.injEq, Prod.mk.injEq] at hb
    obtain ⟨rfl, rfl⟩ := hb
    rw [if_pos (by omega)]
    exact ⟨_, _, rfl, ⟨by simp [h1], by simp [h1], h3, h4, h5, h6⟩, rfl, by simp⟩
  · rw [if_neg hb1] at hb
    simp only [Option.some.injEq, Prod.mk.injEq] at hb
    obtain ⟨rfl, rfl⟩ := hb
    by_cases ha1 : a.mem.length ≤ a.bp
    · rw [if_pos ha1]
      refine ⟨_, _, rfl, ⟨by simp [h1], by simp [h1], by simp; exact h3, by simp; omega, ?_, ?_⟩, rfl, ?_⟩
      · simp only; omega
      · simp only
        rw [h6, List.take_set_of_le (by omega)]
      · simp; omega
    · rw [if_neg ha1]
      have hbp : a.bp = b.bp := by omega
      refine ⟨_, _, rfl, ⟨by simp [h1], by simp [h1], by simp; exact h3, by simp; omega, ?_, ?_⟩, by simp, ?_⟩
      · simp; omega
      · simp only
        rw [take_set_succ _ _ _ (by omega), hbp, take_set_succ _ _ _ (by omega), h1]
        rw [hbp] at h6; rw [h6]
      · simp; omega

theorem sim_putBits (bs : List Bool) (a b : Bio) (h : Sim a b) (b' : Bio) (hb : putBits b bs = some b') :
    ∃ a', putBits a bs = some a' ∧ Sim a' b' ∧ a'.mem.length = a.mem.length := by
  induction bs generalizing a b with
  | nil =>
    simp only [putBits, Option.some.injEq] at hb
    subst hb
    exact ⟨a, rfl, h, rfl⟩
  | cons x bs ih =>
    simp only [putBits] at hb
    cases hp : putbit b x.toNat with
    | none => rw [hp] at hb; simp at hb
    | some c =>
      rw [hp] at hb
      have : ∃ c', putbit a x.toNat = some c' ∧ Sim c' c ∧ c'.mem.length = a.mem.length := by
        unfold putbit at hp ⊢
        have go : ∀ (a b c : Bio), Sim a b →
            (if b.ct = 0 then none else some { b with ct := b.ct - 1, buf := b.buf ||| (x.toNat <<< (b.ct - 1) % 2 ^ 32) }) = some c →
            ∃ c', (if a.ct = 0 then none else some { a with ct := a.ct - 1, buf := a.buf ||| (x.toNat <<< (a.ct - 1) % 2 ^ 32) }) = some c' ∧
              Sim c' c ∧ c'.mem.length = a.mem.length := by
          intro a b c h hc
          split at hc
          · simp at hc
          · rename_i h0
            simp only [Option.some.injEq] at hc
            subst hc
            rw [if_neg (by rw [h.ct]; exact h0)]
            exact ⟨_, rfl, ⟨by simp [h.buf, h.ct], by simp [h.ct], h.le, h.bpb, h.bp, h.out⟩, rfl⟩
        by_cases h0 : b.ct = 0
        · rw [if_pos h0] at hp
          rw [if_pos (by rw [h.ct]; exact h0)]
          cases hbo : byteout b with
          | none => rw [hbo] at hp; simp at hp
          | some r =>
            obtain ⟨d, ok⟩ := r
            rw [hbo] at hp
            obtain ⟨a', oka, e1, e2, e3, _⟩ := sim_byteout a b h d ok hbo
            rw [e1]
            obtain ⟨c', f1, f2, f3⟩ := go a' d c e2 hp
            exact ⟨c', f1, f2, by omega⟩
        · rw [if_neg h0] at hp
          rw [if_neg (by rw [h.ct]; exact h0)]
          exact go a b c h hp
      obtain ⟨c', e1, e2, e3⟩ := this
      obtain ⟨a', f1, f2, f3⟩ := ih c' c e2 hb
      exact ⟨a', by simp [putBits, e1, f1], f2, by omega⟩

theorem sim_flush (a b : Bio) (h : Sim a b) (b' : Bio) (hb : flush b = some (b', true)) :
    ∃ a' ok, flush a = some (a', ok) ∧ (ok = true ↔ b'.bp ≤ a.mem.length) ∧
      (ok = true → a'.bp = b'.bp ∧ a'.mem.take a'.bp = b'.mem.take b'.bp) := by
  unfold flush at hb ⊢
  cases hbo : byteout b with
  | none => rw [hbo] at hb; simp at hb
  | some r =>
    obtain ⟨c, okc⟩ := r
    rw [hbo] at hb
    cases okc with
    | false => simp at hb
    | true =>
      simp only at hb
      obtain ⟨d, okd, e1, e2, e3, e4⟩ := sim_byteout a b h c true hbo
      have e4 := e4 rfl
      have fin : ∀ x y : Bio, Sim x y → y.bp ≤ x.mem.length → x.bp = y.bp ∧ x.mem.take x.bp = y.mem.take y.bp := by
        intro x y hxy hle
        have := hxy.bp
        have hb : x.bp = y.bp := by omega
        refine ⟨hb, ?_⟩
        have := hxy.out
        rw [hb] at this ⊢
        exact this
      rw [e1]
      split at hb
      · rename_i h7
        obtain ⟨f, okf, g1, g2, g3, g4⟩ := sim_byteout d c e2 b' true hb
        have g4 := g4 rfl
        have hb' : b'.bp = c.bp + 1 := by
          rw [byteout_eq] at hb
          split at hb <;> simp only [Option.some.injEq, Prod.mk.injEq, Bool.false_eq_true, and_false] at hb
          rw [← hb.1]
        cases okd with
        | false =>
          refine ⟨d, false, rfl, ?_, by simp⟩
          simp at e4 ⊢; omega
        | true =>
          simp only
          rw [if_pos (by rw [e2.ct]; exact h7), g1]
          refine ⟨f, okf, rfl, by rw [g4]; omega, ?_⟩
          intro ho
          exact fin f b' g2 (by rw [g3]; exact g4.1 ho)
      · rename_i h7
        simp only [Option.some.injEq, Prod.mk.injEq, and_true] at hb
        subst hb
        cases okd with
        | false => exact ⟨d, false, rfl, by simpa using e4, by simp⟩
        | true =>
          simp only
          rw [if_neg (by rw [e2.ct]; exact h7)]
          refine ⟨d, true, rfl, by simpa using e4, fun _ => fin d c e2 ?_⟩
          rw [e3]; exact e4.1 rfl

/-- **C24.** Flush reports success exactly when everything fits: if the same fields take `k` bytes in a
larger buffer, then in this one flush succeeds iff `k ≤ length`, and then produces the same bytes. -/
theorem C24_flush_reports_overflow (small big : List UInt8) (hle : small.length ≤ big.length)
    (fields : List (Nat × Nat)) (hw : ∀ f ∈ fields, 1 ≤ f.2 ∧ f.2 ≤ 32) (t t' : Bio)
    (h : writeAll (initEnc big) fields = some t) (hf : flush t = some (t', true)) :
    ∃ s s' ok, writeAll (initEnc small) fields = some s ∧ flush s = some (s', ok) ∧
      (ok = true ↔ numbytes t' ≤ small.length) ∧
      (ok = true → s'.mem.take (numbytes s') = t'.mem.take (numbytes t')) := by
  rw [writeAll_eq _ _ hw] at h ⊢
  have h0 : Sim (initEnc small) (initEnc big) :=
    ⟨rfl, rfl, hle, by simp [initEnc], by simp [initEnc], by simp [initEnc]⟩
  obtain ⟨s, e1, e2, e3⟩ := sim_putBits _ _ _ h0 t h
  obtain ⟨s', ok, g1, g2, g3⟩ := sim_flush s t e2 t' hf
  have e3 : s.mem.length = small.length := e3
  exact ⟨s, s', ok, e1, g1, by rw [g2, e3]; rfl, fun ho => (g3 ho).2⟩

/-- **C24.** A buffer of one byte per seven bits, plus two, always suffices. -/
theorem C24_enough_room (mem : List UInt8) (bits : List Bool) (hroom : bits.length + 14 ≤ 7 * mem.length) :
    ∃ s s', putBits (initEnc mem) bits = some s ∧ flush s = some (s', true) ∧
      7 * numbytes s' ≤ bits.length + 14 := by
  have hlen7 : ∀ (l : List UInt8) (p : Nat), 7 * l.length ≤ (unstuff p l).length := by
    intro l
    induction l with
    | nil => intro p; simp [unstuff]
    | cons b l ih =>
      intro p
      have := ih b.toNat
      have := width_le p
      rw [unstuff_length_cons, List.length_cons]; omega
  have key : ∀ (new : List Bool) (s : Bio) (bits : List Bool), EncSafe s → EncInv s bits →
      bits.length + new.length + 14 ≤ 7 * s.mem.length → 7 * s.bp ≤ bits.length →
      ∃ s', putBits s new = some s' ∧ EncSafe s' ∧ EncInv s' (bits ++ new) ∧ s'.mem.length = s.mem.length ∧
        7 * s'.bp ≤ (bits ++ new).length := by
    intro new
    induction new with
    | nil => intro s bits hs hi _ h7; exact ⟨s, rfl, hs, by simpa using hi, rfl, by simpa using h7⟩
    | cons b new ih =>
      intro s bits hs hi hr h7
      simp only [List.length_cons] at hr
      obtain ⟨t, h1, h2, h3, h4, _, h5⟩ := putbit_spec s bits b.toNat (by cases b <;> decide) hs (fun _ => hi)
      have hbp1 : t.bp ≤ s.bp + 1 := by
        unfold putbit at h1
        by_cases h0 : s.ct = 0
        · obtain ⟨u, ok, hu, hus, huc, hlen, _, _, hle', _⟩ := byteout_safe s hs
          simp only [h0, if_true, hu] at h1
          rw [if_neg (by omega)] at h1
          simp only [Option.some.injEq] at h1
          rw [← h1]; exact hle'
        · simp only [h0, if_false] at h1
          simp only [Option.some.injEq] at h1
          rw [← h1]; simp
      have hinv := (h5 (by omega)).1
      have e : (b.toNat == 1) = b := by cases b <;> rfl
      rw [e] at hinv
      have h7' : 7 * t.bp ≤ (bits ++ [b]).length := by
        have := hinv.bits
        have hl := hlen7 (t.mem.take t.bp) 0
        rw [this, List.length_append]
        rw [List.length_take, Nat.min_eq_left h2.bp] at hl
        omega
      obtain ⟨u, g1, g2, g3, g4, g5⟩ := ih t (bits ++ [b]) h2 hinv (by simp; omega) h7'
      exact ⟨u, by simp [putBits, h1, g1], g2, by simpa using g3, by omega, by simpa using g5⟩
  obtain ⟨s, h1, h2, h3, h4, h5⟩ := key bits (initEnc mem) [] (encSafe_init mem) (encInv_init mem)
    (by simp [initEnc]; omega) (by simp [initEnc])
  have h4 : s.mem.length = mem.length := h4
  simp only [List.nil_append] at h3 h5
  obtain ⟨t, ok, ht, hts, htc, hlen, hbuf, hle, hle', hok, hok'⟩ := byteout_safe s h2
  have hok1 : ok = true := hok.2 (by omega)
  subst hok1
  refine ⟨s, ?_⟩
  unfold flush
  rw [ht]
  simp only
  split
  · obtain ⟨u, ok2, hu, hus, _, hulen, _, _, hule, huok, huok'⟩ := byteout_safe t hts
    have : ok2 = true := huok.2 (by omega)
    subst this
    exact ⟨u, h1, hu, by unfold numbytes; omega⟩
  · exact ⟨t, h1, rfl, by unfold numbytes; omega⟩

example : ([true, false, true] : List Bool).length + 14 ≤ 7 * ([0, 0, 0] : List UInt8).length := by decide

end Jp2.Bio

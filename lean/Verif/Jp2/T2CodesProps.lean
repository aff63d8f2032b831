import Verif.Jp2.T2Codes
import Verif.Jp2.BioProps
import Mathlib.Order.Nat
import Mathlib.Data.Nat.Find
/-!
# Property theorems about the packet-header codes (C38, C40)
-/
namespace Jp2.Bio

/-- One element of a packet header. -/
inductive Item where
  | field (v n : Nat)
  | comma (n : Nat)
  | passes (n : Nat)

/-- What may legally be written: fields of 1 to 32 bits, 1 to 164 coding passes. -/
def Item.Ok : Item → Prop
  | .field v n => 1 ≤ n ∧ n ≤ 32 ∧ v < 2 ^ n
  | .comma n => n < 2 ^ 32
  | .passes n => 1 ≤ n ∧ n ≤ 164

def Item.put (s : Bio) : Item → Option Bio
  | .field v n => write s v n
  | .comma n => putcommacode s n
  | .passes n => putnumpasses s n

/-- Reading an element of the same kind. -/
def Item.get (s : Bio) : Item → Option (Nat × Bio)
  | .field _ n => read s n
  | .comma _ => getcommacode s
  | .passes _ => getnumpasses s

def Item.value : Item → Nat
  | .field v _ => v
  | .comma n => n
  | .passes n => n

def putItems (s : Bio) : List Item → Option Bio
  | [] => some s
  | x :: xs => (x.put s).bind fun s' => putItems s' xs

def getItems (s : Bio) : List Item → Option (List Nat × Bio)
  | [] => some ([], s)
  | x :: xs => (x.get s).bind fun (v, s') => (getItems s' xs).map fun (vs, t) => (v :: vs, t)

/-! ## Helpers -/

def passBits (n : Nat) : List Bool :=
  if n = 1 then [false] else if n = 2 then bitsOf 2 2
  else if n ≤ 5 then bitsOf 4 (0xC ||| (n + 2 ^ 32 - 3) % 2 ^ 32)
  else if n ≤ 36 then bitsOf 9 (0x1E0 ||| (n + 2 ^ 32 - 6) % 2 ^ 32)
  else bitsOf 16 (0xFF80 ||| (n + 2 ^ 32 - 37) % 2 ^ 32)

def Item.bits : Item → List Bool
  | .field v n => bitsOf n v
  | .comma n => List.replicate n true ++ [false]
  | .passes n => passBits n

theorem putOnes_eq (s : Bio) (n : Nat) : putOnes s n = putBits s (List.replicate n true) := by
  induction n generalizing s with
  | zero => rfl
  | succ n ih => simp only [putOnes, List.replicate_succ, putBits, Bool.toNat_true, ih]

theorem putbit_eq (s : Bio) (b : Bool) : putbit s b.toNat = putBits s [b] := by
  simp only [putBits]
  cases putbit s b.toNat <;> rfl

theorem Item.put_eq (s : Bio) (x : Item) (h : x.Ok) : x.put s = putBits s x.bits := by
  cases x with
  | field v n => exact write_eq s v n h.1 h.2.1
  | comma n =>
    simp only [Item.put, putcommacode, Item.bits, putBits_append, putOnes_eq]
    congr 1
    funext t
    exact putbit_eq t false
  | passes n =>
    obtain ⟨h1, h2⟩ := h
    simp only [Item.put, putnumpasses, Item.bits, passBits]
    by_cases e1 : n = 1
    · rw [if_pos e1, if_pos e1]; exact putbit_eq s false
    · rw [if_neg e1, if_neg e1]
      by_cases e2 : n = 2
      · rw [if_pos e2, if_pos e2, write_eq _ _ _ (by omega) (by omega)]
      · rw [if_neg e2, if_neg e2]
        by_cases e3 : n ≤ 5
        · rw [if_pos e3, if_pos e3, write_eq _ _ _ (by omega) (by omega)]
        · rw [if_neg e3, if_neg e3]
          by_cases e4 : n ≤ 36
          · rw [if_pos e4, if_pos e4, write_eq _ _ _ (by omega) (by omega)]
          · rw [if_neg e4, if_neg e4, if_pos h2, write_eq _ _ _ (by omega) (by omega)]

theorem putItems_eq (s : Bio) (xs : List Item) (h : ∀ x ∈ xs, x.Ok) :
    putItems s xs = putBits s (xs.flatMap Item.bits) := by
  induction xs generalizing s with
  | nil => rfl
  | cons x xs ih =>
    simp only [putItems, List.flatMap_cons, putBits_append]
    rw [Item.put_eq s x (h x (by simp))]
    congr 1
    funext t
    exact ih t (fun y hy => h y (by simp [hy]))

/-- The decoder will next see `bits`. -/
def Starts (s : Bio) (bits : List Bool) : Prop := ∀ i (hi : i < bits.length), stream s i = bits[i]

/-- The decoder `t` is `s` after consuming `n` bits. -/
structure Shift (s t : Bio) (n : Nat) : Prop where
  str : ∀ i, stream t i = stream s (i + n)
  bits : ∃ bs, getBits s n = some (bs, t)

theorem Shift.trans {s t u : Bio} {a b : Nat} (h : Shift s t a) (h' : Shift t u b) : Shift s u (a + b) := by
  refine ⟨fun i => by rw [h'.str, h.str]; congr 1; omega, ?_⟩
  obtain ⟨x, hx⟩ := h.bits
  obtain ⟨y, hy⟩ := h'.bits
  exact ⟨x ++ y, by rw [getBits_add, hx, Option.bind_some]; simp only [hy, Option.map_some]⟩

theorem Starts.left {s : Bio} {a b : List Bool} (h : Starts s (a ++ b)) : Starts s a := by
  intro i hi
  rw [h i (by rw [List.length_append]; omega), List.getElem_append_left]

theorem Starts.right {s t : Bio} {a b : List Bool} (h : Starts s (a ++ b))
    (ht : Shift s t a.length) : Starts t b := by
  intro i hi
  rw [ht.str, h (i + a.length) (by rw [List.length_append]; omega), List.getElem_append_right (by omega)]
  simp

theorem read_starts (s : Bio) (hs : DecSafe s) (n : Nat) (a : List Bool) (ha : a.length = n) (h1 : 0 < n)
    (h2 : n ≤ 32) (h : Starts s a) :
    ∃ t, read s n = some (valOf a, t) ∧ DecSafe t ∧ t.mem = s.mem ∧ Shift s t n := by
  obtain ⟨t, g1, g2, g3, g4, g5⟩ := read_spec s hs n h1 h2
  refine ⟨t, ?_, g2, g3, g4, _, g5⟩
  rw [g1]
  congr 2
  have := range_map_stream (stream s) a 0 (fun i hi => by rw [Nat.zero_add]; exact h i hi)
  simp only [Nat.zero_add] at this
  rw [← ha]
  exact congrArg valOf this

theorem unstuff_len_le (l : List UInt8) (p : Nat) : (unstuff p l).length ≤ 8 * l.length := by
  induction l generalizing p with
  | nil => simp [unstuff]
  | cons b l ih =>
    have := ih b.toNat
    have := width_le p
    rw [unstuff_length_cons, List.length_cons]; omega

theorem rem_len (s : Bio) : (rem s).length ≤ s.ct + 8 * (s.mem.length - s.bp) := by
  unfold rem
  have := unstuff_len_le (s.mem.drop s.bp) (s.buf % 256)
  rw [List.length_drop] at this
  rw [List.length_append, bitsOf_length]; omega

theorem stream_beyond (s : Bio) (i : Nat) (h : s.ct + 8 * (s.mem.length - s.bp) ≤ i) : stream s i = false := by
  unfold stream
  have := rem_len s
  rw [List.getD_eq_getElem?_getD, List.getElem?_eq_none (by omega)]; rfl

/-- The loop stops at the first zero bit. -/
theorem getcommaLoop_spec (k : Nat) (s : Bio) (hs : DecSafe s) (n fuel : Nat) (hf : k < fuel)
    (hn : n + k < 2 ^ 32) (h1 : ∀ i, i < k → stream s i = true) (h0 : stream s k = false) :
    ∃ t, getcommaLoop fuel s n = some (n + k, t) ∧ DecSafe t ∧ t.mem = s.mem ∧
      Shift s t (k + 1) := by
  induction k generalizing s n fuel with
  | zero =>
    obtain ⟨f, rfl⟩ : ∃ f, fuel = f + 1 := ⟨fuel - 1, by omega⟩
    obtain ⟨t, g1, g2, g3, g4⟩ := read_starts s hs 1 [false] rfl (by omega) (by omega)
      (by intro i hi; have hi : i = 0 := by simpa using hi
          subst hi; exact h0)
    refine ⟨t, ?_, g2, g3, g4⟩
    simp only [getcommaLoop, g1]
    rfl
  | succ k ih =>
    obtain ⟨f, rfl⟩ : ∃ f, fuel = f + 1 := ⟨fuel - 1, by omega⟩
    obtain ⟨t, g1, g2, g3, g4⟩ := read_starts s hs 1 [true] rfl (by omega) (by omega)
      (by intro i hi; have hi : i = 0 := by simpa using hi
          subst hi; exact h1 0 (by omega))
    obtain ⟨u, e1, e2, e3, e4⟩ := ih t g2 (n + 1) f (by omega) (by omega)
      (fun i hi => by rw [g4.str]; exact h1 _ (by omega)) (by rw [g4.str]; exact h0)
    refine ⟨u, ?_, e2, by rw [e3, g3], by rw [show k + 1 + 1 = 1 + (k + 1) by omega]; exact g4.trans e4⟩
    have hv : valOf [true] = 1 := rfl
    simp only [getcommaLoop, g1, hv]
    rw [if_pos (by decide), if_pos (by omega), e1]
    congr 2; omega

theorem passBits_split : ∀ n, 1 ≤ n → n ≤ 164 →
    (n = 1 ∧ passBits n = [false]) ∨ (n = 2 ∧ passBits n = [true] ++ [false]) ∨
    (3 ≤ n ∧ n ≤ 5 ∧ passBits n = [true] ++ ([true] ++ bitsOf 2 (n - 3))) ∨
    (6 ≤ n ∧ n ≤ 36 ∧ passBits n = [true] ++ ([true] ++ (bitsOf 2 3 ++ bitsOf 5 (n - 6)))) ∨
    (37 ≤ n ∧ passBits n = [true] ++ ([true] ++ (bitsOf 2 3 ++ (bitsOf 5 31 ++ bitsOf 7 (n - 37))))) := by
  have : ∀ n : Fin 165, 1 ≤ n.val →
    (n.val = 1 ∧ passBits n = [false]) ∨ (n.val = 2 ∧ passBits n = [true] ++ [false]) ∨
    (3 ≤ n.val ∧ n.val ≤ 5 ∧ passBits n = [true] ++ ([true] ++ bitsOf 2 (n - 3))) ∨
    (6 ≤ n.val ∧ n.val ≤ 36 ∧ passBits n = [true] ++ ([true] ++ (bitsOf 2 3 ++ bitsOf 5 (n - 6)))) ∨
    (37 ≤ n.val ∧ passBits n = [true] ++ ([true] ++ (bitsOf 2 3 ++ (bitsOf 5 31 ++ bitsOf 7 (n - 37))))) := by
    decide +kernel
  intro n h1 h2
  exact this ⟨n, by omega⟩ h1

theorem Item.get_spec (s : Bio) (hs : DecSafe s) (x : Item) (h : x.Ok) (hst : Starts s x.bits) :
    ∃ t, x.get s = some (x.value, t) ∧ DecSafe t ∧ t.mem = s.mem ∧ Shift s t x.bits.length := by
  cases x with
  | field v n =>
    obtain ⟨t, g1, g2, g3, g4⟩ := read_starts s hs n (bitsOf n v) (bitsOf_length _ _) h.1 h.2.1 hst
    refine ⟨t, ?_, g2, g3, by simpa [Item.bits, bitsOf_length] using g4⟩
    simp only [Item.get, g1, valOf_bitsOf, Nat.mod_eq_of_lt h.2.2, Item.value]
  | comma n =>
    have h0 : stream s n = false := by
      rw [hst n (by simp [Item.bits])]
      simp [Item.bits]
    have h1 : ∀ i, i < n → stream s i = true := by
      intro i hi
      rw [hst i (by simp [Item.bits]; omega)]
      simp only [Item.bits]
      rw [List.getElem_append_left (by simpa using hi)]
      simp
    have hf : n < s.ct + 8 * (s.mem.length - s.bp) + 1 := by
      rcases Nat.eq_zero_or_pos n with h | h
      · omega
      · have e := h1 (n - 1) (by omega)
        by_cases hc : n < s.ct + 8 * (s.mem.length - s.bp) + 1
        · exact hc
        · rw [stream_beyond s (n - 1) (by omega)] at e; cases e
    obtain ⟨t, g1, g2, g3, g4⟩ := getcommaLoop_spec n s hs 0 _ hf (by have h : n < 2 ^ 32 := h; omega) h1 h0
    refine ⟨t, ?_, g2, g3, by simpa [Item.bits] using g4⟩
    simp only [Item.get, getcommacode, g1, Nat.zero_add, Item.value]
  | passes n =>
    simp only [Item.bits] at hst ⊢
    have v0 : valOf [false] = 0 := rfl
    have v1 : valOf [true] = 1 := rfl
    simp only [Item.get, getnumpasses, Item.value]
    rcases passBits_split n h.1 h.2 with ⟨rfl, e⟩ | ⟨rfl, e⟩ | ⟨l, u, e⟩ | ⟨l, u, e⟩ | ⟨l, e⟩ <;>
      rw [e] at hst ⊢
    · obtain ⟨t, g1, g2, g3, g4⟩ := read_starts s hs 1 _ rfl (by omega) (by omega) hst
      exact ⟨t, by simp [g1, v0], g2, g3, g4⟩
    · obtain ⟨t, g1, g2, g3, g4⟩ := read_starts s hs 1 _ rfl (by omega) (by omega) hst.left
      obtain ⟨t', g1', g2', g3', g4'⟩ := read_starts t g2 1 _ rfl (by omega) (by omega) (hst.right g4)
      exact ⟨t', by simp [g1, v0, v1, g1'], g2', by rw [g3', g3], g4.trans g4'⟩
    · obtain ⟨t, g1, g2, g3, g4⟩ := read_starts s hs 1 _ rfl (by omega) (by omega) hst.left
      have hst := hst.right g4
      obtain ⟨t', g1', g2', g3', g4'⟩ := read_starts t g2 1 _ rfl (by omega) (by omega) hst.left
      have hst := hst.right g4'
      obtain ⟨a, a1, a2, a3, a4⟩ := read_starts t' g2' 2 _ (bitsOf_length _ _) (by omega) (by omega) hst
      refine ⟨a, ?_, a2, by rw [a3, g3', g3], g4.trans (g4'.trans a4)⟩
      rw [valOf_bitsOf, Nat.mod_eq_of_lt (by omega)] at a1
      simp only [g1, v1, Option.bind_some, g1', a1]
      rw [if_neg (by omega), if_neg (by omega), if_pos (by omega)]
      congr 2; omega
    · obtain ⟨t, g1, g2, g3, g4⟩ := read_starts s hs 1 _ rfl (by omega) (by omega) hst.left
      have hst := hst.right g4
      obtain ⟨t', g1', g2', g3', g4'⟩ := read_starts t g2 1 _ rfl (by omega) (by omega) hst.left
      have hst := hst.right g4'
      obtain ⟨a, a1, a2, a3, a4⟩ := read_starts t' g2' 2 _ (bitsOf_length _ _) (by omega) (by omega) hst.left
      have hst := hst.right (a := bitsOf 2 3) a4
      obtain ⟨b, b1, b2, b3, b4⟩ := read_starts a a2 5 _ (bitsOf_length _ _) (by omega) (by omega) hst
      refine ⟨b, ?_, b2, by rw [b3, a3, g3', g3], g4.trans (g4'.trans (a4.trans b4))⟩
      rw [valOf_bitsOf, Nat.mod_eq_of_lt (by omega)] at b1
      rw [valOf_bitsOf] at a1
      simp only [g1, v1, Option.bind_some, g1', a1, b1]
      rw [if_neg (by omega), if_neg (by omega), if_neg (by omega), if_pos (by omega)]
      congr 2; omega
    · obtain ⟨t, g1, g2, g3, g4⟩ := read_starts s hs 1 _ rfl (by omega) (by omega) hst.left
      have hst := hst.right g4
      obtain ⟨t', g1', g2', g3', g4'⟩ := read_starts t g2 1 _ rfl (by omega) (by omega) hst.left
      have hst := hst.right g4'
      obtain ⟨a, a1, a2, a3, a4⟩ := read_starts t' g2' 2 _ (bitsOf_length _ _) (by omega) (by omega) hst.left
      have hst := hst.right (a := bitsOf 2 3) a4
      obtain ⟨b, b1, b2, b3, b4⟩ := read_starts a a2 5 _ (bitsOf_length _ _) (by omega) (by omega) hst.left
      have hst := hst.right (a := bitsOf 5 31) b4
      obtain ⟨c, c1, c2, c3, c4⟩ := read_starts b b2 7 _ (bitsOf_length _ _) (by omega) (by omega) hst
      refine ⟨c, ?_, c2, by rw [c3, b3, a3, g3', g3], g4.trans (g4'.trans (a4.trans (b4.trans c4)))⟩
      have := h.2
      rw [valOf_bitsOf, Nat.mod_eq_of_lt (by omega)] at c1
      rw [valOf_bitsOf] at a1 b1
      simp only [g1, v1, Option.bind_some, g1', a1, b1, c1]
      rw [if_neg (by omega), if_neg (by omega), if_neg (by omega), if_neg (by omega)]
      congr 2; omega

theorem getItems_spec (s : Bio) (hs : DecSafe s) (xs : List Item) (h : ∀ x ∈ xs, x.Ok)
    (hst : Starts s (xs.flatMap Item.bits)) :
    ∃ t, getItems s xs = some (xs.map Item.value, t) := by
  induction xs generalizing s with
  | nil => exact ⟨s, rfl⟩
  | cons x xs ih =>
    rw [List.flatMap_cons] at hst
    obtain ⟨t, g1, g2, g3, g4⟩ := Item.get_spec s hs x (h x (by simp)) hst.left
    obtain ⟨u, e⟩ := ih t g2 (fun y hy => h y (by simp [hy])) (hst.right g4)
    exact ⟨u, by simp [getItems, g1, e]⟩

/-- After a successful flush the bytes produced start with what was written. -/
theorem flush_starts (mem : List UInt8) (bits : List Bool) (s s' : Bio)
    (h : putBits (initEnc mem) bits = some s) (hf : flush s = some (s', true)) (tail : List UInt8) :
    Starts (initDec (s'.mem.take (numbytes s') ++ tail)) bits := by
  obtain ⟨s0, h1, h2, h3, h4, h5⟩ := putBits_spec (initEnc mem) [] bits (encSafe_init mem)
    (fun _ => encInv_init mem)
  rw [h] at h1
  simp only [Option.some.injEq] at h1
  subst h1
  obtain ⟨s1, ok, g1, g2, g3, gs, g4⟩ := flush_spec s bits h2 (fun hl => by
    have := (h5 hl).1; simpa using this)
  rw [hf] at g1
  simp only [Option.some.injEq, Prod.mk.injEq] at g1
  obtain ⟨rfl, rfl⟩ := g1
  obtain ⟨hlt, hinv, _, _, _, hout⟩ := g4 rfl
  have hto : (UInt8.ofNat (s.buf % 256)).toNat = s.buf % 256 :=
    UInt8.toNat_ofNat_of_lt' (by show _ < 256; omega)
  have hlow : bitsOf (width (s.buf / 256)) (s.buf % 256) =
      bitsOf (width (s.buf / 256) - s.ct) (s.buf % 256 / 2 ^ s.ct) ++ bitsOf s.ct (s.buf % 256) := by
    have := hinv.ct
    rw [← bitsOf_append]; congr 1; omega
  obtain ⟨ext, hext⟩ : ∃ ext : List UInt8, ext = if s.buf % 256 = 255 then [0] else [] := ⟨_, rfl⟩
  rw [← hext] at hout
  have hpay : unstuff 0 (s'.mem.take s'.bp ++ tail) =
      bits ++ (bitsOf s.ct (s.buf % 256) ++ unstuff (s.buf % 256) (ext ++ tail)) := by
    rw [hout, List.append_assoc, List.append_assoc, unstuff_append, hinv.prev]
    simp only [List.cons_append, List.nil_append, unstuff, hto]
    rw [hlow]
    conv_rhs => rw [hinv.bits]
    simp only [List.append_assoc]
  intro i hi
  unfold stream
  rw [rem_init]
  unfold numbytes
  rw [hpay, List.getD_eq_getElem?_getD, List.getElem?_append_left hi, List.getElem?_eq_getElem hi]
  rfl

/-! ## Properties -/

/-- **C38.** Any sequence of fields, comma codes and pass counts (1 to 164) written to a packet header
reads back as the same sequence, whatever follows in the stream. -/
theorem C38_packet_codes_round_trip (mem : List UInt8) (xs : List Item) (hx : ∀ x ∈ xs, x.Ok) (s s' : Bio)
    (h : putItems (initEnc mem) xs = some s) (hf : flush s = some (s', true)) (tail : List UInt8) :
    ∃ t, getItems (initDec (s'.mem.take (numbytes s') ++ tail)) xs = some (xs.map Item.value, t) := by
  rw [putItems_eq _ _ hx] at h
  exact getItems_spec _ (decSafe_init _) xs hx (flush_starts mem _ s s' h hf tail)

example : ((putItems (initEnc (List.replicate 8 7))
      [.passes 164, .comma 9, .passes 5, .field 5 3, .passes 36]).bind flush).map (fun r => (r.2, numbytes r.1)) =
    some (true, 6) := by decide +kernel
example : ∀ x ∈ [Item.passes 164, .comma 9, .passes 5, .field 5 3, .passes 36], x.Ok := by
  simp [Item.Ok]

/-- **C38.** The converse bound: a count above 164 writes nothing at all, so it cannot be read back. -/
theorem C38_above_164_lost (s : Bio) (n : Nat) (h : 164 < n) : putnumpasses s n = some s := by
  unfold putnumpasses
  rw [if_neg (by omega), if_neg (by omega), if_neg (by omega), if_neg (by omega), if_neg (by omega)]

theorem decSafe_run (ops : List DecOp) (hops : ∀ op ∈ ops, op.Ok) (s s' : Bio) (hs : DecSafe s)
    (h : ops.foldlM DecOp.run s = some s') : DecSafe s' ∧ s'.mem = s.mem := by
  induction ops generalizing s with
  | nil => simp at h; subst h; exact ⟨hs, rfl⟩
  | cons op ops ih =>
    simp only [List.foldlM_cons] at h
    have : ∃ t, op.run s = some t ∧ DecSafe t ∧ t.mem = s.mem := by
      have hok := hops op (by simp)
      cases op with
      | getbit =>
        obtain ⟨t, h1, h2, h3, _⟩ := getbit_spec s hs
        exact ⟨t, by simp [DecOp.run, h1], h2, h3⟩
      | read n =>
        obtain ⟨t, h1, h2, h3, _⟩ := read_spec s hs n hok.1 hok.2
        exact ⟨t, by simp [DecOp.run, h1], h2, h3⟩
      | inalign =>
        simp only [DecOp.run, inalign]
        split
        · obtain ⟨t, ok, h1, h2, h3⟩ := bytein_safe s hs
          rw [h1]
          cases ok with
          | false => exact ⟨t, rfl, h2, h3⟩
          | true => exact ⟨_, rfl, ⟨h2.buf, by simp, h2.bp⟩, h3⟩
        · exact ⟨_, rfl, ⟨hs.buf, by simp, hs.bp⟩, rfl⟩
    obtain ⟨t, e1, e2, e3⟩ := this
    rw [e1] at h
    obtain ⟨f1, f2⟩ := ih (fun o ho => hops o (by simp [ho])) t e2 h
    exact ⟨f1, by rw [f2, e3]⟩

theorem getcomma_total (s : Bio) (hs : DecSafe s) (hlen : 8 * s.mem.length + 8 < 2 ^ 32) :
    ∃ n t, getcommacode s = some (n, t) ∧ n ≤ s.ct + 8 * (s.mem.length - s.bp) ∧ DecSafe t ∧ t.mem = s.mem := by
  have hbound := hs.ct
  -- the first zero bit
  have : ∃ k, k ≤ s.ct + 8 * (s.mem.length - s.bp) ∧ stream s k = false ∧ ∀ i, i < k → stream s i = true := by
    have hex : ∃ k, stream s k = false := ⟨_, stream_beyond s _ (Nat.le_refl _)⟩
    refine ⟨Nat.find hex, Nat.find_le (stream_beyond s _ (Nat.le_refl _)), Nat.find_spec hex, fun i hi => ?_⟩
    have := Nat.find_min hex hi
    cases h : stream s i
    · exact absurd h this
    · rfl
  obtain ⟨k, hk, h0, h1⟩ := this
  obtain ⟨t, g1, g2, g3, _⟩ := getcommaLoop_spec k s hs 0 (s.ct + 8 * (s.mem.length - s.bp) + 1) (by omega) (by omega) h1 h0
  exact ⟨k, t, by simp only [getcommacode, g1, Nat.zero_add], hk, g2, g3⟩

/-- **C40.** On any packet-header bytes, after any sequence of reads, reading a comma code ends (it
cannot loop on truncated or all-ones data) and its value is at most the number of bits left. -/
theorem C40_commacode_terminates (mem : List UInt8) (hlen : 8 * mem.length + 8 < 2 ^ 32) (ops : List DecOp)
    (hops : ∀ op ∈ ops, op.Ok) (s : Bio) (h : ops.foldlM DecOp.run (initDec mem) = some s) :
    ∃ n t, getcommacode s = some (n, t) ∧ n ≤ 8 * mem.length + 8 := by
  obtain ⟨hs, hm⟩ := decSafe_run ops hops _ s (decSafe_init mem) h
  have hm : s.mem = mem := hm
  obtain ⟨n, t, h1, h2, _⟩ := getcomma_total s hs (by rw [hm]; exact hlen)
  refine ⟨n, t, h1, ?_⟩
  rw [hm] at h2
  have := hs.ct
  omega

theorem numpasses_total (s : Bio) (hs : DecSafe s) :
    ∃ n t, getnumpasses s = some (n, t) ∧ (1 ≤ n ∧ n ≤ 164) ∧ DecSafe t ∧ t.mem = s.mem := by
  have val : ∀ (n : Nat) (f : Nat → Bool), valOf ((List.range n).map f) < 2 ^ n := by
    intro n f
    have := valOf_lt ((List.range n).map f)
    simpa using this
  unfold getnumpasses
  obtain ⟨a, a1, a2, a3, _⟩ := read_spec s hs 1 (by omega) (by omega)
  simp only [a1, Option.bind_some]
  split
  · exact ⟨_, _, rfl, by omega, a2, a3⟩
  obtain ⟨b, b1, b2, b3, _⟩ := read_spec a a2 1 (by omega) (by omega)
  simp only [b1, Option.bind_some]
  split
  · exact ⟨_, _, rfl, by omega, b2, by rw [b3, a3]⟩
  obtain ⟨c, c1, c2, c3, _⟩ := read_spec b b2 2 (by omega) (by omega)
  have vc := val 2 (stream b)
  simp only [c1, Option.bind_some]
  split
  · exact ⟨_, _, rfl, by omega, c2, by rw [c3, b3, a3]⟩
  obtain ⟨d, d1, d2, d3, _⟩ := read_spec c c2 5 (by omega) (by omega)
  have vd := val 5 (stream c)
  simp only [d1, Option.bind_some]
  split
  · exact ⟨_, _, rfl, by omega, d2, by rw [d3, c3, b3, a3]⟩
  obtain ⟨e, e1, e2, e3, _⟩ := read_spec d d2 7 (by omega) (by omega)
  have ve := val 7 (stream d)
  simp only [e1, Option.bind_some]
  exact ⟨_, _, rfl, by omega, e2, by rw [e3, d3, c3, b3, a3]⟩

/-- **C40.** A pass count read from any bytes is between 1 and 164. -/
theorem C40_numpasses_range (mem : List UInt8) (ops : List DecOp)
    (hops : ∀ op ∈ ops, op.Ok) (s : Bio) (h : ops.foldlM DecOp.run (initDec mem) = some s) :
    ∃ n t, getnumpasses s = some (n, t) ∧ 1 ≤ n ∧ n ≤ 164 := by
  obtain ⟨hs, _⟩ := decSafe_run ops hops _ s (decSafe_init mem) h
  obtain ⟨n, t, h1, ⟨h2, h3⟩, _⟩ := numpasses_total s hs
  exact ⟨n, t, h1, h2, h3⟩

example : (getcommacode (initDec [0xFF, 0x7F, 0xFF])).map (·.1) = some 23 := by decide +kernel

end Jp2.Bio

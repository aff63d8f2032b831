import Verif.Jp2.MqcSafe
import Mathlib.Tactic.IntervalCases
/-!
# Raw (bypass) coding: the bits of a segment, the encoder, the decoder
-/
namespace Jp2.Mqc
open Jp2.Bio (store)

/-- The low `n` bits of `c`, most significant first. -/
def low (c : Nat) : Nat → List Nat
  | 0 => []
  | n + 1 => c / 2 ^ n % 2 :: low c n

theorem low_len (c n : Nat) : (low c n).length = n := by
  induction n with
  | zero => rfl
  | succ n ih => simp [low, ih]

theorem low_split (c a b : Nat) : low c (a + b) = low (c / 2 ^ b) a ++ low c b := by
  induction a with
  | zero => simp [low]
  | succ a ih =>
    rw [show a + 1 + b = (a + b) + 1 by omega]
    show c / 2 ^ (a + b) % 2 :: low c (a + b) = (c / 2 ^ b / 2 ^ a % 2 :: low (c / 2 ^ b) a) ++ low c b
    rw [ih, Nat.div_div_eq_div_mul, ← Nat.pow_add, Nat.add_comm b a]
    rfl

theorem low_snoc (y d n : Nat) (hd : d ≤ 1) : low (2 * y + d) (n + 1) = low y n ++ [d] := by
  rw [low_split]
  congr 1
  · congr 1; omega
  · show [(2 * y + d) / 2 ^ 0 % 2] = [d]
    rw [Nat.pow_zero, Nat.div_one]
    congr 1; omega

/-- The bits of a raw segment: after an `FF` byte only the low seven bits of a byte count. -/
def rawBits : Bool → List UInt8 → List Nat
  | _, [] => []
  | ff, x :: r => low x.toNat (if ff then 7 else 8) ++ rawBits (x == 255) r

/-- Does the segment end with `FF` (with nothing written, `ff`)? -/
def endsFF : Bool → List UInt8 → Bool
  | ff, [] => ff
  | _, x :: r => endsFF (x == 255) r

theorem endsFF_iff (e : List UInt8) : endsFF false e = true ↔ e.getLast? = some 255 := by
  have h : ∀ (e : List UInt8) (x : UInt8), endsFF (x == 255) e = true ↔ (x :: e).getLast? = some 255 := by
    intro e
    induction e with
    | nil => intro x; simp [endsFF]
    | cons y e ih => intro x; rw [List.getLast?_cons_cons]; exact ih y
  cases e with
  | nil => simp [endsFF]
  | cons x e => exact h e x

theorem endsFF_snoc (ff : Bool) (e : List UInt8) (x : UInt8) : endsFF ff (e ++ [x]) = (x == 255) := by
  induction e generalizing ff with
  | nil => rfl
  | cons y e ih => exact ih _

theorem rawBits_snoc (ff : Bool) (e : List UInt8) (x : UInt8) :
    rawBits ff (e ++ [x]) = rawBits ff e ++ low x.toNat (if endsFF ff e then 7 else 8) := by
  induction e generalizing ff with
  | nil => simp [rawBits]; rfl
  | cons y e ih =>
    show low y.toNat _ ++ rawBits (y == 255) (e ++ [x]) = (low y.toNat _ ++ rawBits (y == 255) e) ++ low x.toNat (if endsFF (y == 255) e then 7 else 8)
    rw [ih, List.append_assoc]

theorem rawBits_len (ff : Bool) (e : List UInt8) : 7 * e.length ≤ (rawBits ff e).length := by
  induction e generalizing ff with
  | nil => exact Nat.zero_le _
  | cons y e ih =>
    have := ih (y == 255)
    rw [rawBits, List.length_append, low_len, List.length_cons]
    split <;> omega

/-- The byte after an `FF` has its top bit clear. -/
def Stuffed (e : List UInt8) : Prop := ∀ (i : Nat) (x : UInt8), e[i]? = some 255 → e[i + 1]? = some x → x.toNat < 128

theorem stuffed_nm {e : List UInt8} (h : Stuffed e) : NoMarker e := fun i x h1 h2 => by
  have := h i x h1 h2; omega

theorem stuffed_snoc {e : List UInt8} {b : UInt8} (h : Stuffed e) (hb : endsFF false e = true → b.toNat < 128) : Stuffed (e ++ [b]) := by
  intro i x h1 h2
  rcases Nat.lt_trichotomy (i + 1) e.length with h3 | h3 | h3
  · rw [List.getElem?_append_left (by omega)] at h1
    rw [List.getElem?_append_left h3] at h2
    exact h i x h1 h2
  · rw [List.getElem?_append_left (by omega)] at h1
    rw [List.getElem?_append_right (by omega), show i + 1 - e.length = 0 by omega] at h2
    simp only [List.getElem?_cons_zero, Option.some.injEq] at h2
    subst h2
    apply hb
    rw [endsFF_iff, List.getLast?_eq_getElem?, ← h1]
    congr 1; omega
  · rw [List.getElem?_eq_none (by simp; omega)] at h2
    simp at h2

theorem stuffed_init {e : List UInt8} {b : UInt8} (h : Stuffed (e ++ [b])) : Stuffed e := by
  intro i x h1 h2
  have h3 : i + 1 < e.length := by
    by_contra hc
    rw [List.getElem?_eq_none (by omega)] at h2
    exact absurd h2 (by simp)
  exact h i x (by rw [List.getElem?_append_left (by omega), h1]) (by rw [List.getElem?_append_left h3, h2])

theorem stuffed_last {e : List UInt8} {b : UInt8} (h : Stuffed (e ++ [b])) (he : endsFF false e = true) : b.toNat < 128 := by
  rw [endsFF_iff, List.getLast?_eq_getElem?] at he
  have h0 : 0 < e.length := by
    by_contra hc
    rw [List.getElem?_eq_none (by omega)] at he
    simp at he
  refine h (e.length - 1) b ?_ ?_
  · rw [List.getElem?_append_left (by omega), he]
  · rw [List.getElem?_append_right (by omega), show e.length - 1 + 1 - e.length = 0 by omega]; rfl

/-! ## The encoder -/

/-- What the memory holds: `e` from `base` on, and everything before as it was. -/
structure RMem (s : Mqc) (mem0 : List UInt8) (base : Nat) (e : List UInt8) : Prop where
  bp : s.bp = base + e.length
  pos : 0 < base
  len : s.mem.length = mem0.length
  low : ∀ i, i < base → s.mem[i]? = mem0[i]?
  prev : ∃ b, mem0[base - 1]? = some b ∧ b ≠ 255
  bytes : ∀ i, i < e.length → s.mem[base + i]? = e[i]?
  st : Stuffed e

def wd (e : List UInt8) : Nat := if endsFF false e then 7 else 8

theorem wd_cases (e : List UInt8) : (wd e = 7 ∧ endsFF false e = true) ∨ (wd e = 8 ∧ endsFF false e = false) := by
  unfold wd
  cases endsFF false e <;> simp

/-- The encoder after `w` has been written. -/
structure RE (s : Mqc) (mem0 : List UInt8) (base : Nat) (e : List UInt8) (w : List Nat) : Prop where
  m : RMem s mem0 base e
  ct1 : 1 ≤ s.ct
  ct2 : s.ct ≤ wd e
  c1 : s.c % 2 ^ s.ct = 0
  c2 : s.c < 2 ^ wd e
  bits : w = rawBits false e ++ Mqc.low (s.c / 2 ^ s.ct) (wd e - s.ct)
  ne : s.ct = 8 → e ≠ []

/-- Either the state just after `bypass_init_enc`, with nothing written, or after some bits. -/
def RE0 (s : Mqc) (mem0 : List UInt8) (base : Nat) (e : List UInt8) (w : List Nat) : Prop :=
  RE s mem0 base e w ∨ (RMem s mem0 base e ∧ e = [] ∧ w = [] ∧ s.c = 0 ∧ s.ct = bypassCtInit)

theorem rmem_get {s : Mqc} {mem0 : List UInt8} {base : Nat} {e : List UInt8} (h : RMem s mem0 base e) :
    ∃ p, s.mem[s.bp - 1]? = some p ∧ (p = 255 ↔ endsFF false e = true) := by
  rcases List.eq_nil_or_concat e with h0 | ⟨f, x, h0⟩
  · obtain ⟨b, hb, hne⟩ := h.prev
    have hbp := h.bp
    have := h.pos
    rw [h0] at hbp
    refine ⟨b, ?_, ?_⟩
    · rw [hbp, List.length_nil, Nat.add_zero, h.low _ (by omega), hb]
    · rw [h0]; simp [endsFF, hne]
  · rw [List.concat_eq_append] at h0
    have hbp := h.bp
    have hb := h.bytes f.length (by rw [h0]; simp)
    rw [h0] at hbp hb
    refine ⟨x, ?_, ?_⟩
    · rw [hbp, List.length_append, List.length_singleton, show base + (f.length + 1) - 1 = base + f.length by omega, hb]
      simp
    · rw [h0, endsFF_snoc]; simp

theorem rmem_set {s s' : Mqc} {mem0 : List UInt8} {base : Nat} {e : List UInt8} {b : UInt8} (h : RMem s mem0 base e)
    (hlt : s.bp < s.mem.length) (hm : s'.mem = s.mem.set s.bp b) (hbp : s'.bp = s.bp + 1) (hb : endsFF false e = true → b.toNat < 128) :
    RMem s' mem0 base (e ++ [b]) := by
  have hb0 := h.bp
  refine ⟨by rw [hbp, hb0, List.length_append, List.length_singleton]; omega, h.pos, by rw [hm, List.length_set, h.len], ?_, h.prev, ?_,
    stuffed_snoc h.st hb⟩
  · intro i hi
    rw [hm, List.getElem?_set_ne (by omega), h.low i hi]
  · intro i hi
    rw [List.length_append, List.length_singleton] at hi
    rw [hm]
    rcases Nat.lt_or_ge i e.length with h1 | h1
    · rw [List.getElem?_set_ne (by omega), List.getElem?_append_left h1, h.bytes i h1]
    · have : i = e.length := by omega
      subst this
      rw [← hb0, List.getElem?_set_self hlt, List.getElem?_append_right (Nat.le_refl _)]
      simp

theorem ofNat_toNat {c : Nat} (h : c < 256) : (UInt8.ofNat c).toNat = c := by
  rw [UInt8.toNat_ofNat']; omega

theorem mod_add_div {c d k : Nat} (hc : c % 2 ^ (k + 1) = 0) :
    (c + d * 2 ^ k) % 2 ^ k = 0 ∧ (c + d * 2 ^ k) / 2 ^ k = 2 * (c / 2 ^ (k + 1)) + d := by
  obtain ⟨q, hq⟩ := Nat.dvd_of_mod_eq_zero hc
  have e1 : c + d * 2 ^ k = (2 * q + d) * 2 ^ k := by rw [hq]; ring
  have hp : 0 < 2 ^ k := Nat.pow_pos (by omega)
  have hp' : 0 < 2 ^ (k + 1) := Nat.pow_pos (by omega)
  rw [e1]
  refine ⟨Nat.mul_mod_left _ _, ?_⟩
  rw [Nat.mul_div_cancel _ hp, hq, Nat.mul_div_cancel_left _ hp']

theorem pow_le_256 {e : List UInt8} : 2 ^ wd e ≤ 256 := by
  rcases wd_cases e with ⟨h, _⟩ | ⟨h, _⟩ <;> rw [h] <;> norm_num

theorem bypassEnc_spec {s : Mqc} {mem0 : List UInt8} {base : Nat} {e : List UInt8} {w : List Nat} {d : Nat} (h : RE0 s mem0 base e w) (hd : d ≤ 1) :
    (∀ s', bypassEnc s d = some s' → ∃ e', RE s' mem0 base e' (w ++ [d]) ∧ s'.start = s.start ∧ s'.ctxs = s.ctxs) ∧
    (s.bp < s.mem.length → ∃ s', bypassEnc s d = some s') := by
  -- both cases reduce to a state whose count is in range
  have key : ∀ (t : Mqc), RMem t mem0 base e → 1 ≤ t.ct → t.ct ≤ wd e → t.c % 2 ^ t.ct = 0 → t.c < 2 ^ wd e →
      w = rawBits false e ++ Mqc.low (t.c / 2 ^ t.ct) (wd e - t.ct) →
      (∀ s', (let s := { t with ct := wsub t.ct 1 }
        let s := { s with c := wadd s.c (shl d s.ct) }
        if s.ct = 0 then
          (store s.mem s.bp (UInt8.ofNat s.c)).map fun mem =>
            { s with mem := mem, ct := if UInt8.ofNat s.c = 0xFF then 7 else 8, bp := s.bp + 1, c := 0 }
        else some s) = some s' → ∃ e', RE s' mem0 base e' (w ++ [d]) ∧ s'.start = t.start ∧ s'.ctxs = t.ctxs) ∧
      (t.bp < t.mem.length → ∃ s', (let s := { t with ct := wsub t.ct 1 }
        let s := { s with c := wadd s.c (shl d s.ct) }
        if s.ct = 0 then
          (store s.mem s.bp (UInt8.ofNat s.c)).map fun mem =>
            { s with mem := mem, ct := if UInt8.ofNat s.c = 0xFF then 7 else 8, bp := s.bp + 1, c := 0 }
        else some s) = some s') := by
    intro t hm h1 h2 hc1 hc2 hw
    have hwd8 : wd e ≤ 8 := by rcases wd_cases e with ⟨h, _⟩ | ⟨h, _⟩ <;> omega
    have hp := pow_le_256 (e := e)
    have hws : wsub t.ct 1 = t.ct - 1 := wsub_eq h1 (by omega)
    obtain ⟨k, hk⟩ : ∃ k, k = t.ct - 1 := ⟨_, rfl⟩
    have hct : t.ct = k + 1 := by omega
    obtain ⟨q, hq⟩ := Nat.dvd_of_mod_eq_zero hc1
    have hk2 : 2 ^ k ≤ 128 := by
      calc 2 ^ k ≤ 2 ^ 7 := Nat.pow_le_pow_right (by omega) (by omega)
        _ = 128 := by norm_num
    have hd2 : d * 2 ^ k ≤ 128 := by
      rcases Nat.le_one_iff_eq_zero_or_eq_one.mp hd with hh | hh <;> rw [hh] <;> omega
    have hshl : shl d k = d * 2 ^ k := shl_eq (by omega)
    have hwa : wadd t.c (d * 2 ^ k) = t.c + d * 2 ^ k := wadd_eq (by omega)
    rw [hct] at hc1
    obtain ⟨m1, m2⟩ := mod_add_div (d := d) hc1
    -- stays below the next multiple
    have hlt : t.c + d * 2 ^ k < 2 ^ wd e := by
      have hdvd : 2 ^ (k + 1) ∣ 2 ^ wd e := Nat.pow_dvd_pow _ (by omega)
      obtain ⟨m, hm'⟩ := hdvd
      rw [hct] at hq
      rw [hq, hm'] at hc2
      have hqm : q < m := by
        by_contra hcon
        exact absurd hc2 (Nat.not_lt.mpr (Nat.mul_le_mul_left _ (by omega)))
      rw [hq, hm']
      have h3 : d * 2 ^ k < 2 ^ (k + 1) := by
        rw [Nat.pow_succ]
        rcases Nat.le_one_iff_eq_zero_or_eq_one.mp hd with hh | hh <;> rw [hh]
        · have := Nat.pow_pos (n := k) (show 0 < 2 by omega); omega
        · have := Nat.pow_pos (n := k) (show 0 < 2 by omega); omega
      have h4 : 2 ^ (k + 1) * (q + 1) ≤ 2 ^ (k + 1) * m := Nat.mul_le_mul_left _ (by omega)
      rw [Nat.mul_add, Nat.mul_one] at h4
      omega
    have hbits : w ++ [d] = rawBits false e ++ Mqc.low ((t.c + d * 2 ^ k) / 2 ^ k) (wd e - k) := by
      rw [hw, m2, show wd e - k = (wd e - t.ct) + 1 by omega, low_snoc _ _ _ hd, List.append_assoc, hct]
    simp only [hws, ← hk, hshl, hwa]
    by_cases h0 : k = 0
    · subst h0
      simp only [if_true, Nat.pow_zero, Nat.mul_one] at *
      unfold store
      have hnat := ofNat_toNat (c := t.c + d) (by omega)
      constructor
      · intro s' hs'
        rw [Option.map_eq_some_iff] at hs'
        obtain ⟨mem, hmem, hs'⟩ := hs'
        split at hmem
        · rename_i hlen
          injection hmem with hmem
          subst hs'
          have hff : (if UInt8.ofNat (t.c + d) = 0xFF then 7 else 8) = wd (e ++ [UInt8.ofNat (t.c + d)]) := by
            unfold wd
            rw [endsFF_snoc]
            by_cases hh : UInt8.ofNat (t.c + d) = 0xFF
            · rw [if_pos hh, hh]; rfl
            · rw [if_neg hh, if_neg (by simpa using hh)]
          refine ⟨e ++ [UInt8.ofNat (t.c + d)], ⟨?_, ?_, ?_, ?_, ?_, ?_, ?_⟩, rfl, rfl⟩
          · refine rmem_set hm hlen hmem.symm rfl ?_
            intro hh
            rw [hnat]
            have h7 : wd e = 7 := by unfold wd; rw [if_pos hh]
            rw [h7] at hlt
            omega
          · show 1 ≤ (if UInt8.ofNat (t.c + d) = 0xFF then 7 else 8); split <;> omega
          · show (if UInt8.ofNat (t.c + d) = 0xFF then 7 else 8) ≤ _; rw [hff]
          · show 0 % _ = 0; exact Nat.zero_mod _
          · show 0 < _; exact Nat.pow_pos (by omega)
          · show _ = _ ++ Mqc.low (0 / _) (_ - (if UInt8.ofNat (t.c + d) = 0xFF then 7 else 8))
            rw [hff, Nat.sub_self, rawBits_snoc, hnat, hbits, Nat.div_one, Nat.sub_zero]
            simp [Mqc.low, wd]
          · intro _; simp
        · simp at hmem
      · intro hlen
        rw [if_pos hlen]
        exact ⟨_, rfl⟩
    · rw [if_neg h0]
      constructor
      · intro s' hs'
        injection hs' with hs'
        subst hs'
        exact ⟨e, ⟨⟨hm.bp, hm.pos, hm.len, hm.low, hm.prev, hm.bytes, hm.st⟩, by show 1 ≤ k; omega, by show k ≤ _; omega, m1, hlt, hbits,
          fun hk8 => by replace hk8 : k = 8 := hk8; omega⟩, rfl, rfl⟩
      · intro _; exact ⟨_, rfl⟩
  unfold bypassEnc
  rcases h with h | ⟨hm, he, hw, hc, hct⟩
  · have hne : s.ct ≠ bypassCtInit := by
      have h8 := h.ct2
      have hwd8 : wd e ≤ 8 := by rcases wd_cases e with ⟨h, _⟩ | ⟨h, _⟩ <;> omega
      intro hh
      unfold bypassCtInit at hh
      omega
    simp only [if_neg hne]
    exact key s h.m h.ct1 h.ct2 h.c1 h.c2 h.bits
  · simp only [if_pos hct]
    have h8 : wd e = 8 := by rw [he]; rfl
    refine key { s with ct := 8 } ⟨hm.bp, hm.pos, hm.len, hm.low, hm.prev, hm.bytes, hm.st⟩ ?_ ?_ ?_ ?_ ?_
    · show 1 ≤ 8; omega
    · show 8 ≤ wd e; omega
    · show s.c % 2 ^ 8 = 0; rw [hc]; exact Nat.zero_mod _
    · show s.c < _; rw [hc]; exact Nat.pow_pos (by omega)
    · show w = _ ++ Mqc.low _ (wd e - 8)
      rw [h8, he, hw]; rfl

theorem bypassEncAll_spec {mem0 : List UInt8} {base : Nat} : ∀ (bs : List Nat) {s : Mqc} {e : List UInt8} {w : List Nat} {s' : Mqc}, RE0 s mem0 base e w →
    (∀ d ∈ bs, d ≤ 1) → bypassEncAll s bs = some s' → ∃ e', RE0 s' mem0 base e' (w ++ bs) ∧ s'.start = s.start ∧ s'.ctxs = s.ctxs := by
  intro bs
  induction bs with
  | nil =>
    intro s e w s' h _ hs'
    injection hs' with hs'
    subst hs'
    exact ⟨e, by rw [List.append_nil]; exact h, rfl, rfl⟩
  | cons d bs ih =>
    intro s e w s' h hb hs'
    unfold bypassEncAll at hs'
    rw [Option.bind_eq_some_iff] at hs'
    obtain ⟨t, ht, hs'⟩ := hs'
    obtain ⟨e1, g1, g2, g3⟩ := (bypassEnc_spec h (hb d List.mem_cons_self)).1 t ht
    obtain ⟨e', k1, k2, k3⟩ := ih (Or.inl g1) (fun x hx => hb x (List.mem_cons_of_mem _ hx)) hs'
    exact ⟨e', by rw [List.append_assoc] at k1; exact k1, k2.trans g2, k3.trans g3⟩

theorem re_len {s : Mqc} {mem0 : List UInt8} {base : Nat} {e : List UInt8} {w : List Nat} (h : RE0 s mem0 base e w) :
    7 * e.length ≤ w.length ∧ s.bp = base + e.length ∧ s.mem.length = mem0.length := by
  rcases h with h | ⟨h, h1, h2, _⟩
  · refine ⟨?_, h.m.bp, h.m.len⟩
    have := rawBits_len false e
    rw [h.bits, List.length_append]
    omega
  · refine ⟨?_, h.bp, h.len⟩
    rw [h1, h2]
    simp

theorem bypassEncAll_total {mem0 : List UInt8} {base : Nat} : ∀ (bs : List Nat) {s : Mqc} {e : List UInt8} {w : List Nat}, RE0 s mem0 base e w →
    (∀ d ∈ bs, d ≤ 1) → 7 * base + w.length + bs.length ≤ 7 * mem0.length → ∃ s', bypassEncAll s bs = some s' := by
  intro bs
  induction bs with
  | nil => intro s e w _ _ _; exact ⟨s, rfl⟩
  | cons d bs ih =>
    intro s e w h hb hroom
    rw [List.length_cons] at hroom
    obtain ⟨h1, h2, h3⟩ := re_len h
    obtain ⟨t, ht⟩ := (bypassEnc_spec h (hb d List.mem_cons_self)).2 (by omega)
    obtain ⟨e1, g1, _, _⟩ := (bypassEnc_spec h (hb d List.mem_cons_self)).1 t ht
    obtain ⟨s', hs'⟩ := ih (Or.inl g1) (fun x hx => hb x (List.mem_cons_of_mem _ hx)) (by rw [List.length_append, List.length_singleton]; omega)
    exact ⟨s', by unfold bypassEncAll; rw [ht, Option.bind_some, hs']⟩

/-! ## The flush -/

theorem fill_spec (ct : Nat) : ∀ (c bit : Nat), bit ≤ 1 → c + 2 ^ ct ≤ 2 ^ 32 → c % 2 ^ ct = 0 →
    ∃ f, bypassFill ct c bit = c + f ∧ f < 2 ^ ct ∧ (bit = 0 → 1 ≤ ct → f < 2 ^ (ct - 1)) := by
  induction ct with
  | zero => intro c bit _ _ _; exact ⟨0, rfl, by simp, fun _ h => absurd h (by omega)⟩
  | succ ct ih =>
    intro c bit hb hc hm
    have hp : 0 < 2 ^ ct := Nat.pow_pos (by omega)
    have hp2 : 2 ^ (ct + 1) = 2 * 2 ^ ct := by rw [Nat.pow_succ]; omega
    have hsl : bit <<< ct = bit * 2 ^ ct := Nat.shiftLeft_eq _ _
    have hble : bit * 2 ^ ct ≤ 2 ^ ct := by
      rcases Nat.le_one_iff_eq_zero_or_eq_one.mp hb with h | h <;> rw [h] <;> omega
    have hwa : wadd c (bit * 2 ^ ct) = c + bit * 2 ^ ct := wadd_eq (by omega)
    obtain ⟨f, h1, h2, _⟩ := ih (c + bit * 2 ^ ct) (1 - bit) (by omega) (by omega) (mod_add_div hm).1
    refine ⟨bit * 2 ^ ct + f, ?_, by omega, ?_⟩
    · unfold bypassFill
      rw [hsl, hwa, h1]; omega
    · intro h0 _
      rw [h0, Nat.add_sub_cancel]; omega

/-- The result of a flush: the bytes `e`, whose stream starts with `w` and goes on with arbitrary bits, or ends within `w` at ones. -/
structure RDone (s : Mqc) (mem0 : List UInt8) (base : Nat) (e : List UInt8) (w : List Nat) : Prop where
  m : RMem s mem0 base e
  last : endsFF false e = false
  pre : ∀ i, i < w.length → (rawBits false e).getD i 1 = w.getD i 1

theorem getD_prefix {l a b : List Nat} (h : l = a ++ b) (i : Nat) (hi : i < a.length) : l.getD i 1 = a.getD i 1 := by
  rw [h, List.getD_eq_getElem?_getD, List.getD_eq_getElem?_getD, List.getElem?_append_left hi]

theorem getD_ones {a : List Nat} (n i : Nat) : (a ++ List.replicate n 1).getD i 1 = a.getD i 1 := by
  rw [List.getD_eq_getElem?_getD, List.getD_eq_getElem?_getD]
  rcases Nat.lt_or_ge i a.length with h | h
  · rw [List.getElem?_append_left h]
  · rw [List.getElem?_append_right h, List.getElem?_eq_none h, List.getElem?_replicate]
    split <;> rfl

theorem flush_raw_spec {s s' : Mqc} {mem0 : List UInt8} {base : Nat} {e : List UInt8} {w : List Nat} {er : Bool} (h : RE0 s mem0 base e w)
    (hf : bypassFlushEnc s er = some s') : ∃ e', RDone s' mem0 base e' w ∧ s'.start = s.start ∧ s'.ctxs = s.ctxs := by
  have hm : RMem s mem0 base e := by rcases h with h | ⟨h, _⟩; exacts [h.m, h]
  obtain ⟨p, hp, hpff⟩ := rmem_get hm
  unfold bypassFlushEnc at hf
  split at hf
  · simp at hf
  rw [hp, Option.bind_some] at hf
  rw [Option.bind_eq_some_iff] at hf
  obtain ⟨t, ht, hf⟩ := hf
  have hts : t = s' ∧ ∃ b, t.mem[t.bp - 1]? = some b ∧ b ≠ 255 := by
    split at hf
    · simp at hf
    · rw [Option.bind_eq_some_iff] at hf
      obtain ⟨b, hb, hf⟩ := hf
      split at hf
      · simp at hf
      · rename_i hne
        injection hf with hf
        exact ⟨hf, b, hb, hne⟩
  obtain ⟨hts, b, hb, hbne⟩ := hts
  subst hts
  have fin : ∀ e', RMem t mem0 base e' → (∀ i, i < w.length → (rawBits false e').getD i 1 = w.getD i 1) → t.start = s.start → t.ctxs = s.ctxs →
      ∃ e', RDone t mem0 base e' w ∧ t.start = s.start ∧ t.ctxs = s.ctxs := by
    intro e' g1 g2 g3 g4
    obtain ⟨p', hp', hpff'⟩ := rmem_get g1
    rw [hb] at hp'
    injection hp' with hp'
    refine ⟨e', ⟨g1, ?_, g2⟩, g3, g4⟩
    cases hx : endsFF false e' with
    | false => rfl
    | true => exact absurd (hpff'.mpr hx) (by rw [← hp']; exact hbne)
  rcases h with h | ⟨_, he, hw, hc, hct⟩
  · have hct1 := h.ct1
    have hct2 := h.ct2
    have hbits := h.bits
    split at ht
    · -- a byte is filled up and written
      rename_i hcond
      rw [Option.map_eq_some_iff] at ht
      obtain ⟨mem, hmem, ht⟩ := ht
      unfold store at hmem
      split at hmem
      swap
      · simp at hmem
      rename_i hlt
      injection hmem with hmem
      have hp256 := pow_le_256 (e := e)
      have h8 : wd e ≤ 8 := by rcases wd_cases e with ⟨h, _⟩ | ⟨h, _⟩ <;> omega
      have hpc : 2 ^ s.ct ≤ 2 ^ wd e := Nat.pow_le_pow_right (by omega) hct2
      obtain ⟨f, f1, f2, _⟩ := fill_spec s.ct s.c 0 (by omega) (by have := h.c2; omega) h.c1
      have hlt2 : s.c + f < 2 ^ wd e := by
        obtain ⟨q, hq⟩ := Nat.dvd_of_mod_eq_zero h.c1
        obtain ⟨m, hm'⟩ := Nat.pow_dvd_pow 2 hct2
        have hc2 := h.c2
        rw [hq, hm'] at hc2
        have hqm : q < m := by
          by_contra hcon
          exact absurd hc2 (Nat.not_lt.mpr (Nat.mul_le_mul_left _ (by omega)))
        have h4 : 2 ^ s.ct * (q + 1) ≤ 2 ^ s.ct * m := Nat.mul_le_mul_left _ (by omega)
        rw [Nat.mul_add, Nat.mul_one] at h4
        rw [hq, hm']
        omega
      have hnat := ofNat_toNat (c := s.c + f) (by omega)
      subst ht
      rw [f1] at hmem
      refine fin (e ++ [UInt8.ofNat (s.c + f)]) ?_ ?_ rfl rfl
      · refine rmem_set hm hlt hmem.symm rfl ?_
        intro hh
        rw [hnat]
        have h7 : wd e = 7 := by unfold wd; rw [if_pos hh]
        rw [h7] at hlt2
        omega
      · intro i hi
        refine getD_prefix (b := Mqc.low (s.c + f) s.ct) ?_ i hi
        have hdiv : (s.c + f) / 2 ^ s.ct = s.c / 2 ^ s.ct := by
          obtain ⟨q, hq⟩ := Nat.dvd_of_mod_eq_zero h.c1
          have hpp : 0 < 2 ^ s.ct := Nat.pow_pos (by omega)
          rw [hq, Nat.mul_div_cancel_left _ hpp, Nat.mul_add_div hpp, Nat.div_eq_of_lt f2, Nat.add_zero]
        rw [rawBits_snoc, hnat, hbits, List.append_assoc]
        congr 1
        show Mqc.low (s.c + f) (wd e) = _
        conv_lhs => rw [show wd e = (wd e - s.ct) + s.ct by omega]
        rw [low_split, hdiv]
    · rename_i hcond
      split at ht
      · rename_i h7
        split at ht
        · simp at ht
        · injection ht with ht
          have hff := hpff.mp h7.2
          have hwd : wd e = 7 := by unfold wd; rw [if_pos hff]
          rcases List.eq_nil_or_concat e with h0 | ⟨f, x, h0⟩
          · rw [h0] at hff; simp [endsFF] at hff
          · rw [List.concat_eq_append] at h0
            subst h0
            rw [endsFF_snoc] at hff
            have hx : x = 255 := by simpa using hff
            subst hx
            have hfff : endsFF false f = false := by
              cases hx : endsFF false f with
              | false => rfl
              | true => exact absurd (stuffed_last hm.st hx) (by decide)
            subst ht
            have hbp := hm.bp
            rw [List.length_append, List.length_singleton] at hbp
            refine fin f ⟨by show s.bp - 1 = _; omega, hm.pos, hm.len, hm.low, hm.prev, ?_, stuffed_init hm.st⟩ ?_ rfl rfl
            · intro i hi
              have := hm.bytes i (by rw [List.length_append]; omega)
              rw [List.getElem?_append_left hi] at this
              exact this
            · intro i _
              have h1 : w = rawBits false f ++ List.replicate 8 1 := by
                rw [hbits, h7.1, hwd, rawBits_snoc, hfff]
                simp only [Nat.sub_self, Mqc.low, List.append_nil]
                rfl
              rw [h1, getD_ones]
      · rename_i h7
        split at ht
        · rename_i h8
          obtain ⟨h8, her, hp7f⟩ := h8
          split at ht
          · simp at ht
          rename_i hbp2
          rw [Option.map_eq_some_iff] at ht
          obtain ⟨p2, hp2, ht⟩ := ht
          have hwd : wd e = 8 := by rcases wd_cases e with ⟨h, _⟩ | ⟨h, _⟩ <;> omega
          have hw0 : w = rawBits false e := by rw [hbits, h8, hwd]; simp [Mqc.low]
          split at ht
          · rename_i hp2ff
            have hne := h.ne h8
            rcases List.eq_nil_or_concat e with h0 | ⟨f, x, h0⟩
            · exact absurd h0 hne
            rw [List.concat_eq_append] at h0
            subst h0
            have hbp := hm.bp
            rw [List.length_append, List.length_singleton] at hbp
            have hx : x = 0x7F := by
              have := hm.bytes f.length (by simp)
              rw [show base + f.length = s.bp - 1 by omega, hp] at this
              simp at this
              rw [← this]; exact hp7f
            subst hx
            rcases List.eq_nil_or_concat f with h0 | ⟨g, y, h0⟩
            · -- the byte before the segment is not FF
              subst h0
              obtain ⟨b', hb', hne'⟩ := hm.prev
              have hpos := hm.pos
              rw [show s.bp - 2 = base - 1 by simp at hbp; omega, hm.low _ (by omega), hb'] at hp2
              injection hp2 with hp2
              exact absurd (hp2.trans hp2ff) hne'
            rw [List.concat_eq_append] at h0
            subst h0
            rw [List.length_append, List.length_singleton] at hbp
            have hy : y = 255 := by
              have := hm.bytes g.length (by simp)
              rw [show base + g.length = s.bp - 2 by omega, hp2, List.getElem?_append_left (by simp), List.getElem?_append_right (Nat.le_refl _)] at this
              simp at this
              rw [← this]; exact hp2ff
            subst hy
            have hst1 := stuffed_init hm.st
            have hgff : endsFF false g = false := by
              cases hx : endsFF false g with
              | false => rfl
              | true => exact absurd (stuffed_last hst1 hx) (by decide)
            subst ht
            refine fin g ⟨by show s.bp - 2 = _; omega, hm.pos, hm.len, hm.low, hm.prev, ?_, stuffed_init hst1⟩ ?_ rfl rfl
            · intro i hi
              have := hm.bytes i (by simp; omega)
              rw [List.getElem?_append_left (by simp; omega), List.getElem?_append_left hi] at this
              exact this
            · intro i _
              have h1 : w = rawBits false g ++ List.replicate 15 1 := by
                rw [hw0, rawBits_snoc, rawBits_snoc, endsFF_snoc, hgff, List.append_assoc]
                rfl
              rw [h1, getD_ones]
          · subst ht
            exact fin e hm (fun i _ => by rw [hw0]) rfl rfl
        · rename_i h8
          injection ht with ht
          have hct8 : s.ct = 8 := by
            have h8' : wd e ≤ 8 := by rcases wd_cases e with ⟨h, _⟩ | ⟨h, _⟩ <;> omega
            by_contra hc
            have : s.ct = 7 ∨ s.ct < 7 := by omega
            rcases this with h1 | h1
            · by_cases hpf : p = 255
              · exact h7 ⟨h1, hpf⟩
              · exact hcond (Or.inr ⟨h1, Or.inr hpf⟩)
            · exact hcond (Or.inl h1)
          have hwd : wd e = 8 := by rcases wd_cases e with ⟨h, _⟩ | ⟨h, _⟩ <;> omega
          have hw0 : w = rawBits false e := by rw [hbits, hct8, hwd]; simp [Mqc.low]
          subst ht
          exact fin e hm (fun i _ => by rw [hw0]) rfl rfl
  · -- nothing was ever written
    have c1 : ¬ (s.ct < 7 ∨ (s.ct = 7 ∧ (er = true ∨ p ≠ 0xFF))) := by rw [hct]; unfold bypassCtInit; omega
    have c2 : ¬ (s.ct = 7 ∧ p = 0xFF) := by rw [hct]; unfold bypassCtInit; omega
    have c3 : ¬ (s.ct = 8 ∧ er = false ∧ p = 0x7F) := by rw [hct]; unfold bypassCtInit; omega
    rw [if_neg c1, if_neg c2, if_neg c3] at ht
    injection ht with ht
    subst ht
    exact fin e hm (fun i hi => by rw [hw] at hi; simp at hi) rfl rfl

theorem flush_raw_total {s : Mqc} {mem0 : List UInt8} {base : Nat} {e : List UInt8} {w : List Nat} (er : Bool) (h : RE0 s mem0 base e w)
    (hroom : base + e.length < mem0.length) : ∃ s', bypassFlushEnc s er = some s' := by
  have hm : RMem s mem0 base e := by rcases h with h | ⟨h, _⟩; exacts [h.m, h]
  obtain ⟨p, hp, hpff⟩ := rmem_get hm
  have hbp := hm.bp
  have hpos := hm.pos
  have hlen := hm.len
  unfold bypassFlushEnc
  rw [if_neg (by omega), hp, Option.bind_some]
  have fin : ∀ (t : Mqc) (b : UInt8), 0 < t.bp → t.mem[t.bp - 1]? = some b → b ≠ 255 →
      ∃ s', (some t).bind (fun s => if s.bp = 0 then none else (s.mem[s.bp - 1]?).bind fun b => if b = 0xFF then none else some s) = some s' := by
    intro t b h0 hb hne
    rw [Option.bind_some, if_neg (by omega), hb, Option.bind_some, if_neg hne]
    exact ⟨t, rfl⟩
  rcases h with h | ⟨_, he, hw, hc, hct⟩
  · split
    · rename_i hcond
      unfold store
      rw [if_pos (by omega), Option.map_some]
      refine fin _ (UInt8.ofNat (bypassFill s.ct s.c 0)) (by show 0 < s.bp + 1; omega) ?_ ?_
      · show (s.mem.set s.bp _)[s.bp + 1 - 1]? = _
        rw [Nat.add_sub_cancel, List.getElem?_set_self (by omega)]
      · -- bit ct-1 of the filled byte is 0
        have hct1 := h.ct1
        have hct2 := h.ct2
        have h8 : wd e ≤ 8 := by rcases wd_cases e with ⟨h, _⟩ | ⟨h, _⟩ <;> omega
        have hp256 := pow_le_256 (e := e)
        have hpc : 2 ^ s.ct ≤ 2 ^ wd e := Nat.pow_le_pow_right (by omega) hct2
        obtain ⟨f, f1, f2, f3⟩ := fill_spec s.ct s.c 0 (by omega) (by have := h.c2; omega) h.c1
        have f4 := f3 rfl hct1
        obtain ⟨q, hq⟩ := Nat.dvd_of_mod_eq_zero h.c1
        have hc2 := h.c2
        obtain ⟨k, hk⟩ : ∃ k, s.ct = k + 1 := ⟨s.ct - 1, by omega⟩
        rw [hk] at hq f4 hpc
        rw [Nat.add_sub_cancel] at f4
        have hpk : 2 ^ (k + 1) = 2 * 2 ^ k := by rw [Nat.pow_succ]; omega
        intro hh
        have hnat := congrArg UInt8.toNat hh
        rw [f1] at hnat
        have hsum : s.c + f < 256 := by
          obtain ⟨m, hm'⟩ := Nat.pow_dvd_pow 2 hct2
          rw [hk] at hm'
          rw [hq, hm'] at hc2
          have hqm : q < m := by
            by_contra hcon
            exact absurd hc2 (Nat.not_lt.mpr (Nat.mul_le_mul_left _ (by omega)))
          have h4 : 2 ^ (k + 1) * (q + 1) ≤ 2 ^ (k + 1) * m := Nat.mul_le_mul_left _ (by omega)
          rw [Nat.mul_add, Nat.mul_one] at h4
          rw [hk] at f2
          omega
        rw [ofNat_toNat hsum] at hnat
        replace hnat : s.c + f = 255 := hnat
        -- divide by 2^k: the quotient is even, yet 255 / 2^k is odd
        have hdiv : (s.c + f) / 2 ^ k = 2 * q := by
          rw [hq, hpk, show 2 * 2 ^ k * q = 2 ^ k * (2 * q) by ring, Nat.mul_add_div (Nat.pow_pos (by omega)), Nat.div_eq_of_lt f4, Nat.add_zero]
        have hk7 : k ≤ 7 := by omega
        have hodd : 255 / 2 ^ k % 2 = 1 := by
          interval_cases k <;> rfl
        rw [hnat] at hdiv
        omega
    · rename_i hcond
      split
      · rename_i h7
        split
        · rename_i her
          exact absurd (Or.inr ⟨h7.1, Or.inl her⟩) hcond
        · have hff := hpff.mp h7.2
          rcases List.eq_nil_or_concat e with h0 | ⟨f, x, h0⟩
          · rw [h0] at hff; simp [endsFF] at hff
          · rw [List.concat_eq_append] at h0
            subst h0
            rw [endsFF_snoc] at hff
            have hx : x = 255 := by simpa using hff
            subst hx
            rw [List.length_append, List.length_singleton] at hbp
            have hmf : RMem { s with bp := s.bp - 1 } mem0 base f :=
              ⟨by show s.bp - 1 = _; omega, hm.pos, hm.len, hm.low, hm.prev, fun i hi => by
                have := hm.bytes i (by rw [List.length_append]; omega)
                rw [List.getElem?_append_left hi] at this
                exact this, stuffed_init hm.st⟩
            obtain ⟨p', hp', hpff'⟩ := rmem_get hmf
            refine fin _ p' (by show 0 < s.bp - 1; omega) hp' ?_
            intro hh
            exact absurd (stuffed_last hm.st (hpff'.mp hh)) (by decide)
      · rename_i h7
        split
        · rename_i h8
          obtain ⟨h8, her, hp7f⟩ := h8
          have hne := h.ne h8
          have hel : 0 < e.length := List.length_pos_iff.mpr hne
          rw [if_neg (by omega), List.getElem?_eq_getElem (by omega), Option.map_some]
          have hp2 : s.mem[s.bp - 2]? = some (s.mem[s.bp - 2]'(by omega)) := List.getElem?_eq_getElem (by omega)
          generalize s.mem[s.bp - 2]'(by omega) = p2 at *
          split
          · rename_i hp2ff
            rcases List.eq_nil_or_concat e with h0 | ⟨f, x, h0⟩
            · exact absurd h0 hne
            rw [List.concat_eq_append] at h0
            subst h0
            rw [List.length_append, List.length_singleton] at hbp
            rcases List.eq_nil_or_concat f with h0 | ⟨g, y, h0⟩
            · subst h0
              obtain ⟨b', hb', hne'⟩ := hm.prev
              rw [show s.bp - 2 = base - 1 by simp at hbp; omega, hm.low _ (by omega), hb'] at hp2
              injection hp2 with hp2
              exact absurd (hp2.trans hp2ff) hne'
            rw [List.concat_eq_append] at h0
            subst h0
            rw [List.length_append, List.length_singleton] at hbp
            have hy : y = 255 := by
              have := hm.bytes g.length (by simp)
              rw [show base + g.length = s.bp - 2 by omega, hp2, List.getElem?_append_left (by simp), List.getElem?_append_right (Nat.le_refl _)] at this
              simp at this
              rw [← this]; exact hp2ff
            subst hy
            have hst1 := stuffed_init hm.st
            have hmf : RMem { s with bp := s.bp - 2 } mem0 base g :=
              ⟨by show s.bp - 2 = _; omega, hm.pos, hm.len, hm.low, hm.prev, fun i hi => by
                have := hm.bytes i (by simp; omega)
                rw [List.getElem?_append_left (by simp; omega), List.getElem?_append_left hi] at this
                exact this, stuffed_init hst1⟩
            obtain ⟨p', hp', hpff'⟩ := rmem_get hmf
            refine fin _ p' (by show 0 < s.bp - 2; omega) hp' ?_
            intro hh
            exact absurd (stuffed_last hst1 (hpff'.mp hh)) (by decide)
          · exact fin s p (by omega) hp (by rw [hp7f]; decide)
        · rename_i h8
          refine fin s p (by omega) hp ?_
          intro hpf
          have hff := hpff.mp hpf
          have hwd : wd e = 7 := by unfold wd; rw [if_pos hff]
          have := h.ct2
          by_cases h7' : s.ct = 7
          · exact h7 ⟨h7', hpf⟩
          · exact hcond (Or.inl (by omega))
  · have c1 : ¬ (s.ct < 7 ∨ (s.ct = 7 ∧ (er = true ∨ p ≠ 0xFF))) := by rw [hct]; unfold bypassCtInit; omega
    have c2 : ¬ (s.ct = 7 ∧ p = 0xFF) := by rw [hct]; unfold bypassCtInit; omega
    have c3 : ¬ (s.ct = 8 ∧ er = false ∧ p = 0x7F) := by rw [hct]; unfold bypassCtInit; omega
    rw [if_neg c1, if_neg c2, if_neg c3]
    refine fin s p (by omega) hp ?_
    intro hpf
    have := hpff.mp hpf
    rw [he] at this
    simp [endsFF] at this

theorem bypassInit_spec {s0 s : Mqc} (h : bypassInitEnc s0 = some s) : RE0 s s0.mem s0.bp [] [] ∧ s.start = s0.start ∧ s.ctxs = s0.ctxs := by
  unfold bypassInitEnc at h
  split at h
  · simp at h
  rename_i h0
  rw [Option.bind_eq_some_iff] at h
  obtain ⟨b, hb, h⟩ := h
  split at h
  · simp at h
  rename_i hne
  injection h with h
  subst h
  refine ⟨Or.inr ⟨⟨rfl, by omega, rfl, fun _ _ => rfl, ⟨b, hb, hne⟩, fun i hi => by simp at hi, fun i x hi => by simp at hi⟩, rfl, rfl, rfl, rfl⟩, rfl, rfl⟩

/-! ## The decoder -/

/-- The raw decoder with `r` still to be read. -/
structure RD (s : Mqc) (r : List UInt8) : Prop where
  bytes : ∀ i, i < r.length → s.mem[s.bp + i]? = r[i]?
  g1 : s.mem[s.bp + r.length]? = some 255
  g2 : (s.c = 255 ∧ r = []) ∨ s.mem[s.bp + r.length + 1]? = some 255
  nm : NoMarker r
  hd : s.c = 255 → ∀ x, r.head? = some x → x.toNat ≤ 0x8F
  ct : s.ct ≤ 8

/-- The bits still to come, before the endless ones. -/
def rest (s : Mqc) (r : List UInt8) : List Nat := low s.c s.ct ++ rawBits (s.c == 255) r

theorem rawDecode_pop {s : Mqc} {k : Nat} (h : s.ct = k + 1) (hk : k < 8) : rawDecode s = some (s.c / 2 ^ k % 2, { s with ct := k }) := by
  unfold rawDecode
  have hws : wsub s.ct 1 = k := by rw [wsub_eq (by omega) (by omega)]; omega
  rw [if_neg (by omega), Option.bind_some]
  simp only [hws]
  rw [if_pos (by omega), Nat.shiftRight_eq_div_pow, Nat.and_one_is_mod]

theorem rawDecode_load {s t : Mqc} {k : Nat} (h : s.ct = 0)
    (ht : (s.mem[s.bp]?).map (fun b =>
      if s.c = 0xFF then
        if b.toNat > 0x8F then { s with c := 0xFF, ct := 8 }
        else { s with c := b.toNat, bp := s.bp + 1, ct := 7 }
      else { s with c := b.toNat, bp := s.bp + 1, ct := 8 }) = some t) (hk : t.ct = k + 1) (hk8 : k < 8) :
    rawDecode s = some (t.c / 2 ^ k % 2, { t with ct := k }) := by
  unfold rawDecode
  rw [if_pos h, ht, Option.bind_some]
  have hws : wsub t.ct 1 = k := by rw [wsub_eq (by omega) (by omega)]; omega
  simp only [hws]
  rw [if_pos (by omega), Nat.shiftRight_eq_div_pow, Nat.and_one_is_mod]

theorem head_getElem {r : List UInt8} {x : UInt8} : (x :: r)[0]? = some x := rfl

theorem nm_tail {x : UInt8} {r : List UInt8} (h : NoMarker (x :: r)) : NoMarker r ∧ (x = 255 → ∀ y, r.head? = some y → y.toNat ≤ 0x8F) := by
  constructor
  · intro i y h1 h2
    exact h (i + 1) y (by simpa using h1) (by simpa using h2)
  · intro hx y hy
    refine h 0 y (by rw [hx]; rfl) ?_
    rw [List.head?_eq_getElem?] at hy
    simpa using hy

theorem rawDecode_spec {s : Mqc} {r : List UInt8} (h : RD s r) :
    ∃ b s' r', rawDecode s = some (b, s') ∧ RD s' r' ∧ b = (rest s r).getD 0 1 ∧ (∀ i, (rest s' r').getD i 1 = (rest s r).getD (i + 1) 1) ∧
      s'.mem = s.mem ∧ s'.start = s.start := by
  have hct := h.ct
  rcases hk : s.ct with _ | k
  · -- a byte is loaded
    have hr0 : rest s r = rawBits (s.c == 255) r := by unfold rest; rw [hk]; rfl
    cases r with
    | nil =>
      have hg1 := h.g1
      rw [List.length_nil, Nat.add_zero] at hg1
      rw [hr0]
      have hbit : 255 / 2 ^ 7 % 2 = 1 := by norm_num
      have hones : ∀ i, (low 255 7 ++ rawBits true []).getD i 1 = 1 := by
        intro i
        rw [show low 255 7 ++ rawBits true [] = [] ++ List.replicate 7 1 by rfl, getD_ones]
        rfl
      by_cases hc : s.c = 255
      · have hl := rawDecode_load (s := s) (t := { s with c := 0xFF, ct := 8 }) (k := 7) hk
          (by rw [hg1, Option.map_some, if_pos hc, if_pos (by decide)]) rfl (by omega)
        refine ⟨_, _, [], hl, ⟨fun i hi => by simp at hi, h.g1, Or.inl ⟨rfl, rfl⟩, h.nm, fun _ x hx => by simp at hx, by show 7 ≤ 8; omega⟩, ?_, ?_, rfl, rfl⟩
        · exact hbit
        · intro i; exact hones i
      · have hl := rawDecode_load (s := s) (t := { s with c := 255, bp := s.bp + 1, ct := 8 }) (k := 7) hk
          (by rw [hg1, Option.map_some, if_neg hc]; rfl) rfl (by omega)
        have hg2 : s.mem[s.bp + 1]? = some 255 := by
          rcases h.g2 with hh | hh
          · exact absurd hh.1 hc
          · exact hh
        refine ⟨_, _, [], hl, ⟨fun i hi => by simp at hi, hg2, Or.inl ⟨rfl, rfl⟩, h.nm, fun _ x hx => by simp at hx, by show 7 ≤ 8; omega⟩, ?_, ?_, rfl, rfl⟩
        · exact hbit
        · intro i; exact hones i
    | cons x r =>
      have hx : s.mem[s.bp]? = some x := h.bytes 0 (by simp)
      obtain ⟨hn1, hn2⟩ := nm_tail h.nm
      have hb' : ∀ i, i < r.length → s.mem[s.bp + 1 + i]? = r[i]? := by
        intro i hi
        have := h.bytes (i + 1) (by simp; omega)
        rw [show s.bp + (i + 1) = s.bp + 1 + i by omega] at this
        simpa using this
      have hg1 : s.mem[s.bp + 1 + r.length]? = some 255 := by
        have := h.g1
        rw [List.length_cons, show s.bp + (r.length + 1) = s.bp + 1 + r.length by omega] at this
        exact this
      have hg2 : s.mem[s.bp + 1 + r.length + 1]? = some 255 := by
        rcases h.g2 with hh | hh
        · exact absurd hh.2 (by simp)
        · rw [List.length_cons, show s.bp + (r.length + 1) + 1 = s.bp + 1 + r.length + 1 by omega] at hh
          exact hh
      have hx255 : (x.toNat == 255) = (x == 255) := by
        by_cases hh : x = 255
        · rw [hh]; rfl
        · have : x.toNat ≠ 255 := fun hc => hh (UInt8.toNat_inj.mp hc)
          simp [hh, this]
      have hx255' : x.toNat = 255 → x = 255 := fun hc => UInt8.toNat_inj.mp hc
      rw [hr0]
      have step : ∀ (k : Nat), k < 8 → (if (s.c == 255) = true then 7 else 8) = k + 1 →
          rawDecode s = some (x.toNat / 2 ^ k % 2, { s with c := x.toNat, bp := s.bp + 1, ct := k }) →
          ∃ b s' r', rawDecode s = some (b, s') ∧ RD s' r' ∧ b = (rawBits (s.c == 255) (x :: r)).getD 0 1 ∧
            (∀ i, (rest s' r').getD i 1 = (rawBits (s.c == 255) (x :: r)).getD (i + 1) 1) ∧ s'.mem = s.mem ∧ s'.start = s.start := by
        intro k hk8 hw hl
        have hraw : rawBits (s.c == 255) (x :: r) = x.toNat / 2 ^ k % 2 :: (low x.toNat k ++ rawBits (x == 255) r) := by
          rw [rawBits, hw]; rfl
        refine ⟨_, _, r, hl, ⟨hb', hg1, Or.inr hg2, hn1, fun hc => hn2 (hx255' hc), by show k ≤ 8; omega⟩, ?_, ?_, rfl, rfl⟩
        · rw [hraw]; rfl
        · intro i
          rw [hraw]
          show (low x.toNat k ++ rawBits (x.toNat == 255) r).getD i 1 = _
          rw [hx255]; rfl
      by_cases hc : s.c = 255
      · have hle : x.toNat ≤ 0x8F := h.hd hc x rfl
        refine step 6 (by omega) (by rw [hc]; rfl) ?_
        exact rawDecode_load (s := s) (t := { s with c := x.toNat, bp := s.bp + 1, ct := 7 }) (k := 6) hk
          (by rw [hx, Option.map_some, if_pos hc, if_neg (by omega)]) rfl (by omega)
      · refine step 7 (by omega) (by rw [if_neg (by simpa using hc)]) ?_
        exact rawDecode_load (s := s) (t := { s with c := x.toNat, bp := s.bp + 1, ct := 8 }) (k := 7) hk
          (by rw [hx, Option.map_some, if_neg hc]) rfl (by omega)
  · have hl := rawDecode_pop hk (by omega)
    have hr0 : rest s r = s.c / 2 ^ k % 2 :: (low s.c k ++ rawBits (s.c == 255) r) := by unfold rest; rw [hk]; rfl
    refine ⟨_, _, r, hl, ⟨h.bytes, h.g1, h.g2, h.nm, h.hd, by show k ≤ 8; omega⟩, ?_, ?_, rfl, rfl⟩
    · rw [hr0]; rfl
    · intro i; rw [hr0]; rfl

theorem rawDecodeAll_spec : ∀ (n : Nat) {s : Mqc} {r : List UInt8}, RD s r →
    ∃ s', rawDecodeAll n s = some ((List.range n).map (fun i => (rest s r).getD i 1), s') := by
  intro n
  induction n with
  | zero => intro s r _; exact ⟨s, rfl⟩
  | succ n ih =>
    intro s r h
    obtain ⟨b, s1, r1, g1, g2, g3, g4, _⟩ := rawDecode_spec h
    obtain ⟨s', k1⟩ := ih g2
    refine ⟨s', ?_⟩
    unfold rawDecodeAll
    rw [g1, Option.bind_some]
    simp only [k1, Option.map_some]
    congr 2
    rw [List.range_succ_eq_map, List.map_cons, List.map_map, g3]
    congr 1
    apply List.map_congr_left
    intro i _
    exact g4 i

/-- Encode raw bits, flush either way, decode. -/
theorem raw_segment {s0 s s1 s2 : Mqc} {bs : List Nat} {er : Bool} (h0 : bypassInitEnc s0 = some s) (hb : ∀ d ∈ bs, d ≤ 1)
    (h1 : bypassEncAll s bs = some s1) (h2 : bypassFlushEnc s1 er = some s2) :
    ∃ d : List UInt8, Stuffed d ∧ d.getLast? ≠ some 255 ∧ s2.bp = s0.bp + d.length ∧ (∀ i, i < d.length → s2.mem[s0.bp + i]? = d[i]?) ∧
      s2.mem.length = s0.mem.length ∧ (∀ i, i < s0.bp → s2.mem[i]? = s0.mem[i]?) ∧ s2.start = s0.start ∧ s2.ctxs = s0.ctxs ∧
      ∀ (buf : List UInt8) (o : Nat) (ctxs : List Nat), (buf.drop o).take d.length = d → o + d.length + 2 ≤ buf.length →
        ∃ sd sd', rawInitDec buf o d.length ctxs = some sd ∧ rawDecodeAll bs.length sd = some (bs, sd') := by
  obtain ⟨i1, i2, i3⟩ := bypassInit_spec h0
  obtain ⟨e, k1, k2, k3⟩ := bypassEncAll_spec bs i1 hb h1
  rw [List.nil_append] at k1
  obtain ⟨d, g1, g2, g3⟩ := flush_raw_spec k1 h2
  refine ⟨d, g1.m.st, ?_, g1.m.bp, g1.m.bytes, g1.m.len, g1.m.low, g2.trans (k2.trans i2), g3.trans (k3.trans i3), ?_⟩
  · intro hh
    rw [← endsFF_iff, g1.last] at hh
    simp at hh
  intro buf o ctxs hbuf hroom
  have hg := guard_any (mem := buf) (start := o) (len := d.length) (by omega)
  obtain ⟨q1, q2, q3⟩ := guard_get (mem := buf) (start := o) (len := d.length) (by omega)
  have hrd : RD ⟨(buf.set (o + d.length) 255).set (o + d.length + 1) 255, o, o, 0, 0, 0, ctxs⟩ d := by
    refine ⟨?_, q1, Or.inr q2, stuffed_nm g1.m.st, fun hc => absurd hc (by show ¬ (0 = 255); omega), by show 0 ≤ 8; omega⟩
    intro i hi
    show ((buf.set (o + d.length) 255).set (o + d.length + 1) 255)[o + i]? = _
    rw [List.getElem?_set_ne (by omega), List.getElem?_set_ne (by omega), slice_get hbuf i hi]
  obtain ⟨sd', j1⟩ := rawDecodeAll_spec bs.length hrd
  refine ⟨_, sd', by unfold rawInitDec; rw [hg]; rfl, ?_⟩
  rw [j1]
  congr 2
  apply List.ext_getElem?
  intro i
  rcases Nat.lt_or_ge i bs.length with hi | hi
  · rw [List.getElem?_map, List.getElem?_range hi, Option.map_some]
    have hpre := g1.pre i hi
    show some ((rawBits false d).getD i 1) = _
    rw [hpre, List.getD_eq_getElem?_getD, List.getElem?_eq_getElem hi]
    rfl
  · rw [List.getElem?_eq_none hi, List.getElem?_eq_none (by simp; exact hi)]

theorem raw_total {s0 s : Mqc} {bs : List Nat} (er : Bool) (h0 : bypassInitEnc s0 = some s) (hb : ∀ d ∈ bs, d ≤ 1)
    (hroom : 7 * s0.bp + bs.length + 7 ≤ 7 * s0.mem.length) : ∃ s1 s2, bypassEncAll s bs = some s1 ∧ bypassFlushEnc s1 er = some s2 := by
  obtain ⟨i1, i2, i3⟩ := bypassInit_spec h0
  obtain ⟨s1, h1⟩ := bypassEncAll_total bs i1 hb (by simp; omega)
  obtain ⟨e, k1, k2, k3⟩ := bypassEncAll_spec bs i1 hb h1
  rw [List.nil_append] at k1
  have hl := re_len k1
  obtain ⟨s2, h2⟩ := flush_raw_total er k1 (by omega)
  exact ⟨s1, s2, h1, h2⟩

/-! ## Arbitrary bytes -/

theorem rawDecode_safe {s : Mqc} {len : Nat} (hroom : s.start + len + 1 < s.mem.length) (g1 : s.mem[s.start + len]? = some 255)
    (g2 : s.mem[s.start + len + 1]? = some 255) (hbp : s.bp ≤ s.start + len ∨ (s.bp = s.start + len + 1 ∧ s.c = 255)) (hct : s.ct ≤ 8) :
    ∃ d s', rawDecode s = some (d, s') ∧ d ≤ 1 ∧ s'.mem = s.mem ∧ s'.start = s.start ∧
      (s'.bp ≤ s'.start + len ∨ (s'.bp = s'.start + len + 1 ∧ s'.c = 255)) ∧ s'.ct ≤ 8 := by
  have hmod : ∀ x k : Nat, x / 2 ^ k % 2 ≤ 1 := fun x k => by omega
  rcases hk : s.ct with _ | k
  · have hbp' : s.bp < s.mem.length := by rcases hbp with h | h <;> omega
    have hx : s.mem[s.bp]? = some s.mem[s.bp] := List.getElem?_eq_getElem hbp'
    generalize s.mem[s.bp] = x at hx
    by_cases hc : s.c = 255
    · by_cases hx8 : x.toNat > 0x8F
      · have hl := rawDecode_load (s := s) (t := { s with c := 0xFF, ct := 8 }) (k := 7) hk
          (by rw [hx, Option.map_some, if_pos hc, if_pos hx8]) rfl (by omega)
        refine ⟨_, _, hl, hmod _ _, rfl, rfl, ?_, by show 7 ≤ 8; omega⟩
        rcases hbp with h | h
        · exact Or.inl h
        · exact Or.inr ⟨h.1, rfl⟩
      · have hl := rawDecode_load (s := s) (t := { s with c := x.toNat, bp := s.bp + 1, ct := 7 }) (k := 6) hk
          (by rw [hx, Option.map_some, if_pos hc, if_neg hx8]) rfl (by omega)
        refine ⟨_, _, hl, hmod _ _, rfl, rfl, ?_, by show 6 ≤ 8; omega⟩
        left
        show s.bp + 1 ≤ s.start + len
        by_contra hcon
        have hor : s.bp = s.start + len ∨ s.bp = s.start + len + 1 := by rcases hbp with h | h <;> omega
        rcases hor with h | h
        · rw [h, g1] at hx
          injection hx with hx
          rw [← hx] at hx8
          exact hx8 (by decide)
        · rw [h, g2] at hx
          injection hx with hx
          rw [← hx] at hx8
          exact hx8 (by decide)
    · have hle : s.bp ≤ s.start + len := by
        rcases hbp with h | h
        · exact h
        · exact absurd h.2 hc
      have hl := rawDecode_load (s := s) (t := { s with c := x.toNat, bp := s.bp + 1, ct := 8 }) (k := 7) hk
        (by rw [hx, Option.map_some, if_neg hc]) rfl (by omega)
      refine ⟨_, _, hl, hmod _ _, rfl, rfl, ?_, by show 7 ≤ 8; omega⟩
      rcases Nat.lt_or_ge s.bp (s.start + len) with h | h
      · left; show s.bp + 1 ≤ s.start + len; omega
      · right
        have he : s.bp = s.start + len := by omega
        rw [he, g1] at hx
        injection hx with hx
        refine ⟨by show s.bp + 1 = s.start + len + 1; omega, ?_⟩
        show x.toNat = 255
        rw [← hx]; rfl
  · have hl := rawDecode_pop hk (by omega)
    exact ⟨_, _, hl, hmod _ _, rfl, rfl, hbp, by show k ≤ 8; omega⟩

theorem rawDecodeAll_safe {len : Nat} : ∀ (n : Nat) {s : Mqc}, s.start + len + 1 < s.mem.length → s.mem[s.start + len]? = some 255 →
    s.mem[s.start + len + 1]? = some 255 → (s.bp ≤ s.start + len ∨ (s.bp = s.start + len + 1 ∧ s.c = 255)) → s.ct ≤ 8 →
    ∃ ds s', rawDecodeAll n s = some (ds, s') ∧ ds.length = n ∧ (∀ d ∈ ds, d ≤ 1) ∧ s'.mem = s.mem ∧ s'.start = s.start := by
  intro n
  induction n with
  | zero => intro s _ _ _ _ _; exact ⟨[], s, rfl, rfl, fun d hd => by simp at hd, rfl, rfl⟩
  | succ n ih =>
    intro s hroom g1 g2 hbp hct
    obtain ⟨d, s1, k1, k2, k3, k4, k5, k6⟩ := rawDecode_safe hroom g1 g2 hbp hct
    obtain ⟨ds, s', j1, j2, j3, j4, j5⟩ := ih (s := s1) (by rw [k4, k3]; exact hroom) (by rw [k3, k4]; exact g1) (by rw [k3, k4]; exact g2) k5 k6
    refine ⟨d :: ds, s', ?_, by simp [j2], ?_, j4.trans k3, j5.trans k4⟩
    · unfold rawDecodeAll
      rw [k1, Option.bind_some]
      simp only [j1, Option.map_some]
    · intro x hx
      rcases List.mem_cons.mp hx with h1 | h1
      · rw [h1]; exact k2
      · exact j3 x h1

end Jp2.Mqc

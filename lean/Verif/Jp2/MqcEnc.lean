import Verif.Jp2.MqcLemmas
/-!
# The encoder emits the interval it tracks
-/
namespace Jp2.Mqc
open Jp2.Bio (store)

/-- The bytes `e` have been emitted after offset `base`; the buffer up to and including `base` is untouched. -/
structure Rel (s : Mqc) (mem0 : List UInt8) (base : Nat) (e : List UInt8) : Prop where
  bp : s.bp = base + e.length
  len : s.mem.length = mem0.length
  low : ∀ i, i ≤ base → s.mem[i]? = mem0[i]?
  fake : ∃ b, mem0[base]? = some b ∧ b ≠ 255
  bytes : ∀ i, i < e.length → s.mem[base + 1 + i]? = e[i]?
  st : s.start ≤ base + 1

/-- A byte following `FF` is at most `8F`. -/
def NoMarker (e : List UInt8) : Prop := ∀ (i : Nat) (x : UInt8), e[i]? = some 255 → e[i + 1]? = some x → x.toNat ≤ 0x8F

structure Inv (e : List UInt8) (C A ct : Nat) : Prop where
  pos : 0 < A
  alt : A < 2 ^ 16
  bd : (C + A) * 2 ^ ct ≤ 2 ^ 27 + (if e = [] then 0 else 2 ^ 24)
  nm : NoMarker e
  pp : ∀ i b, i + 2 = e.length → e[i]? = some 255 → e[i + 1]? = some b →
    b.toNat * 2 ^ 27 + (C + A) * 2 ^ ct ≤ 144 * 2 ^ 27

theorem inv_sel {e : List UInt8} {C A ct δ A' : Nat} (h : Inv e C A ct) (hA : δ + A' ≤ A) (h0 : 0 < A') :
    Inv e (C + δ) A' ct := by
  have hm : (C + δ + A') * 2 ^ ct ≤ (C + A) * 2 ^ ct := Nat.mul_le_mul_right _ (by omega)
  refine ⟨h0, by have := h.alt; omega, le_trans hm h.bd, h.nm, ?_⟩
  intro i b h1 h2 h3
  have := h.pp i b h1 h2 h3
  omega

theorem inv_shl {e : List UInt8} {C A ct : Nat} (h : Inv e C A (ct + 1)) (hA : A < 0x8000) : Inv e (C * 2) (A * 2) ct := by
  have hm : (C * 2 + A * 2) * 2 ^ ct = (C + A) * 2 ^ (ct + 1) := by ring
  refine ⟨by have := h.pos; omega, by omega, by rw [hm]; exact h.bd, h.nm, ?_⟩
  intro i b h1 h2 h3
  rw [hm]
  exact h.pp i b h1 h2 h3

theorem mem_bp {s : Mqc} {mem0 : List UInt8} {base : Nat} {e : List UInt8} (h : Rel s mem0 base e) :
    (e = [] ∧ ∃ b, s.mem[s.bp]? = some b ∧ b ≠ 255) ∨ ∃ f x, e = f ++ [x] ∧ s.mem[s.bp]? = some x ∧ s.bp = base + 1 + f.length := by
  rcases List.eq_nil_or_concat e with h0 | ⟨f, x, h0⟩
  · left
    obtain ⟨b, hb, hb'⟩ := h.fake
    refine ⟨h0, b, ?_, hb'⟩
    rw [h.bp, h0]
    simp only [List.length_nil, Nat.add_zero]
    rw [h.low base (Nat.le_refl _), hb]
  · right
    rw [List.concat_eq_append] at h0
    have hb : s.bp = base + 1 + f.length := by rw [h.bp, h0]; simp; omega
    refine ⟨f, x, h0, ?_, hb⟩
    rw [hb, h.bytes f.length (by rw [h0]; simp), h0]
    simp

theorem and_mask (c n : Nat) : c &&& (2 ^ n - 1) = c % 2 ^ n := Nat.and_two_pow_sub_one_eq_mod c n

theorem put_spec {s : Mqc} {mem0 : List UInt8} {base : Nat} {e : List UInt8} (h : Rel s mem0 base e) (sh n : Nat)
    (hroom : s.bp + 1 < s.mem.length) :
    ∃ s', put s sh n = some s' ∧ Rel s' mem0 base (e ++ [UInt8.ofNat (s.c >>> sh)]) ∧ s'.c = s.c % 2 ^ sh ∧ s'.ct = n ∧
      s'.a = s.a ∧ s'.ctxs = s.ctxs ∧ s'.start = s.start := by
  have hbp := h.bp
  refine ⟨{ s with mem := s.mem.set (s.bp + 1) (UInt8.ofNat (s.c >>> sh)), bp := s.bp + 1, c := s.c &&& (2 ^ sh - 1), ct := n },
    ?_, ⟨?_, ?_, ?_, h.fake, ?_, h.st⟩, and_mask _ _, rfl, rfl, rfl, rfl⟩
  · unfold put store
    rw [if_pos hroom]
    rfl
  · show s.bp + 1 = _
    simp; omega
  · show (s.mem.set _ _).length = _
    rw [List.length_set, h.len]
  · intro i hi
    show (s.mem.set _ _)[i]? = _
    rw [List.getElem?_set_ne (by omega), h.low i hi]
  · intro i hi
    show (s.mem.set _ _)[_]? = _
    simp only [List.length_append, List.length_cons, List.length_nil] at hi
    by_cases hie : i = e.length
    · subst hie
      rw [show base + 1 + e.length = s.bp + 1 by omega, List.getElem?_set_self hroom]
      simp
    · rw [List.getElem?_set_ne (by omega), List.getElem?_append_left (by omega), h.bytes i (by omega)]

theorem carry_bit {c : Nat} (h : c < 2 ^ 28) : c &&& 0x8000000 = 0 ↔ c < 2 ^ 27 := by
  have h1 : c &&& 2 ^ 27 = (c.testBit 27).toNat * 2 ^ 27 := by
    apply Nat.eq_of_testBit_eq
    intro i
    rw [Nat.testBit_and, Nat.testBit_two_pow]
    by_cases hi : 27 = i
    · subst hi
      cases c.testBit 27 <;> decide
    · cases c.testBit 27
      · simp [hi]
      · rw [show true.toNat * 2 ^ 27 = 2 ^ 27 from rfl, Nat.testBit_two_pow]
        simp [hi]
  have h2 : c.testBit 27 = decide (c / 2 ^ 27 % 2 = 1) := Nat.testBit_eq_decide_div_mod_eq
  rw [show (0x8000000 : Nat) = 2 ^ 27 by norm_num, h1, h2]
  by_cases hc : c < 2 ^ 27
  · have : c / 2 ^ 27 % 2 = 0 := by omega
    rw [this]; simpa using hc
  · have : c / 2 ^ 27 % 2 = 1 := by omega
    rw [this]; simpa using hc

theorem nomarker_snoc {e : List UInt8} {b : UInt8} (h : NoMarker e) (hb : e.getLast? = some 255 → b.toNat ≤ 0x8F) :
    NoMarker (e ++ [b]) := by
  intro i x h1 h2
  rcases Nat.lt_trichotomy (i + 1) e.length with h3 | h3 | h3
  · rw [List.getElem?_append_left (by omega)] at h1
    rw [List.getElem?_append_left h3] at h2
    exact h i x h1 h2
  · rw [List.getElem?_append_left (by omega)] at h1
    rw [List.getElem?_append_right (by omega), h3] at h2
    simp at h2
    subst h2
    exact hb (by rw [getLast?_idx h3.symm, h1])
  · rw [List.getElem?_eq_none (by simp; omega)] at h2
    exact absurd h2 (by simp)

theorem nomarker_init {e : List UInt8} {b : UInt8} (h : NoMarker (e ++ [b])) : NoMarker e := by
  intro i x h1 h2
  have h3 : i + 1 < e.length := by
    by_contra hc
    rw [List.getElem?_eq_none (by omega)] at h2
    exact absurd h2 (by simp)
  exact h i x (by rw [List.getElem?_append_left (by omega), h1]) (by rw [List.getElem?_append_left h3, h2])

/-- Invariant and value after appending one byte. -/
theorem inv_snoc {e : List UInt8} {b : UInt8} {C A w C' : Nat} (hnm : NoMarker e) (h0 : 0 < A) (hA : A < 2 ^ 16)
    (hC : C + A ≤ 2 ^ 27 + 2 ^ 24) (hw : w = nextWid e) (hb : C = b.toNat * 2 ^ (27 - w) + C') (hC' : C' < 2 ^ (27 - w)) :
    Inv (e ++ [b]) C' A w := by
  unfold nextWid at hw
  by_cases hl : e.getLast? = some 255
  · rw [if_pos hl] at hw
    subst hw
    norm_num at hb hC'
    have hb2 : b.toNat ≤ 0x8F := by omega
    refine ⟨h0, hA, ?_, nomarker_snoc hnm (fun _ => hb2), ?_⟩
    · rw [if_neg (by simp)]
      omega
    · intro i x h1 h2 h3
      simp only [List.length_append, List.length_cons, List.length_nil] at h1
      rw [List.getElem?_append_right (by omega)] at h3
      rw [show i + 1 - e.length = 0 by omega] at h3
      simp at h3
      subst h3
      omega
  · rw [if_neg hl] at hw
    subst hw
    norm_num at hb hC'
    refine ⟨h0, hA, ?_, nomarker_snoc hnm (fun h => absurd h hl), ?_⟩
    · rw [if_neg (by simp)]
      omega
    · intro i x h1 h2 h3
      simp only [List.length_append, List.length_cons, List.length_nil] at h1
      rw [List.getElem?_append_left (by omega)] at h2
      exact absurd (by rw [getLast?_idx (n := i) (by omega), h2]) hl

theorem byteout_spec {s : Mqc} {mem0 : List UInt8} {base : Nat} {e : List UInt8} {A : Nat} (hr : Rel s mem0 base e)
    (hi : Inv e s.c A 0) (hroom : s.bp + 1 < s.mem.length) :
    ∃ s' e', byteout s = some s' ∧ Rel s' mem0 base e' ∧ Inv e' s'.c A s'.ct ∧ (s'.ct = 7 ∨ s'.ct = 8) ∧
      s'.c = s.c % 2 ^ (27 - s'.ct) ∧ e'.length = e.length + 1 ∧ Pv e' + (27 - s'.ct) = Pv e + 27 ∧
      Sv e' * 2 ^ (27 - s'.ct) + s'.c = Sv e * 2 ^ 27 + s.c ∧ (∀ d, Ext e' d → Ext e d) ∧
      s'.a = s.a ∧ s'.ctxs = s.ctxs ∧ s'.start = s.start := by
  have hst : ¬ s.bp + 1 < s.start := by have := hr.st; have := hr.bp; omega
  have hbd := hi.bd
  have hpos := hi.pos
  have halt := hi.alt
  rw [Nat.pow_zero, Nat.mul_one] at hbd
  have hbd2 : s.c + A ≤ 2 ^ 27 + 2 ^ 24 := by split at hbd <;> omega
  have hofNat : ∀ x, x < 256 → (UInt8.ofNat x).toNat = x := fun x hx => by
    rw [UInt8.toNat_ofNat']; omega
  -- the common ending
  have fin : ∀ (t : Mqc) (f : List UInt8) (w sh C : Nat), Rel t mem0 base f → NoMarker f → w = nextWid f → sh = 27 - w →
      t.c < 2 ^ 28 → C = t.c % 2 ^ 27 ∨ (C = t.c ∧ w = 7) →
      C + A ≤ 2 ^ 27 + 2 ^ 24 → (UInt8.ofNat (t.c >>> sh)).toNat * 2 ^ sh + t.c % 2 ^ sh = C → t.bp = s.bp → t.mem.length = s.mem.length →
      t.a = s.a → t.ctxs = s.ctxs → t.start = s.start →
      f.length = e.length → Pv f = Pv e → Sv f * 2 ^ 27 + C = Sv e * 2 ^ 27 + s.c → (∀ d, Ext f d → Ext e d) →
      t.c % 2 ^ sh = s.c % 2 ^ sh →
      ∃ s' e', put t sh w = some s' ∧ Rel s' mem0 base e' ∧ Inv e' s'.c A s'.ct ∧ (s'.ct = 7 ∨ s'.ct = 8) ∧
      s'.c = s.c % 2 ^ (27 - s'.ct) ∧ e'.length = e.length + 1 ∧ Pv e' + (27 - s'.ct) = Pv e + 27 ∧
      Sv e' * 2 ^ (27 - s'.ct) + s'.c = Sv e * 2 ^ 27 + s.c ∧ (∀ d, Ext e' d → Ext e d) ∧
      s'.a = s.a ∧ s'.ctxs = s.ctxs ∧ s'.start = s.start := by
    intro t f w sh C hrt hnm hw hsh htc hC hCA hdec hbpt hlent ha hctx hstt hlf hP hS hE hmod
    obtain ⟨s', hp, hrel, hc', hct', ha', hcx', hst'⟩ := put_spec hrt sh w (by omega)
    have hw' : w = 7 ∨ w = 8 := by rw [hw]; unfold nextWid; split <;> simp
    have hmodlt : t.c % 2 ^ sh < 2 ^ sh := Nat.mod_lt _ (Nat.two_pow_pos _)
    refine ⟨s', _, hp, hrel, ?_, ?_, ?_, ?_, ?_, ?_, ?_, ha'.trans ha, hcx'.trans hctx, hst'.trans hstt⟩
    · rw [hct', hc']
      exact inv_snoc hnm hpos halt hCA hw (by rw [← hsh]; exact hdec.symm) (by rw [← hsh]; exact hmodlt)
    · rw [hct']; exact hw'
    · rw [hct', hc', ← hsh, hmod]
    · simp [hlf]
    · rw [hct', Pv_snoc, ← hw, hP]
      omega
    · rw [hct', Sv_snoc, ← hw, hc', ← hsh]
      have : (2 : Nat) ^ w * 2 ^ sh = 2 ^ 27 := by rw [← Nat.pow_add]; congr 1; omega
      calc (Sv f * 2 ^ w + (UInt8.ofNat (t.c >>> sh)).toNat) * 2 ^ sh + t.c % 2 ^ sh
          = Sv f * (2 ^ w * 2 ^ sh) + ((UInt8.ofNat (t.c >>> sh)).toNat * 2 ^ sh + t.c % 2 ^ sh) := by ring
        _ = _ := by rw [this, hdec, hS]
    · intro d hd
      exact hE d (ext_snoc hd)
  unfold byteout
  rw [if_neg hst]
  rcases mem_bp hr with ⟨he, b, hb, hbne⟩ | ⟨f, x, he, hx, hbpf⟩
  · -- first byte: no carry is possible
    rw [if_pos he] at hbd
    rw [hb]
    simp only [Option.bind_some]
    rw [if_neg hbne, if_pos ((carry_bit (by omega)).mpr (by omega))]
    refine fin s e 8 19 s.c hr hi.nm (by unfold nextWid; rw [he]; rfl) rfl (by omega) (Or.inl (by omega)) hbd2 ?_ rfl rfl rfl rfl rfl rfl
      rfl rfl (fun _ h => h) rfl
    rw [Nat.shiftRight_eq_div_pow, hofNat _ (by omega)]
    omega
  · have hlast : e.getLast? = some x := by rw [he]; simp
    rw [hx]
    simp only [Option.bind_some]
    by_cases hxf : x = 255
    · rw [if_pos hxf]
      refine fin s e 7 20 s.c hr hi.nm (by unfold nextWid; rw [hlast, hxf]; rfl) rfl (by omega) (Or.inr ⟨rfl, rfl⟩) hbd2 ?_ rfl rfl rfl rfl rfl rfl
        rfl rfl (fun _ h => h) rfl
      rw [Nat.shiftRight_eq_div_pow, hofNat _ (by omega)]
      omega
    · rw [if_neg hxf]
      have hnw : nextWid e = 8 := by
        unfold nextWid
        rw [hlast, if_neg (by simpa using hxf)]
      by_cases hcar : s.c < 2 ^ 27
      · rw [if_pos ((carry_bit (by omega)).mpr hcar)]
        refine fin s e 8 19 s.c hr hi.nm hnw.symm rfl (by omega) (Or.inl (by omega)) hbd2 ?_ rfl rfl rfl rfl rfl rfl
          rfl rfl (fun _ h => h) rfl
        rw [Nat.shiftRight_eq_div_pow, hofNat _ (by omega)]
        omega
      · rw [if_neg (fun h => hcar ((carry_bit (by omega)).mp h))]
        have hx1 : (x + 1).toNat = x.toNat + 1 := by
          have h1 : x.toNat ≠ 255 := fun hc => hxf (UInt8.toNat_inj.mp hc)
          have h2 := x.toNat_lt
          rw [UInt8.toNat_add]
          simp
          omega
        have hrt : Rel { s with mem := s.mem.set s.bp (x + 1) } mem0 base (f ++ [x + 1]) := by
          have hlenef : e.length = f.length + 1 := by rw [he]; simp
          refine ⟨?_, ?_, ?_, hr.fake, ?_, hr.st⟩
          · show s.bp = _
            simp; omega
          · show (s.mem.set _ _).length = _
            rw [List.length_set, hr.len]
          · intro i hi
            show (s.mem.set _ _)[i]? = _
            rw [List.getElem?_set_ne (by omega), hr.low i hi]
          · intro i hi
            show (s.mem.set _ _)[_]? = _
            simp only [List.length_append, List.length_cons, List.length_nil] at hi
            by_cases hie : i = f.length
            · subst hie
              rw [← hbpf, List.getElem?_set_self (by omega)]
              simp
            · rw [List.getElem?_set_ne (by omega), List.getElem?_append_left (by omega), hr.bytes i (by omega), he,
                List.getElem?_append_left (by omega)]
        have hnmf : NoMarker (f ++ [x + 1]) := by
          refine nomarker_snoc (nomarker_init (by rw [← he]; exact hi.nm)) ?_
          intro hfl
          rcases hn : f.length with _ | n
          · rw [List.length_eq_zero_iff.mp hn] at hfl
            simp at hfl
          · rw [getLast?_idx hn] at hfl
            have := hi.pp n x (by rw [he]; simp; omega) (by rw [he, List.getElem?_append_left (by omega), hfl])
              (by rw [he, List.getElem?_append_right (by omega), hn]; simp)
            rw [Nat.pow_zero, Nat.mul_one] at this
            omega
        have hnwe : ∀ g : List UInt8, Sv (g ++ [x + 1]) = Sv (g ++ [x]) + 1 := by
          intro g
          rw [Sv_snoc, Sv_snoc, hx1]
          omega
        have hPe : ∀ g : List UInt8, Pv (g ++ [x + 1]) = Pv (g ++ [x]) := by
          intro g
          rw [Pv_snoc, Pv_snoc]
        have hEe : ∀ d, Ext (f ++ [x + 1]) d → Ext e d := by
          intro d hd
          rw [he]
          exact ext_bump hd hxf
        have hstore : store s.mem s.bp (x + 1) = some (s.mem.set s.bp (x + 1)) := by
          unfold store
          rw [if_pos (by omega)]
        rw [hstore]
        simp only [Option.bind_some]
        by_cases hx2 : x + 1 = 255
        · rw [if_pos hx2]
          have hmask : s.c &&& 0x7FFFFFF = s.c % 2 ^ 27 := and_mask s.c 27
          refine fin { s with mem := s.mem.set s.bp (x + 1), c := s.c &&& 0x7FFFFFF } (f ++ [x + 1]) 7 20 (s.c % 2 ^ 27)
            ⟨hrt.bp, hrt.len, hrt.low, hrt.fake, hrt.bytes, hrt.st⟩ hnmf (by unfold nextWid; rw [hx2]; simp) rfl ?_ ?_ (by omega) ?_
            rfl (List.length_set ..) rfl rfl rfl (by rw [he]; simp) (by rw [hPe, ← he]) ?_ hEe ?_
          · show s.c &&& 0x7FFFFFF < _
            rw [hmask]; omega
          · left
            show _ = (s.c &&& 0x7FFFFFF) % _
            rw [hmask]; omega
          · show (UInt8.ofNat ((s.c &&& 0x7FFFFFF) >>> 20)).toNat * 2 ^ 20 + (s.c &&& 0x7FFFFFF) % 2 ^ 20 = _
            rw [hmask, Nat.shiftRight_eq_div_pow, hofNat _ (by omega)]
            omega
          · rw [hnwe, ← he]
            omega
          · show (s.c &&& 0x7FFFFFF) % 2 ^ 20 = _
            rw [hmask]
            omega
        · rw [if_neg hx2]
          refine fin { s with mem := s.mem.set s.bp (x + 1) } (f ++ [x + 1]) 8 19 (s.c % 2 ^ 27)
            hrt hnmf (by unfold nextWid; simp [hx2]) rfl (show s.c < _ by omega) (Or.inl rfl) (by omega) ?_
            rfl (List.length_set ..) rfl rfl rfl (by rw [he]; simp) (by rw [hPe, ← he]) ?_ hEe rfl
          · show (UInt8.ofNat (s.c >>> 19)).toNat * 2 ^ 19 + s.c % 2 ^ 19 = _
            rw [Nat.shiftRight_eq_div_pow, UInt8.toNat_ofNat']
            omega
          · rw [hnwe, ← he]
            omega

theorem byteout_room {s s' : Mqc} (h : byteout s = some s') : s.bp + 1 < s.mem.length := by
  have hp : ∀ (t : Mqc) sh n, put t sh n = some s' → t.bp + 1 < t.mem.length := by
    intro t sh n h
    unfold put store at h
    by_contra hc
    rw [if_neg hc] at h
    simp at h
  unfold byteout at h
  split at h
  · simp at h
  · rw [Option.bind_eq_some_iff] at h
    obtain ⟨b, hb, h⟩ := h
    split at h
    · exact hp _ _ _ h
    · split at h
      · exact hp _ _ _ h
      · rw [Option.bind_eq_some_iff] at h
        obtain ⟨mem, hm, h⟩ := h
        have hl : mem.length = s.mem.length := by
          unfold store at hm
          split at hm
          · injection hm with hm
            rw [← hm, List.length_set]
          · simp at hm
        rw [← hl]
        split at h
        · exact hp _ _ _ h
        · exact hp _ _ _ h

/-! ## Intervals -/

/-- Low end of the interval, as an integer at resolution `Qv`. -/
def Lv (e : List UInt8) (ct c : Nat) : Nat := Sv e * 2 ^ (27 - ct) + c
def Qv (e : List UInt8) (ct : Nat) : Nat := Pv e + (27 - ct)

/-- The encoder state between operations. -/
structure ES (s : Mqc) (mem0 : List UInt8) (base : Nat) (e : List UInt8) : Prop where
  rel : Rel s mem0 base e
  inv : Inv e s.c s.a s.ct
  ct1 : 1 ≤ s.ct
  ct2 : s.ct ≤ 12
  ct3 : e ≠ [] → s.ct ≤ 8

/-- The final string `d` continues the emitted bytes and stays inside the current interval. -/
def FutS (c a ct : Nat) (e d : List UInt8) : Prop := Ext e d ∧ Fut (Lv e ct c) (Qv e ct) a e.length d

theorem futS_emit {e e' d : List UInt8} {c c' a ct' : Nat} (hE : Ext e' d → Ext e d) (hlen : e'.length = e.length + 1)
    (hP : Pv e' + (27 - ct') = Pv e + 27) (hS : Sv e' * 2 ^ (27 - ct') + c' = Sv e * 2 ^ 27 + c) (hc : c' < 2 ^ (27 - ct'))
    (h : FutS c' a ct' e' d) : FutS c a 0 e d := by
  obtain ⟨h1, h2⟩ := h
  refine ⟨hE h1, ?_⟩
  have hL : Lv e 0 c = Lv e' ct' c' := hS.symm
  have hQ : Qv e 0 = Qv e' ct' := hP.symm
  rw [hL, hQ]
  rw [hlen] at h2
  refine fut_emit h2 ?_
  rw [← hlen, ext_P h1]
  have hw := ext_W h1
  have h3 : Lv e' ct' c' < (Sv e' + 1) * 2 ^ (27 - ct') := by
    unfold Lv
    rw [Nat.add_mul, Nat.one_mul]
    omega
  calc Lv e' ct' c' * 2 ^ P e' e'.length < (Sv e' + 1) * 2 ^ (27 - ct') * 2 ^ P e' e'.length :=
        Nat.mul_lt_mul_of_pos_right h3 (Nat.two_pow_pos _)
    _ = (Sv e' + 1) * 2 ^ Qv e' ct' := by
        unfold Qv Pv
        rw [Nat.pow_add]; ring
    _ ≤ _ := Nat.mul_le_mul_right _ (by unfold Sv; omega)

theorem Lv_shl (e : List UInt8) {ct c : Nat} (h : ct + 1 ≤ 27) : Lv e ct (c * 2) = Lv e (ct + 1) c * 2 := by
  unfold Lv
  rw [show 27 - ct = 27 - (ct + 1) + 1 by omega, Nat.pow_succ]
  ring
theorem Qv_shl (e : List UInt8) {ct : Nat} (h : ct + 1 ≤ 27) : Qv e ct = Qv e (ct + 1) + 1 := by
  unfold Qv; omega

theorem futS_shl {e d : List UInt8} {c a ct : Nat} (hct : ct + 1 ≤ 27) :
    FutS (c * 2) (a * 2) ct e d ↔ FutS c a (ct + 1) e d := by
  unfold FutS
  rw [Lv_shl e hct, Qv_shl e hct, fut_shl]

theorem seven_le (e : List UInt8) : 7 * e.length ≤ Pv e := by
  unfold Pv
  have : ∀ k, 7 * k ≤ P e k := by
    intro k
    induction k with
    | zero => exact Nat.le_refl _
    | succ k ih =>
      show 7 * (k + 1) ≤ P e k + wid e k
      have : 7 ≤ wid e k := by unfold wid; split <;> omega
      omega
  exact this _

theorem bit15 {a : Nat} (h : a < 2 ^ 16) : a &&& 0x8000 = 0 ↔ a < 0x8000 := by
  have h1 : a &&& 2 ^ 15 = (a.testBit 15).toNat * 2 ^ 15 := by
    apply Nat.eq_of_testBit_eq
    intro i
    rw [Nat.testBit_and, Nat.testBit_two_pow]
    by_cases hi : 15 = i
    · subst hi
      cases a.testBit 15 <;> decide
    · cases a.testBit 15
      · simp [hi]
      · rw [show true.toNat * 2 ^ 15 = 2 ^ 15 from rfl, Nat.testBit_two_pow]
        simp [hi]
  have h2 : a.testBit 15 = decide (a / 2 ^ 15 % 2 = 1) := Nat.testBit_eq_decide_div_mod_eq
  rw [show (0x8000 : Nat) = 2 ^ 15 by norm_num, h1, h2]
  by_cases hc : a < 2 ^ 15
  · have : a / 2 ^ 15 % 2 = 0 := by omega
    rw [this]; simpa using hc
  · have : a / 2 ^ 15 % 2 = 1 := by omega
    rw [this]; simpa using hc

theorem wsub_eq {x y : Nat} (h : y ≤ x) (hx : x < 2 ^ 32) : wsub x y = x - y := by
  unfold wsub; omega
theorem wadd_eq {x y : Nat} (h : x + y < 2 ^ 32) : wadd x y = x + y := Nat.mod_eq_of_lt h
theorem shl_eq {x n : Nat} (h : x * 2 ^ n < 2 ^ 32) : shl x n = x * 2 ^ n := by
  unfold shl
  rw [Nat.shiftLeft_eq, Nat.mod_eq_of_lt h]

theorem inv_c {e : List UInt8} {C A ct : Nat} (h : Inv e C A ct) : (C + A) * 2 ^ ct ≤ 2 ^ 27 + 2 ^ 24 ∧ C + A ≤ 2 ^ 27 + 2 ^ 24 := by
  have h1 := h.bd
  have h2 : (C + A) * 2 ^ ct ≤ 2 ^ 27 + 2 ^ 24 := by split at h1 <;> omega
  have h3 : 1 ≤ 2 ^ ct := Nat.one_le_two_pow
  exact ⟨h2, by nlinarith⟩

/-- One round of the renormalisation loop: doubling, and a byte when the register is full. -/
theorem shift_step {s : Mqc} {mem0 : List UInt8} {base : Nat} {e : List UInt8} (h : ES s mem0 base e) (ha : s.a < 0x8000) :
    let t : Mqc := { s with a := shl s.a 1, c := shl s.c 1, ct := wsub s.ct 1 }
    t.a = s.a * 2 ∧ Qv e t.ct = Qv e s.ct + 1 ∧ (t.ct = 0 → 7 * e.length + 27 ≤ Qv e s.ct + 1) ∧
    (t.ct = 0 → base + e.length + 1 < mem0.length → ∃ u, byteout t = some u) ∧
    ∀ u, (if t.ct = 0 then byteout t else some t) = some u →
      ∃ e', ES u mem0 base e' ∧ u.a = s.a * 2 ∧ u.ctxs = s.ctxs ∧ u.start = s.start ∧
        Lv e' u.ct u.c = Lv e s.ct s.c * 2 ∧ Qv e' u.ct = Qv e s.ct + 1 ∧
        ∀ d, FutS u.c u.a u.ct e' d → FutS s.c s.a s.ct e d := by
  intro t
  have hc := inv_c h.inv
  have h1 := h.ct1
  have h2 := h.ct2
  have hta : t.a = s.a * 2 := shl_eq (n := 1) (by omega)
  have htc : t.c = s.c * 2 := shl_eq (n := 1) (by omega)
  have htct : t.ct = s.ct - 1 := wsub_eq h1 (by omega)
  have hct : s.ct = t.ct + 1 := by omega
  have hrel : Rel t mem0 base e := ⟨h.rel.bp, h.rel.len, h.rel.low, h.rel.fake, h.rel.bytes, h.rel.st⟩
  have hinv : Inv e t.c t.a t.ct := by
    rw [hta, htc]
    refine inv_shl ?_ ha
    rw [← hct]; exact h.inv
  have hQ : Qv e t.ct = Qv e s.ct + 1 := by rw [hct, ← Qv_shl e (by omega)]
  have hL : Lv e t.ct t.c = Lv e s.ct s.c * 2 := by rw [hct, htc, Lv_shl e (by omega)]
  have h7 := seven_le e
  refine ⟨hta, hQ, ?_, ?_, ?_⟩
  · intro h0
    rw [← hQ, h0]
    unfold Qv
    omega
  · intro h0 hroom
    obtain ⟨u, e', hu, _⟩ := byteout_spec (A := t.a) hrel (by rw [← h0]; exact hinv) (by rw [hrel.bp, hrel.len]; exact hroom)
    exact ⟨u, hu⟩
  · intro u hu
    by_cases h0 : t.ct = 0
    · rw [if_pos h0] at hu
      obtain ⟨u', e', hu', k1, k2, k3, k4, k5, k6, k7, k8, k9, k10, k11⟩ :=
        byteout_spec (A := t.a) hrel (by rw [← h0]; exact hinv) (byteout_room hu)
      rw [hu] at hu'
      injection hu' with hu'
      subst hu'
      have hlt : u.c < 2 ^ (27 - u.ct) := by rw [k4]; exact Nat.mod_lt _ (Nat.two_pow_pos _)
      refine ⟨e', ⟨k1, by rw [k9]; exact k2, by omega, by omega, fun _ => by omega⟩, by rw [k9, hta], k10, k11, ?_, ?_, ?_⟩
      · rw [← hL, h0]; exact k7
      · rw [← hQ, h0]; exact k6
      · intro d hd
        rw [hct, ← futS_shl (by omega), ← htc, ← hta, h0]
        refine futS_emit (k8 d) k5 k6 k7 hlt ?_
        rw [← k9]; exact hd
    · rw [if_neg h0] at hu
      injection hu with hu
      subst hu
      refine ⟨e, ⟨hrel, hinv, by omega, by omega, fun hh => by have := h.ct3 hh; omega⟩, hta, rfl, rfl, hL, hQ, ?_⟩
      intro d hd
      rw [hct, ← futS_shl (by omega), ← htc, ← hta]
      exact hd

theorem renorme_spec {mem0 : List UInt8} {base : Nat} : ∀ (fuel : Nat) {s s' : Mqc} {e : List UInt8}, ES s mem0 base e → s.a < 0x8000 →
    renorme fuel s = some s' → ∃ e' r, ES s' mem0 base e' ∧ 0x8000 ≤ s'.a ∧ s'.a = s.a * 2 ^ (r + 1) ∧ s.a * 2 ^ r < 0x8000 ∧
      s'.ctxs = s.ctxs ∧ s'.start = s.start ∧ Lv e' s'.ct s'.c = Lv e s.ct s.c * 2 ^ (r + 1) ∧ Qv e' s'.ct = Qv e s.ct + (r + 1) ∧
      ∀ d, FutS s'.c s'.a s'.ct e' d → FutS s.c s.a s.ct e d := by
  intro fuel
  induction fuel with
  | zero => intro s s' e _ _ h; simp [renorme] at h
  | succ fuel ih =>
    intro s s' e hs ha h
    obtain ⟨hta, -, -, -, hstep⟩ := shift_step hs ha
    unfold renorme at h
    simp only at h
    rw [Option.bind_eq_some_iff] at h
    obtain ⟨u, hu, h⟩ := h
    obtain ⟨e1, k1, k2, k3, k4, k5, k6, k7⟩ := hstep u hu
    have hu16 : u.a < 2 ^ 16 := k1.inv.alt
    split at h
    · rename_i hb
      injection h with h
      subst h
      have : ¬ u.a < 0x8000 := fun hc => hb ((bit15 hu16).mpr hc)
      exact ⟨e1, 0, k1, by omega, by omega, by omega, k3, k4, by rw [k5]; rfl, by rw [k6], k7⟩
    · rename_i hb
      have hlt : u.a < 0x8000 := (bit15 hu16).mp (by simpa using hb)
      obtain ⟨e', r, g1, g2, g3, g4, g5, g6, g7, g8, g9⟩ := ih k1 hlt h
      refine ⟨e', r + 1, g1, g2, ?_, ?_, g5.trans k3, g6.trans k4, ?_, ?_, fun d hd => k7 d (g9 d hd)⟩
      · rw [g3, k2]; ring
      · calc s.a * 2 ^ (r + 1) = u.a * 2 ^ r := by rw [k2]; ring
          _ < _ := g4
      · rw [g7, k5]; ring
      · rw [g8, k6]; ring

theorem renorme_total {mem0 : List UInt8} {base : Nat} (hb : base < mem0.length) : ∀ (fuel n : Nat) {s : Mqc} {e : List UInt8}, ES s mem0 base e →
    s.a < 0x8000 → 0x8000 ≤ s.a * 2 ^ n → n ≤ fuel → Qv e s.ct + n ≤ 7 * (mem0.length - base - 1) + 26 →
    ∃ s', renorme fuel s = some s' := by
  intro fuel
  induction fuel with
  | zero =>
    intro n s e _ ha hn hf _
    rw [Nat.le_zero.mp hf] at hn
    omega
  | succ fuel ih =>
    intro n s e hs ha hn hf hq
    rcases n with _ | n
    · omega
    obtain ⟨hta, hQ, hroom, hbo, hstep⟩ := shift_step hs ha
    unfold renorme
    simp only
    have hu : ∃ u, (if wsub s.ct 1 = 0 then byteout { s with a := shl s.a 1, c := shl s.c 1, ct := wsub s.ct 1 }
        else some { s with a := shl s.a 1, c := shl s.c 1, ct := wsub s.ct 1 }) = some u := by
      by_cases h0 : wsub s.ct 1 = 0
      · rw [if_pos h0]
        have := hroom h0
        exact hbo h0 (by omega)
      · rw [if_neg h0]
        exact ⟨_, rfl⟩
    obtain ⟨u, hu⟩ := hu
    obtain ⟨e1, k1, k2, k3, k4, k5, k6, k7⟩ := hstep u hu
    rw [hu]
    simp only [Option.bind_some]
    have hu16 : u.a < 2 ^ 16 := k1.inv.alt
    split
    · exact ⟨_, rfl⟩
    · rename_i hb'
      have hlt : u.a < 0x8000 := (bit15 hu16).mp (by simpa using hb')
      refine ih n k1 hlt ?_ (by omega) (by omega)
      rw [k2]
      rw [Nat.pow_succ] at hn
      nlinarith

end Jp2.Mqc

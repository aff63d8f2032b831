import Verif.Jp2.Layer
import Verif.Jp2.T2Coded
/-!
# Layers take the passes in order, with their bytes
-/
namespace Jp2.T2
open Jp2.T1 (Pass)

/-- The rate of every pass is the number of bytes up to it. -/
def Cum (ps : List Pass) : Prop := ∀ i p, ps[i]? = some p → p.rate = size (ps.take (i + 1))

theorem pick_ok (accept : Nat → Nat → Bool) (ps : List Pass) : ∀ (k passno n : Nat), passno + k = ps.length → n ≤ passno →
    ∃ n', pickLoop accept ps k passno n = some n' ∧ n ≤ n' ∧ n' ≤ ps.length := by
  intro k
  induction k with
  | zero => intro passno n h1 h2; exact ⟨n, rfl, Nat.le_refl _, by omega⟩
  | succ k ih =>
    intro passno n h1 h2
    unfold pickLoop
    have e1 : ps[passno]? = some ps[passno] := List.getElem?_eq_getElem (by omega)
    have e2 : (if n = 0 then some () else (ps[n - 1]?).map fun _ => ()) = some () := by
      by_cases h0 : n = 0
      · rw [if_pos h0]
      · rw [if_neg h0, List.getElem?_eq_getElem (by omega)]; rfl
    rw [e1, Option.bind_some, e2, Option.bind_some]
    split
    · obtain ⟨n', g1, g2, g3⟩ := ih (passno + 1) (passno + 1) (by omega) (Nat.le_refl _)
      exact ⟨n', g1, by omega, g3⟩
    · obtain ⟨n', g1, g2, g3⟩ := ih (passno + 1) n (by omega) (by omega)
      exact ⟨n', g1, g2, g3⟩

theorem size_mono (ps : List Pass) {a b : Nat} (h : a ≤ b) : size (ps.take a) ≤ size (ps.take b) := by
  obtain ⟨k, rfl⟩ := Nat.exists_eq_add_of_le h
  rw [size_take_add]; omega

theorem make_ok (accept : Nat → Nat → Bool) (all : Bool) {ps : List Pass} (hc : Cum ps) (hs : size ps < 2 ^ 32) {inl : Nat} (hi : inl ≤ ps.length)
    (old : Layer) : ∃ ly n, makeLayer accept all ps inl old = some (ly, n) ∧ inl + ly.numpasses = n ∧ n ≤ ps.length ∧ (all = true → n = ps.length) ∧
      (ly.numpasses ≠ 0 → ly.off = size (ps.take inl) ∧ ly.off + ly.len = size (ps.take n)) := by
  obtain ⟨n, h1, h2, h3, h4⟩ : ∃ n, (if all then some ps.length else pickLoop accept ps (ps.length - inl) inl inl) = some n ∧ inl ≤ n ∧ n ≤ ps.length ∧
      (all = true → n = ps.length) := by
    cases all with
    | true => exact ⟨ps.length, rfl, hi, Nat.le_refl _, fun _ => rfl⟩
    | false =>
      obtain ⟨n, g1, g2, g3⟩ := pick_ok accept ps (ps.length - inl) inl inl (by omega) (Nat.le_refl _)
      exact ⟨n, g1, g2, g3, fun h => by cases h⟩
  unfold makeLayer
  rw [h1, Option.bind_some, if_neg (by omega)]
  by_cases h0 : n - inl = 0
  · rw [if_pos h0]
    exact ⟨_, _, rfl, by show inl + 0 = inl; omega, hi, fun h => by have := h4 h; omega, fun h => absurd rfl h⟩
  rw [if_neg h0]
  have e1 : ps[n - 1]? = some ps[n - 1] := List.getElem?_eq_getElem (by omega)
  have r1 := hc _ _ e1
  rw [show n - 1 + 1 = n by omega] at r1
  have t1 : size (ps.take n) ≤ size ps := size_take_le ps n
  rw [e1, Option.bind_some]
  by_cases hz : inl = 0
  · rw [if_pos hz]
    refine ⟨_, _, rfl, by show inl + (n - inl) = n; omega, h3, h4, fun _ => ⟨?_, ?_⟩⟩
    · subst hz; simp [size]
    · show 0 + ps[n - 1].rate = _
      rw [r1]; omega
  · rw [if_neg hz]
    have e2 : ps[inl - 1]? = some ps[inl - 1] := List.getElem?_eq_getElem (by omega)
    have r2 := hc _ _ e2
    rw [show inl - 1 + 1 = inl by omega] at r2
    rw [e2, Option.map_some, r1, r2]
    have hm := size_mono ps h2
    refine ⟨_, _, rfl, by show inl + (n - inl) = n; omega, h3, h4, fun _ => ⟨rfl, ?_⟩⟩
    show size (ps.take inl) + (2 ^ 32 + size (ps.take n) - size (ps.take inl)) % 2 ^ 32 = _
    omega

theorem layers_ok {ps : List Pass} (hc : Cum ps) (hs : size ps < 2 ^ 32) : ∀ (cs : List ((Nat → Nat → Bool) × Bool × Layer)) (inl : Nat), inl ≤ ps.length →
    ∃ ls, makeLayers ps cs inl = some ls ∧ ls.length = cs.length ∧ inl + passesIn ls ≤ ps.length ∧
      ((∃ x, cs.getLast? = some x ∧ x.2.1 = true) → inl + passesIn ls = ps.length) ∧
      ∀ l ly, ls[l]? = some ly → ly.numpasses ≠ 0 → ly.off = size (ps.take (inl + passesIn (ls.take l))) ∧
        ly.off + ly.len = size (ps.take (inl + passesIn (ls.take (l + 1)))) := by
  intro cs
  induction cs with
  | nil => intro inl hi; exact ⟨[], rfl, rfl, by simpa [passesIn] using hi, fun ⟨x, h, _⟩ => by simp at h, fun l ly h => by simp at h⟩
  | cons c cs ih =>
    intro inl hi
    obtain ⟨accept, all, old⟩ := c
    obtain ⟨ly, n, h1, h2, h3, h4, h5⟩ := make_ok accept all hc hs hi old
    obtain ⟨ls, g1, g2, g3, g4, g5⟩ := ih n h3
    have hp : ∀ l, passesIn (ly :: l) = ly.numpasses + passesIn l := fun l => by simp [passesIn]
    refine ⟨ly :: ls, ?_, by simp [g2], by rw [hp]; omega, fun ⟨x, hx, hall⟩ => ?_, fun l ly' hl hne => ?_⟩
    · unfold makeLayers
      rw [h1, Option.bind_some]
      simp only [g1, Option.map_some]
    · rw [hp]
      cases cs with
      | nil =>
        simp only [List.getLast?_singleton, Option.some.injEq] at hx
        subst hx
        simp only [makeLayers, Option.some.injEq] at g1
        subst g1
        have := h4 hall
        simp only [passesIn, List.map_nil, List.sum_nil]
        omega
      | cons c' cs' =>
        have := g4 ⟨x, by rw [List.getLast?_cons_cons] at hx; exact hx, hall⟩
        omega
    · cases l with
      | zero =>
        simp only [List.getElem?_cons_zero, Option.some.injEq] at hl
        subst hl
        obtain ⟨a1, a2⟩ := h5 hne
        rw [List.take_zero, List.take_succ_cons, List.take_zero, hp]
        refine ⟨by simpa [passesIn] using a1, ?_⟩
        rw [a2]; congr 2; simp [passesIn]; omega
      | succ l =>
        rw [List.getElem?_cons_succ] at hl
        obtain ⟨a1, a2⟩ := g5 l ly' hl hne
        rw [List.take_succ_cons, List.take_succ_cons, hp, hp, ← Nat.add_assoc, ← Nat.add_assoc, h2]
        exact ⟨a1, a2⟩

theorem finish_cum {mem : List UInt8} {start hi : Nat} (hmem : mem.length < 2 ^ 32) : ∀ (ps : List Pass) {lo prev : Nat} {out : List Pass}, T1.Asc lo ps hi →
    prev ≤ T1.fin mem start lo → T1.finishRates mem start prev ps = some out →
    ∀ i p, out[i]? = some p → p.rate = prev + size (out.take (i + 1)) := by
  intro ps
  induction ps with
  | nil => intro lo prev out _ _ h i p hp; simp [T1.finishRates] at h; subst h; simp at hp
  | cons p l ih =>
    intro lo prev out ha h1 h i q hq
    unfold T1.finishRates at h
    split at h
    · simp at h
    rename_i h0
    rw [Option.bind_eq_some_iff] at h
    obtain ⟨b, hb, h⟩ := h
    have hlt : start + (p.rate - 1) < mem.length := (List.getElem?_eq_some_iff.mp hb).1
    have hr : (if b = 255 then p.rate - 1 else p.rate) = T1.fin mem start p.rate := by
      unfold T1.fin
      rw [hb]
      by_cases hb' : b = 255 <;> simp [hb']
    have hmono := T1.fin_mono (mem := mem) (start := start) ha.1
    dsimp only at h
    rw [hr, Option.map_eq_some_iff] at h
    obtain ⟨l', h3, h4⟩ := h
    have hle : T1.fin mem start p.rate ≤ p.rate := by
      unfold T1.fin; split <;> omega
    have g := ih ha.2 (Nat.le_refl _) h3
    subst h4
    generalize T1.fin mem start p.rate = r at *
    have hlen : (2 ^ 32 + r - prev) % 2 ^ 32 = r - prev := by omega
    cases i with
    | zero =>
      simp only [List.getElem?_cons_zero, Option.some.injEq] at hq
      subst hq
      simp only [List.take_succ_cons, List.take_zero, size, List.map_cons, List.map_nil, List.sum_cons, List.sum_nil, hlen]
      omega
    | succ i =>
      rw [List.getElem?_cons_succ] at hq
      have := g i q hq
      rw [this, List.take_succ_cons]
      simp only [size, List.map_cons, List.sum_cons, hlen]
      omega

/-- The rates `opj_t1_encode_cblk` leaves are those of its passes, and the buffer keeps its length. -/
theorem coded_cum {o w h : Nat} {st : T1.Style} {data : List Int} {mem : List UInt8} {start : Nat} {c : T1.Coded} (hroom : mem.length + 4 ≤ 2 ^ 32)
    (hr : ∀ x ∈ data, -2 ^ 31 ≤ x ∧ x < 2 ^ 31) (he : T1.encodeCblk o w h st data mem start = some c) :
    Cum c.passes ∧ c.mem.length = mem.length := by
  unfold T1.encodeCblk at he
  split at he
  · simp at he
  dsimp only at he
  have hcase := T1.numbps_cases hr
  generalize T1.numbpsOf ((data.map T1.magOf).foldl max 0) = n at he hcase
  split at he
  · injection he with he; subst he; exact ⟨fun i p h => by simp at h, rfl⟩
  split at he
  · injection he with he; subst he; exact ⟨fun i p h => by simp at h, rfl⟩
  rename_i hn0 hnb
  clear hcase
  rw [Option.bind_eq_some_iff] at he
  obtain ⟨s0, hi, he⟩ := he
  rw [Option.bind_eq_some_iff] at he
  obtain ⟨e, hl, he⟩ := he
  rw [Option.map_eq_some_iff] at he
  obtain ⟨out, hfin, he⟩ := he
  subst he
  dsimp only
  obtain ⟨i1, i2, i3, i4, i5⟩ := Mqc.initEnc_fresh hi
  have hd : ∀ i, (data.map T1.toSmr).getD i 0 < 2 ^ 32 := by
    intro i
    rw [List.getD_eq_getElem?_getD, List.getElem?_map]
    cases hg : data[i]? with
    | none => simp
    | some v =>
      obtain ⟨v1, v2⟩ := hr v (List.mem_of_getElem? hg)
      exact T1.smr_lt v1 v2
  obtain ⟨items, ps, h1, h2, h3⟩ := T1.encLoop_split (3 * n) n 2 hl
  dsimp only at h1 h2 h3
  obtain ⟨hchain, hbits⟩ := T1.trace_chain hd (3 * n) n 2 (by omega) h1
  have hil : items.length + 2 = 3 * n := by
    rcases T1.trace_len (3 * n) n 2 (by omega) h1 with h | h <;> omega
  have hrawh : ∀ x, items.head? = some x → x.raw = false := by
    intro x hx
    rcases T1.trace_head h1 with ⟨g1, g2⟩ | ⟨b, p, l, g1, g2, g3, g4⟩
    · rw [g2] at hx; simp at hx
    · rw [g2] at hx
      injection hx with hx
      rw [← hx, g3]
      unfold T1.rawE
      simp
  obtain ⟨segs', hok⟩ := T1.block_all (o := o) (w := w) (h := h) (n := n) hd i1 (by omega) i4 (by rw [i3]; exact hroom)
    (by intro h0; rw [h0] at hil; simp at hil; omega) hchain hrawh hbits h2
  rw [i3, i5] at hok
  have hmlen := hok.len
  obtain ⟨_, k4⟩ := clamp_terms (T1.numbytes32 e.s) e.passes
  refine ⟨fun i p hp => ?_, hmlen⟩
  have := finish_cum (by omega) _ k4 (Nat.zero_le _) hfin i p hp
  omega

end Jp2.T2

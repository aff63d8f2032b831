import Verif.Jp2.CodecMain
/-!
# Parts with packets have data
-/
namespace Jp2.Codec
open Jp2.Bio (flush byteout numbytes)

theorem byteout_pos {s s' : Bio.Bio} (h : byteout s = some (s', true)) : 0 < s'.bp ∧ s'.bp ≤ s'.mem.length := by
  unfold byteout at h
  simp only at h
  split at h
  · simp at h
  · rename_i hlt
    split at h
    · simp at h
    · rename_i mem hst
      simp only [Option.some.injEq, Prod.mk.injEq, and_true] at h
      subst h
      unfold Bio.store at hst
      split at hst
      · cases hst
        simp only [List.length_set]
        omega
      · cases hst

theorem flush_pos {s s' : Bio.Bio} (h : flush s = some (s', true)) : 0 < s'.bp ∧ s'.bp ≤ s'.mem.length := by
  unfold flush at h
  split at h
  · cases h
  · simp at h
  · rename_i t ht
    split at h
    · exact byteout_pos h
    · cases h
      exact byteout_pos ht

theorem packet_pos {csty packno layno : Nat} {bands : List T2.EncBand} {dest out : List UInt8} {bs : List T2.EncBand}
    (h : T2.encodePacket csty packno layno bands dest = .ok (out, bs)) : out ≠ [] := by
  unfold T2.encodePacket at h
  dsimp only at h
  have bo : ∀ {α β : Type} {x : Except T2.Err α} {f : α → Except T2.Err β} {r : β}, (x >>= f) = .ok r → ∃ a, x = .ok a ∧ f a = .ok r := by
    intro α β x f r h
    cases x with
    | error e => cases h
    | ok a => exact ⟨a, rfl, h⟩
  by_cases h0 : csty &&& 2 ≠ 0 ∧ dest.length < 6
  · rw [if_pos h0] at h
    obtain ⟨_, h', _⟩ := bo h; cases h'
  rw [if_neg h0] at h
  obtain ⟨_, _, h⟩ := bo h
  obtain ⟨_, _, h⟩ := bo h
  obtain ⟨⟨s, b⟩, _, h⟩ := bo h
  obtain ⟨⟨s, ok⟩, hfl, h⟩ := bo h
  dsimp only at h
  by_cases h1 : ok = false
  · rw [if_pos h1] at h
    obtain ⟨_, h', _⟩ := bo h; cases h'
  rw [if_neg h1] at h
  have ht : ok = true := by simpa using h1
  subst ht
  have hpos : 0 < s.bp ∧ s.bp ≤ s.mem.length := by
    unfold T2.ofOpt at hfl
    split at hfl
    · cases hfl
    · rename_i x hx
      cases hfl
      exact flush_pos hx
  have fin : ∀ (o1 o2 : List UInt8) (x : Except T2.Err (List UInt8 × Nat × List T2.EncBand)),
      (do let (o3, _, bands) ← x; return (o1 ++ s.mem.take (numbytes s) ++ o2 ++ o3, bands)) = Except.ok (out, bs) → out ≠ [] := by
    intro o1 o2 x hx
    obtain ⟨⟨o3, r, b3⟩, _, hx⟩ := bo hx
    cases hx
    intro hnil
    have := congrArg List.length hnil
    simp only [List.length_append, List.length_take, List.length_nil, numbytes] at this
    omega
  by_cases h2 : csty &&& 4 ≠ 0 ∧ dest.length - (if csty &&& 2 ≠ 0 then T2.sop packno else []).length - numbytes s < 2
  · rw [if_pos h2] at h
    obtain ⟨_, h', _⟩ := bo h; cases h'
  rw [if_neg h2] at h
  exact fin _ _ _ h

theorem packets_pos {csty ml : Nat} {p : Pi.Pkt} {ps : List Pi.Pkt} {pk pk' : Nat} {t t' : T2.EncTile} {dest out : List UInt8} {sizes : List Nat} (hl : p.layno < ml)
    (h : T2.encodePackets csty ml (p :: ps) pk t dest = .ok (out, sizes, pk', t')) : out ≠ [] := by
  unfold T2.encodePackets at h
  rw [if_pos hl] at h
  cases h1 : T2.encodePacket csty pk p.layno (t p.compno p.resno p.precno) dest with
  | error e => rw [h1] at h; cases h
  | ok r =>
    obtain ⟨o1, bs⟩ := r
    rw [h1] at h
    simp only [bind, Except.bind, pure, Except.pure] at h
    cases h2 : T2.encodePackets csty ml ps ((pk + 1) % 2 ^ 32) (t.set p bs) (dest.drop o1.length) with
    | error e => rw [h2] at h; cases h
    | ok r =>
      obtain ⟨o2, s2, pk2, t2⟩ := r
      rw [h2] at h
      cases h
      intro hnil
      exact packet_pos h1 (List.append_eq_nil_iff.1 hnil).1

/-- A coding whose first part has a packet begins with a byte. -/
theorem coding_first {m : Mode} {fuel : Nat} {S : Pipe.Setup} {flag : Option Pi.Letter} {plan : Nat → Nat → Nat → Nat → Nat → Pipe.Plan} {room : Nat → List UInt8}
    {junk : Nat → Nat → Int} {xs : List (List Int)} {K : Pipe.Coding} (h : Pipe.encodeTile m fuel S flag plan room junk xs = some K) {p : Pi.Pkt} {ps : List Pi.Pkt}
    {parts : List (List Pi.Pkt)} (hp : Pi.encodeParts m fuel S.pi flag S.n = some (some ((p :: ps) :: parts))) (hl : p.layno < S.layers) :
    K.parts.head? ≠ some [] := by
  unfold Pipe.encodeTile at h
  split at h
  · cases h
  · simp only [Option.bind_eq_some_iff] at h
    obtain ⟨ds, h1, E, h2, r, h3, parts', h4, h5⟩ := h
    subst h4
    rw [hp] at h3
    cases h3
    split at h5
    · cases h5
    · rename_i outs pk E' hen
      cases h5
      obtain ⟨rm, hrm⟩ : ∃ rm, (List.range ((p :: ps) :: parts).length).map room = room 0 :: rm := by
        rw [List.length_cons, List.range_succ_eq_map]
        exact ⟨_, rfl⟩
      rw [hrm, List.zip_cons_cons] at hen
      unfold T2.encodeTileParts at hen
      cases e1 : T2.encodePackets S.csty S.layers (p :: ps) 0 E (room 0) with
      | error x => rw [e1] at hen; cases hen
      | ok o =>
        obtain ⟨out, sizes, pk1, E1⟩ := o
        rw [e1] at hen
        change (T2.encodeTileParts S.csty S.layers (parts.zip rm) pk1 E1 >>= _) = _ at hen
        cases e2 : T2.encodeTileParts S.csty S.layers (parts.zip rm) pk1 E1 with
        | error x => rw [e2] at hen; cases hen
        | ok o2 =>
          obtain ⟨rest, pk2, E2⟩ := o2
          rw [e2] at hen
          cases hen
          simp only [List.map_cons, List.head?_cons, ne_eq, Option.some.injEq]
          exact packets_pos hl e1

/-- The first part of a tile that starts with a packet is not empty. -/
theorem first_full {S : Pipe.Setup} {flag : Option Pi.Letter} (hsend : Pipe.Sends S flag) (hst : Starts S flag) (m : Mode) :
    ∃ F, ∀ fuel, F ≤ fuel → ∀ (plan : Nat → Nat → Nat → Nat → Nat → Pipe.Plan) (room : Nat → List UInt8) (junk : Nat → Nat → Int) (xs : List (List Int)) (K : Pipe.Coding),
      Pipe.encodeTile m fuel S flag plan room junk xs = some K → K.parts.head? ≠ some [] := by
  obtain ⟨q, hq, hflag⟩ := hst
  have hmem : ∀ k, k ∈ Pi.Spec.order (Pi.Spec.tileRect S.pi S.n) S.pi.comps (Pi.Spec.whole S.pi) S.pi.prg ↔
      Pi.Spec.IsPacket (Pi.Spec.tileRect S.pi S.n) S.pi.comps (Pi.Spec.whole S.pi) k := fun k => Pi.mem_order hsend.params.tile (Pi.Spec.whole S.pi) ⟨hsend.order.1, hsend.order.2.1⟩ k
  have hfirst : ∃ F, ∀ fuel, F ≤ fuel → ∃ p ps parts, Pi.encodeParts m fuel S.pi flag S.n = some (some ((p :: ps) :: parts)) ∧ p.layno < S.layers := by
    rcases hsend.flag with ⟨rfl, h2⟩ | ⟨f, rfl, hf, hu⟩
    · obtain ⟨F, hF⟩ := Pi.C51_same_packets_partial m S.pi S.n hsend.params hsend.index hsend.layers.1 rfl hsend.order h2
      refine ⟨F, fun fuel hfu => ?_⟩
      rw [(hF fuel hfu).1]
      cases ho : Pi.Spec.order (Pi.Spec.tileRect S.pi S.n) S.pi.comps (Pi.Spec.whole S.pi) S.pi.prg with
      | nil =>
        have := (hmem q).2 hq
        rw [ho] at this
        simp at this
      | cons p ps =>
        refine ⟨p, ps, [], rfl, ?_⟩
        have := (hmem p).1 (by rw [ho]; simp)
        exact this.2.1
    · obtain ⟨N, F, hF⟩ := Pi.C51_tile_parts_partial m S.pi S.n hsend.params hsend.index hsend.layers.1 rfl hsend.order f hf hu
      obtain ⟨F2, hF2⟩ := Pi.C37_order_partial m S.pi S.n hsend.params hsend.index rfl hsend.order
      have hin := (hmem q).2 hq
      have hN : 0 < N := by
        have h1 := (hF (max F F2) (Nat.le_max_left _ _)).2
        rw [hF2 (max F F2) (Nat.le_max_right _ _)] at h1
        injection h1 with h1
        injection h1 with h1
        rcases Nat.eq_zero_or_pos N with h0 | h0
        · rw [h0] at h1
          rw [h1] at hin
          simp at hin
        · exact h0
      refine ⟨F, fun fuel hfu => ?_⟩
      rw [(hF fuel hfu).1]
      obtain ⟨M, rfl⟩ : ∃ M, N = M + 1 := ⟨N - 1, by omega⟩
      rw [List.range_succ_eq_map, List.map_cons]
      have hq0 : q ∈ (Pi.Spec.order (Pi.Spec.tileRect S.pi S.n) S.pi.comps (Pi.Spec.whole S.pi) S.pi.prg).filter fun k => f.of k = 0 := by
        rw [List.mem_filter]
        exact ⟨hin, by simpa using hflag f rfl⟩
      cases ho : (Pi.Spec.order (Pi.Spec.tileRect S.pi S.n) S.pi.comps (Pi.Spec.whole S.pi) S.pi.prg).filter fun k => f.of k = 0 with
      | nil => rw [ho] at hq0; simp at hq0
      | cons p ps =>
        refine ⟨p, ps, _, rfl, ?_⟩
        have : p ∈ (Pi.Spec.order (Pi.Spec.tileRect S.pi S.n) S.pi.comps (Pi.Spec.whole S.pi) S.pi.prg).filter fun k => f.of k = 0 := by rw [ho]; simp
        exact ((hmem p).1 (List.mem_filter.1 this).1).2.1
  obtain ⟨F, hF⟩ := hfirst
  refine ⟨F, fun fuel hfu plan room junk xs K hK => ?_⟩
  obtain ⟨p, ps, parts, h1, h2⟩ := hF fuel hfu
  exact coding_first hK h1 h2

end Jp2.Codec

import Verif.Jp2.T2Skip
import Verif.Jp2.T2SkipSpec
/-!
# Helpers for C49: skipping packets of a tile
-/
namespace Jp2.T2
open Jp2.Bio Jp2.Tgt

/-- One step of `decodePackets_safe`. -/
theorem onePacket_safe {m : Mode} {csty : Nat} {sty : Nat → Nat} {strict : Bool} {want : Want} (p : Pi.Pkt) (ps : List Pi.Pkt) (lv : List Pi.Pkt → Nat × Nat × Nat → Nat)
    (hle : ∀ p ps q, lv ps q ≤ lv (p :: ps) q)
    (hread : want.skips p = false → lv (p :: ps) (key p) ≠ 1 ∧ (2 ≤ lv (p :: ps) (key p) → strict = true))
    (hskip : want.skips p = true → lv ps (key p) ≤ 1)
    (B : Nat × Nat × Nat → Nat) (hB : B (key p) + 164 < 2 ^ 32)
    (packed : Option (List UInt8)) (t : Tile) (src : List UInt8) (hs : src.length + 16 < 2 ^ 29) (hp : ∀ a, packed = some a → a.length + 16 < 2 ^ 29)
    (ht : TileIs m (fun q => Ready (lv (p :: ps) q) (sty q.1) (B q)) t) :
    Safe (fun r => r.1 ≤ src.length ∧ (∀ a, r.2.1 = some a → a.length + 16 < 2 ^ 29) ∧
      TileIs m (fun q => Ready (lv ps q) (sty q.1) (B q + if key p = q then 164 else 0)) (t.set p r.2.2))
      (onePacket csty sty strict want p packed t src) := by
  have step : Safe (fun r : Nat × Option (List UInt8) × List DecBand => r.1 ≤ src.length ∧ Shrinks packed r.2.1 ∧
      r.2.2.length = (t p.compno p.resno p.precno).length ∧ ∀ b ∈ r.2.2, BandIs m (Ready (lv ps (key p)) (sty p.compno) (B (key p) + 164)) b)
      (onePacket csty sty strict want p packed t src) := by
    unfold onePacket
    have hb := ht p.compno p.resno p.precno
    split
    · rename_i hsk
      exact skipPacket_safe (by omega) (hskip hsk) strict csty p.layno packed _ src hs hp
        fun b hb' => (hb b hb').mono fun c hc => hc.down (hle p ps (key p))
    · rename_i hsk
      obtain ⟨h1, h2⟩ := hread (by simpa using hsk)
      refine Safe.mono (decodePacket_safe (B := B (key p)) (by omega) strict h1 h2 csty p.layno packed _ src hs hp hb) fun r hr => ?_
      exact ⟨hr.1, hr.2.1, hr.2.2.1, fun b hb' => (hr.2.2.2 b hb').mono fun c hc => hc.down (hle p ps (key p))⟩
  refine Safe.mono step fun r hr => ?_
  obtain ⟨e1, e2, e3, e4⟩ := hr
  refine ⟨e1, fun a ha => ?_, fun c r k b hb => ?_⟩
  · cases packed with
    | none => rw [ha] at e2; exact e2.elim
    | some a0 =>
      rw [ha] at e2
      obtain ⟨k, k1, k2⟩ := e2
      have := hp a0 rfl
      rw [k2, List.length_drop]; omega
  · by_cases hk : key p = (c, r, k)
    · rw [tile_set_of hk] at hb
      dsimp only
      rw [if_pos hk, ← hk]
      have hc : c = p.compno := by simp only [key, Prod.mk.injEq] at hk; exact hk.1.symm
      rw [hc]
      exact e4 b hb
    · rw [tile_set_ne hk] at hb
      dsimp only
      rw [if_neg hk]
      exact (ht c r k b hb).mono fun x hx => hx.down (hle p ps _)

/-- The packets of each precinct come in the order of the layers. -/
abbrev InLayerOrder (ps : List Pi.Pkt) : Prop :=
  ps.Pairwise fun p q => p.compno = q.compno ∧ p.resno = q.resno ∧ p.precno = q.precno → p.layno ≤ q.layno

theorem level_read {want : Want} {p : Pi.Pkt} {ps : List Pi.Pkt} (h : want.skips p = false) : level true want (p :: ps) (key p) = 2 := by
  unfold level
  rw [if_neg (by decide), if_pos ⟨p, by simp, rfl, h⟩]

/-- After a packet that is skipped, no packet of the precinct is read. -/
theorem no_more {want : Want} {p : Pi.Pkt} {ps : List Pi.Pkt} (h : InLayerOrder (p :: ps)) (hs : want.skips p = true) :
    ¬∃ q ∈ ps, key q = key p ∧ want.skips q = false := by
  rintro ⟨q, hq, hk, hns⟩
  simp only [key, Prod.mk.injEq] at hk
  have := (List.pairwise_cons.mp h).1 q hq ⟨hk.1.symm, hk.2.1.symm, hk.2.2.symm⟩
  unfold Want.skips at hs hns
  simp only [hk.1, hk.2.1, hk.2.2, Bool.or_eq_false_iff, decide_eq_false_iff_not] at hns
  simp only [hns.2, Bool.or_false, decide_eq_true_eq] at hs
  omega

theorem level_skip {want : Want} {p : Pi.Pkt} {ps : List Pi.Pkt} (h : InLayerOrder (p :: ps)) (hs : want.skips p = true) : level true want ps (key p) ≤ 1 := by
  unfold level
  rw [if_neg (by decide), if_neg (no_more h hs)]

def ShortTile (t : Tile) : Prop := ∀ c r k, ∀ b ∈ t c r k, b.empty = false → ∀ d ∈ b.prec.cblks, Short d.segs

theorem shown_kept {bs ds : List DecBand} (h : List.Forall₂ BandKept bs ds) : ds.map DecBand.shown = bs.map DecBand.shown := by
  induction h with
  | nil => rfl
  | @cons b d bs ds h _ ih =>
    rw [List.map_cons, List.map_cons, ih]
    congr 1
    unfold DecBand.shown
    rw [h.empty]
    split
    · rfl
    · rename_i he
      have := h.blks (by simpa using he)
      clear ih
      generalize b.prec.cblks = x at this
      generalize d.prec.cblks = y at this
      induction this with
      | nil => rfl
      | cons h1 _ ih => rw [List.map_cons, List.map_cons, ih, h1.view, h1.chunks]

theorem planes_eq {bs ds : List DecBand} (h : BandsEq bs ds) : bs.map DecBand.planes = ds.map DecBand.planes := by
  induction h with
  | nil => rfl
  | @cons b d bs ds h _ ih =>
    rw [List.map_cons, List.map_cons, ih]
    congr 1
    unfold DecBand.planes
    have := h.cblks
    clear ih
    generalize b.prec.cblks = x at this
    generalize d.prec.cblks = y at this
    induction this with
    | nil => rfl
    | cons h1 _ ih => rw [List.map_cons, List.map_cons, ih, h1.numbps]

theorem forall2_left {α : Type} {R : α → α → Prop} {l1 l2 : List α} (h : List.Forall₂ R l1 l2) : ∀ a ∈ l1, ∃ b ∈ l2, R a b := by
  induction h with
  | nil => simp
  | @cons a b l1 l2 h _ ih =>
    intro x hx
    rcases List.mem_cons.mp hx with rfl | hx
    · exact ⟨b, by simp, h⟩
    · obtain ⟨y, h1, h2⟩ := ih x hx
      exact ⟨y, by simp [h1], h2⟩

theorem SegsEq.short {a b : List Seg} (h : SegsEq a b) (hb : Short b) : Short a := by
  intro s hs
  obtain ⟨i, hi⟩ := List.mem_iff_getElem?.mp hs
  rcases h.cases i with ⟨e1, _⟩ | ⟨x, y, e1, e2, e3⟩
  · rw [e1] at hi; cases hi
  · rw [e1] at hi
    cases hi
    rw [(strip_fields e3).2.2.2]
    exact hb.get e2

/-- All three tiles: `t` with every packet, `u` of the decoder, `out` with those wanted. -/
structure Three (m : Mode) (sty : Nat → Nat) (want : Want) (ps : List Pi.Pkt) (B : Nat × Nat × Nat → Nat) (t u out : Tile) : Prop where
  alike : ∀ c r k, BandsEq (t c r k) (u c r k)
  shown : ∀ c r k, (u c r k).map DecBand.shown = (out c r k).map DecBand.shown
  same : ∀ c r k, (∃ p ∈ ps, key p = (c, r, k) ∧ want.skips p = false) → t c r k = u c r k ∧ u c r k = out c r k
  bare : ∀ p ∈ ps, p.layno = 0 → ∀ b ∈ u p.compno p.resno p.precno, Bare b
  short : ShortTile u
  ready : TileIs m (fun q => Ready (level true want ps q) (sty q.1) (B q)) u

theorem Three.pre {m : Mode} {sty : Nat → Nat} {want : Want} {ps : List Pi.Pkt} {B : Nat × Nat × Nat → Nat} {t u out : Tile} (h : Three m sty want ps B t u out) (c r k : Nat) :
    ∀ b ∈ u c r k, PreBand b := by
  intro b hb he d hd
  obtain ⟨_, _, _, _, _, h4⟩ := h.ready c r k b hb he
  exact ⟨(h4 d hd).real, (h4 d hd).range, h.short c r k b hb he d hd⟩

theorem decodePackets_keep {m : Mode} {csty : Nat} {sty : Nat → Nat} {want : Want} (ps : List Pi.Pkt) (hn : ps.Nodup) (ho : InLayerOrder ps)
    (B : Nat × Nat × Nat → Nat) (hB : ∀ q, B q + 164 * count ps q < 2 ^ 32)
    (packed : Option (List UInt8)) (t u out : Tile) (src : List UInt8) (hs : src.length + 16 < 2 ^ 29) (hp : ∀ a, packed = some a → a.length + 16 < 2 ^ 29)
    (ht : Three m sty want ps B t u out) :
    Alike (fun (x : Nat × Option (List UInt8) × Tile) (y : Nat × Option (List UInt8) × Tile × Tile) => x.1 = y.1 ∧ x.2.1 = y.2.1 ∧
      ∀ c r k, BandsEq (y.2.2.1 c r k) (x.2.2 c r k) ∧ (x.2.2 c r k).map DecBand.shown = (y.2.2.2 c r k).map DecBand.shown)
      (decodePackets csty sty true want ps packed u src) (keepWanted csty sty want ps packed t out src) := by
  induction ps generalizing packed t u out src B with
  | nil => exact ⟨rfl, rfl, fun c r k => ⟨ht.alike c r k, ht.shown c r k⟩⟩
  | cons p ps ih =>
    unfold decodePackets keepWanted
    have hBp := hB (key p)
    rw [count_cons, if_pos rfl] at hBp
    have hsafe := onePacket_safe (m := m) (csty := csty) (sty := sty) (strict := true) (want := want) p ps (level true want) (level_le true want)
      (fun h => by rw [level_read h]; exact ⟨by omega, fun _ => rfl⟩) (level_skip ho) B (by omega) packed u src hs hp ht.ready
    have hpre := ht.pre p.compno p.resno p.precno
    have hbare := ht.bare p (by simp)
    -- both agree on this packet
    have step : Alike (fun x y : Nat × Option (List UInt8) × List DecBand => x.1 = y.1 ∧ x.2.1 = y.2.1 ∧
        Three m sty want ps (fun q => B q + if key p = q then 164 else 0) (t.set p y.2.2) (u.set p x.2.2) (if want.skips p then out else out.set p y.2.2) ∧
        x.1 ≤ src.length ∧ ∀ a, x.2.1 = some a → a.length + 16 < 2 ^ 29)
        (onePacket csty sty true want p packed u src) (decodePacket csty (sty p.compno) p.layno true packed (t p.compno p.resno p.precno) src) := by
      have first : ∀ q ∈ ps, key q = key p → q.layno = 0 → False := by
        intro q hq hk h0
        have hk' := hk
        simp only [key, Prod.mk.injEq] at hk
        have h1 := (List.pairwise_cons.mp ho).1 q hq ⟨hk.1.symm, hk.2.1.symm, hk.2.2.symm⟩
        have : p = q := by
          cases p; cases q
          simp only [Pi.Pkt.mk.injEq] at *
          omega
        subst this
        exact (List.nodup_cons.mp hn).1 hq
      have rest : ∀ (x y : List DecBand) (o' : Tile), BandsEq y x → x.map DecBand.shown = (o' p.compno p.resno p.precno).map DecBand.shown →
          (∀ c r k, key p ≠ (c, r, k) → o' c r k = out c r k) →
          ((∃ q ∈ ps, key q = key p ∧ want.skips q = false) → y = x ∧ x = o' p.compno p.resno p.precno) →
          (∀ b ∈ x, b.empty = false → ∀ d ∈ b.prec.cblks, Short d.segs) →
          TileIs m (fun q => Ready (level true want ps q) (sty q.1) (B q + if key p = q then 164 else 0)) (u.set p x) →
          Three m sty want ps (fun q => B q + if key p = q then 164 else 0) (t.set p y) (u.set p x) o' := by
        intro x y o' a1 a2 a3 a4 a5 a6
        refine ⟨fun c r k => ?_, fun c r k => ?_, fun c r k hex => ?_, fun q hq h0 b hb => ?_, fun c r k b hb => ?_, a6⟩
        · by_cases hk : key p = (c, r, k)
          · rw [tile_set_of hk, tile_set_of hk]; exact a1
          · rw [tile_set_ne hk, tile_set_ne hk]; exact ht.alike c r k
        · by_cases hk : key p = (c, r, k)
          · rw [tile_set_of hk, a2]
            simp only [key, Prod.mk.injEq] at hk
            rw [hk.1, hk.2.1, hk.2.2]
          · rw [tile_set_ne hk, a3 c r k hk]; exact ht.shown c r k
        · by_cases hk : key p = (c, r, k)
          · rw [tile_set_of hk, tile_set_of hk]
            rw [← hk] at hex
            have := a4 hex
            simp only [key, Prod.mk.injEq] at hk
            rw [hk.1, hk.2.1, hk.2.2] at this
            exact this
          · rw [tile_set_ne hk, tile_set_ne hk, a3 c r k hk]
            obtain ⟨q, hq, h⟩ := hex
            exact ht.same c r k ⟨q, by simp [hq], h⟩
        · by_cases hk : key p = (q.compno, q.resno, q.precno)
          · exact (first q hq hk.symm h0).elim
          · rw [tile_set_ne hk] at hb
            exact ht.bare q (by simp [hq]) h0 b hb
        · by_cases hk : key p = (c, r, k)
          · rw [tile_set_of hk] at hb; exact a5 b hb
          · rw [tile_set_ne hk] at hb; exact ht.short c r k b hb
      by_cases hsk : want.skips p = true
      · have h1 := packet_alike csty (sty p.compno) p.layno packed (t p.compno p.resno p.precno) (u p.compno p.resno p.precno) src (by omega)
          (ht.alike _ _ _) hpre hbare
        have h2 := skipPacket_kept csty (sty p.compno) p.layno true packed (u p.compno p.resno p.precno) src hpre hbare
        unfold onePacket at hsafe ⊢
        rw [if_pos hsk] at hsafe ⊢
        simp only [if_pos hsk]
        revert h1 h2 hsafe
        generalize decodePacket csty (sty p.compno) p.layno true packed (t p.compno p.resno p.precno) src = X
        generalize skipPacket csty (sty p.compno) p.layno true packed (u p.compno p.resno p.precno) src = Y
        intro hsafe h1 h2
        cases X with
        | error e => cases Y with
          | error f => exact h1.symm
          | ok _ => exact h1.elim
        | ok x => cases Y with
          | error f => exact h1.elim
          | ok y =>
            obtain ⟨a1, a2, a3⟩ := h1
            have h2 := h2 y rfl
            obtain ⟨b1, b2, b3⟩ := hsafe
            refine ⟨a1.symm, a2.symm, rest y.2.2 x.2.2 out a3 ?_ (fun _ _ _ _ => rfl) (fun h => absurd h (no_more ho hsk)) ?_ b3, b1, b2⟩
            · rw [shown_kept h2]; exact ht.shown _ _ _
            · intro b hb he d hd
              obtain ⟨b0, _, h3⟩ := forall2_right h2 b hb
              obtain ⟨d0, _, h4⟩ := forall2_right (h3.blks (h3.empty.symm.trans he)) d hd
              exact h4.segs.short
      · have hsk' : want.skips p = false := by simpa using hsk
        obtain ⟨e1, e2⟩ := ht.same p.compno p.resno p.precno ⟨p, by simp, rfl, hsk'⟩
        have h1 := packet_alike csty (sty p.compno) p.layno packed (u p.compno p.resno p.precno) (u p.compno p.resno p.precno) src (by omega)
          (forall2_refl BandEq.refl _) hpre hbare
        have h2 := skipPacket_kept csty (sty p.compno) p.layno true packed (u p.compno p.resno p.precno) src hpre hbare
        unfold onePacket at hsafe ⊢
        rw [if_neg hsk] at hsafe ⊢
        simp only [if_neg hsk]
        rw [e1]
        revert h1 h2 hsafe
        generalize decodePacket csty (sty p.compno) p.layno true packed (u p.compno p.resno p.precno) src = X
        generalize skipPacket csty (sty p.compno) p.layno true packed (u p.compno p.resno p.precno) src = Y
        intro hsafe h1 h2
        cases X with
        | error e => rfl
        | ok x => cases Y with
          | error f => exact h1.elim
          | ok y =>
            obtain ⟨a1, a2, a3⟩ := h1
            have h2 := h2 y rfl
            obtain ⟨b1, b2, b3⟩ := hsafe
            have hset : (out.set p x.2.2) p.compno p.resno p.precno = x.2.2 := tile_set_of rfl
            refine ⟨rfl, rfl, rest x.2.2 x.2.2 (out.set p x.2.2) (forall2_refl BandEq.refl _) (by rw [hset]) (fun c r k h => tile_set_ne h)
              (fun _ => ⟨rfl, hset.symm⟩) ?_ b3, b1, b2⟩
            intro b hb he d hd
            obtain ⟨b', hb', h3⟩ := forall2_left a3 b hb
            obtain ⟨d', hd', h4⟩ := forall2_left h3.cblks d hd
            obtain ⟨b0, _, h5⟩ := forall2_right h2 b' hb'
            obtain ⟨d0, _, h6⟩ := forall2_right (h5.blks (h5.empty.symm.trans (h3.empty.symm.trans he))) d' hd'
            exact h4.segs.short h6.segs.short
    refine Alike.bind step ?_
    rintro ⟨n, pk, x⟩ ⟨n', pk', y⟩ ⟨a1, a2, a3, a4, a5⟩
    dsimp only at a1 a2 a3 a4 a5 ⊢
    subst a1
    subst a2
    refine Alike.bind (ih (List.nodup_cons.mp hn).2 (List.pairwise_cons.mp ho).2 (fun q => B q + if key p = q then 164 else 0) ?_ pk _ _ _ (src.drop n) ?_ a5 a3) ?_
    · intro q
      have := hB q
      rw [count_cons] at this
      split at this
      · rw [if_pos (by assumption)]; omega
      · rw [if_neg (by assumption)]; omega
    · rw [List.length_drop]; omega
    · rintro ⟨k1, pk1, t1⟩ ⟨k2, pk2, t2, o2⟩ ⟨b1, b2, b3⟩
      exact ⟨congrArg (n + ·) b1, b2, b3⟩

end Jp2.T2

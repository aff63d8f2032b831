import Verif.Jp2.T2SafeBody
import Verif.Jp2.T2Loop
/-!
# Helpers for C47: the packets of a tile from any bytes
-/
namespace Jp2.T2
open Jp2.Bio Jp2.Tgt

abbrev key (p : Pi.Pkt) : Nat × Nat × Nat := (p.compno, p.resno, p.precno)

theorem tile_set_of {t : Tile} {p : Pi.Pkt} {bs : List DecBand} {c r k : Nat} (h : key p = (c, r, k)) : t.set p bs c r k = bs := by
  simp only [key, Prod.mk.injEq] at h
  unfold Tile.set
  rw [if_pos ⟨h.1.symm, h.2.1.symm, h.2.2.symm⟩]

theorem tile_set_ne {t : Tile} {p : Pi.Pkt} {bs : List DecBand} {c r k : Nat} (h : key p ≠ (c, r, k)) : t.set p bs c r k = t c r k := by
  simp only [key, ne_eq, Prod.mk.injEq, not_and] at h
  unfold Tile.set
  rw [if_neg fun e => h e.1.symm e.2.1.symm e.2.2.symm]

/-- The packets of one precinct. -/
def count (ps : List Pi.Pkt) (q : Nat × Nat × Nat) : Nat := (ps.filter fun p => decide (key p = q)).length

theorem count_cons (p : Pi.Pkt) (ps : List Pi.Pkt) (q : Nat × Nat × Nat) : count (p :: ps) q = count ps q + if key p = q then 1 else 0 := by
  unfold count
  rw [List.filter_cons]
  by_cases h : key p = q
  · rw [if_pos (by simpa using h), if_pos h]; rfl
  · rw [if_neg (by simpa using h), if_neg h]; rfl

theorem BandIs.mono {m : Mode} {P Q : DecCblk → Prop} {b : DecBand} (h : BandIs m P b) (hpq : ∀ c, P c → Q c) : BandIs m Q b := by
  intro he
  obtain ⟨h1, w, h', h2, h3, h4⟩ := h he
  exact ⟨h1, w, h', h2, h3, fun c hc => hpq c (h4 c hc)⟩

/-- The level a precinct must have: 0 if not strict; otherwise 2 if one of its packets is still to be read. -/
def level (strict : Bool) (w : Want) (ps : List Pi.Pkt) (q : Nat × Nat × Nat) : Nat :=
  if strict = false then 0 else if ∃ p ∈ ps, key p = q ∧ w.skips p = false then 2 else 1

theorem level_le (strict : Bool) (w : Want) (p : Pi.Pkt) (ps : List Pi.Pkt) (q : Nat × Nat × Nat) : level strict w ps q ≤ level strict w (p :: ps) q := by
  unfold level
  split
  · omega
  · by_cases h : ∃ p ∈ ps, key p = q ∧ w.skips p = false
    · rw [if_pos h, if_pos]
      obtain ⟨x, h1, h2⟩ := h
      exact ⟨x, by simp [h1], h2⟩
    · rw [if_neg h]; split <;> omega

/-- All bands of a tile. -/
def TileIs (m : Mode) (P : Nat × Nat × Nat → DecCblk → Prop) (t : Tile) : Prop := ∀ c r k, ∀ b ∈ t c r k, BandIs m (P (c, r, k)) b

theorem decodePackets_safe {m : Mode} {csty : Nat} {sty : Nat → Nat} {strict : Bool} {want : Want} (ps : List Pi.Pkt) (lv : List Pi.Pkt → Nat × Nat × Nat → Nat)
    (hle : ∀ p ps q, lv ps q ≤ lv (p :: ps) q)
    (hread : ∀ p ps, want.skips p = false → lv (p :: ps) (key p) ≠ 1 ∧ (2 ≤ lv (p :: ps) (key p) → strict = true))
    (good : List Pi.Pkt → Prop) (hgood : ∀ p ps, good (p :: ps) → good ps)
    (hskip : ∀ p ps, good (p :: ps) → want.skips p = true → lv ps (key p) ≤ 1) (hg : good ps)
    (B : Nat × Nat × Nat → Nat) (hB : ∀ q, B q + 164 * count ps q < 2 ^ 32)
    (packed : Option (List UInt8)) (t : Tile) (src : List UInt8) (hs : src.length + 16 < 2 ^ 29) (hp : ∀ a, packed = some a → a.length + 16 < 2 ^ 29)
    (ht : TileIs m (fun q => Ready (lv ps q) (sty q.1) (B q)) t) :
    Safe (fun r => r.1 ≤ src.length ∧ Shrinks packed r.2.1 ∧ (∀ c q k, (r.2.2 c q k).length = (t c q k).length) ∧
      TileIs m (fun q => Ready (lv [] q) (sty q.1) (B q + 164 * count ps q)) r.2.2)
      (decodePackets csty sty strict want ps packed t src) := by
  induction ps generalizing packed t src B with
  | nil =>
    refine ⟨Nat.zero_le _, ?_, fun _ _ _ => rfl, ht⟩
    cases packed with
    | none => trivial
    | some a => exact ⟨0, Nat.zero_le _, (List.drop_zero).symm⟩
  | cons p ps ih =>
    unfold decodePackets
    have hBp := hB (key p)
    rw [count_cons, if_pos rfl] at hBp
    have step : Safe (fun r : Nat × Option (List UInt8) × List DecBand => r.1 ≤ src.length ∧ Shrinks packed r.2.1 ∧
        r.2.2.length = (t p.compno p.resno p.precno).length ∧ ∀ b ∈ r.2.2, BandIs m (Ready (lv ps (key p)) (sty p.compno) (B (key p) + 164)) b)
        (onePacket csty sty strict want p packed t src) := by
      unfold onePacket
      have hb := ht p.compno p.resno p.precno
      split
      · rename_i hsk
        exact skipPacket_safe (by omega) (hskip p ps hg hsk) strict csty p.layno packed _ src hs hp
          fun b hb' => (hb b hb').mono fun c hc => hc.down (hle p ps (key p))
      · rename_i hsk
        obtain ⟨h1, h2⟩ := hread p ps (by simpa using hsk)
        refine Safe.mono (decodePacket_safe (B := B (key p)) (by omega) strict h1 h2 csty p.layno packed _ src hs hp hb) fun r hr => ?_
        exact ⟨hr.1, hr.2.1, hr.2.2.1, fun b hb' => (hr.2.2.2 b hb').mono fun c hc => hc.down (hle p ps (key p))⟩
    refine Safe.bind step ?_
    rintro ⟨n, packed1, bs⟩ ⟨e1, e2, e3, e4⟩
    dsimp only at e1 e2 e3 e4 ⊢
    have hp1 : ∀ a, packed1 = some a → a.length + 16 < 2 ^ 29 := by
      intro a ha
      cases packed with
      | none => rw [ha] at e2; exact e2.elim
      | some a0 =>
        rw [ha] at e2
        obtain ⟨k, k1, k2⟩ := e2
        have := hp a0 rfl
        rw [k2, List.length_drop]; omega
    refine Safe.bind (ih (hgood _ _ hg) (fun q => B q + if key p = q then 164 else 0) ?_ packed1 (t.set p bs) (src.drop n) ?_ hp1 ?_) ?_
    · intro q
      have := hB q
      rw [count_cons] at this
      split at this
      · rw [if_pos (by assumption)]; omega
      · rw [if_neg (by assumption)]; omega
    · rw [List.length_drop]; omega
    · intro c r k b hb
      by_cases hk : key p = (c, r, k)
      · rw [tile_set_of hk] at hb
        dsimp only
        rw [if_pos hk, ← hk]
        have hc : c = p.compno := by simp only [key, Prod.mk.injEq] at hk; exact hk.1.symm
        rw [hc]
        exact e4 b hb
      · rw [tile_set_ne hk] at hb
        dsimp only
        rw [if_neg hk]
        exact (ht c r k b hb).mono fun x hx => hx.down (hle p ps _)
    rintro ⟨j, packed2, t2⟩ ⟨f1, f2, f3, f4⟩
    dsimp only at f1 f2 f3 f4 ⊢
    rw [List.length_drop] at f1
    refine ⟨by show n + j ≤ _; omega, ?_, fun c r k => ?_, fun c r k b hb => (f4 c r k b hb).mono fun x hx => ?_⟩
    · cases packed with
      | none => cases packed1 with
        | none => exact f2
        | some _ => exact e2.elim
      | some a => cases packed1 with
        | none => exact e2.elim
        | some a1 =>
          obtain ⟨k, k1, k2⟩ := e2
          cases packed2 with
          | none => exact f2.elim
          | some a2 =>
            obtain ⟨k', k1', k2'⟩ := f2
            have hl : a1.length = a.length - k := by rw [k2, List.length_drop]
            exact ⟨k + k', by omega, by rw [k2', k2, List.drop_drop]⟩
    · rw [f3 c r k]
      by_cases hk : key p = (c, r, k)
      · rw [tile_set_of hk, e3]
        simp only [key, Prod.mk.injEq] at hk
        rw [hk.1, hk.2.1, hk.2.2]
      · rw [tile_set_ne hk]
    · dsimp only
      rw [count_cons]
      have : B (c, r, k) + (if key p = (c, r, k) then 164 else 0) + 164 * count ps (c, r, k) ≤
          B (c, r, k) + 164 * (count ps (c, r, k) + if key p = (c, r, k) then 1 else 0) := by split <;> omega
      exact hx.more this

theorem count_le {ps : List Pi.Pkt} (hn : ps.Nodup) {L : Nat} (hl : ∀ p ∈ ps, p.layno < L) (q : Nat × Nat × Nat) : count ps q ≤ L := by
  unfold count
  have h1 : ((ps.filter fun p => decide (key p = q)).map fun p => p.layno).Nodup := by
    apply List.Nodup.map_on
    · intro a ha b hb hab
      simp only [List.mem_filter, decide_eq_true_eq] at ha hb
      have := ha.2.trans hb.2.symm
      simp only [key, Prod.mk.injEq] at this
      cases a; cases b; simp_all
    · exact hn.filter _
  have h2 := (List.subperm_of_subset h1 (l₂ := List.range L) (fun x hx => by
    rw [List.mem_map] at hx
    obtain ⟨p, hp, rfl⟩ := hx
    exact List.mem_range.mpr (hl p (List.mem_filter.mp hp).1))).length_le
  simpa using h2

theorem newBand_ready {m : Mode} {lvl sty : Nat} {b : DecBand} (h : NewBand m b) : BandIs m (Ready lvl sty 0) b := by
  intro he
  obtain ⟨h1, w, h', h2, h3, h4, h5, h6⟩ := h he
  refine ⟨h1, w, h', h3, ⟨h2, h4, fun h0 => ?_⟩, fun c hc => ?_⟩
  · obtain ⟨k1, k2⟩ := h5 h0
    have hw : 0 < w := by rcases Nat.eq_zero_or_pos w with rfl | e; simp at h0; exact e
    have hh : 0 < h' := by rcases Nat.eq_zero_or_pos h' with rfl | e; simp at h0; exact e
    obtain ⟨hst, _⟩ := st_create m w h' _ _ hw hh h2 k1
    have tm : Tame b.prec.incl b.prec.incl := ⟨fun _ => rfl, fun i nd hi => hst.inv.v999 i nd hi⟩
    exact ⟨_, k1, tm, by rw [k2]; exact tm⟩
  · obtain ⟨k1, k2, k3⟩ := h6 c hc
    refine ⟨by omega, by omega, by omega, fun h => by omega, fun i sg h => by omega, fun _ => ?_, fun _ _ i p hp => ?_, fun _ _ => ⟨by omega, fun i sg h => by omega⟩⟩
    · rw [k1]; exact Nat.zero_le _
    · rw [k2] at hp; simp at hp

theorem Ready.view {lvl sty B : Nat} {c : DecCblk} (h : Ready lvl sty B c) : c.realNumSegs ≤ c.segs.length := Nat.le_trans h.real h.range

theorem claim_mono (segs : List Seg) {a b : Nat} (h : a ≤ b) : claim segs a ≤ claim segs b := by
  unfold claim
  have : segs.take b = segs.take a ++ (segs.take b).drop a := by
    have e : segs.take a = (segs.take b).take a := by rw [List.take_take, Nat.min_eq_left h]
    rw [e, List.take_append_drop]
  rw [this, List.map_append, List.sum_append]
  omega

theorem Ready.decodable {lvl sty B : Nat} {c : DecCblk} (h : Ready lvl sty B c) (hl : 1 ≤ lvl) : Decodable sty c := by
  refine ⟨h.view, ?_, fun h40 => ?_⟩
  · have h1 := h.enough hl
    have h2 := claim_mono c.segs h.real
    unfold claim held at *
    unfold DecCblk.view
    rw [List.map_map]
    exact Nat.le_trans h2 h1
  · have := h.aligned hl h40
    unfold DecCblk.view
    rw [List.map_map]
    exact this

end Jp2.T2

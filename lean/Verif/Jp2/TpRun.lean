import Verif.Jp2.TpSpec
import Verif.Jp2.TpSafe
import Verif.Jp2.HdrRound
/-!
# Reading well-formed tile-parts, one at a time
-/
namespace Jp2.Tp
open Jp2.Hdr (R User refuseIf be ok_bind refuse_bind next_be be_len)

/-! ## The stream at a known place -/

/-- The bytes ahead are `bs`, and the library knows where it is. -/
structure At (file : List UInt8) (s : Src) (bs : List UInt8) : Prop where
  data : s.data = file
  off : s.off = s.pos
  pos : s.pos ≤ file.length
  bs : file.drop s.pos = bs

theorem At.len {file : List UInt8} {s : Src} {bs : List UInt8} (h : At file s bs) : s.pos + bs.length = file.length := by
  have := h.pos
  rw [← h.bs, List.length_drop]; omega

theorem At.left {file : List UInt8} {s : Src} {bs : List UInt8} (h : At file s bs) : s.left = .ok bs.length := by
  have := h.len
  have := h.off
  unfold Src.left
  rw [h.data, if_pos (by omega)]
  congr 1; omega

theorem At.move {file : List UInt8} {s : Src} {a b : List UInt8} {n : Nat} (h : At file s (a ++ b)) (hn : a.length = n) :
    At file { s with pos := s.pos + n, off := s.off + n } b := by
  have hl := h.len
  rw [List.length_append] at hl
  refine ⟨h.data, by show s.off + n = s.pos + n; rw [h.off], by show s.pos + n ≤ _; omega, ?_⟩
  show file.drop (s.pos + n) = b
  rw [← List.drop_drop, h.bs, List.drop_left' hn]

theorem At.read {file : List UInt8} {s : Src} {a b : List UInt8} {n : Nat} (h : At file s (a ++ b)) (hn : a.length = n) :
    s.read n = (some a, { s with pos := s.pos + n, off := s.off + n }) := by
  have hl := h.len
  rw [List.length_append] at hl
  unfold Src.read
  rw [h.data, if_pos (by omega), h.bs, List.take_left' hn]

theorem At.load {file : List UInt8} {s : Src} {a b buf : List UInt8} {n : Nat} (h : At file s (a ++ b)) (hn : a.length = n) :
    s.load n buf = .ok (a ++ buf.drop n, { s with pos := s.pos + n, off := s.off + n }) := by
  unfold Src.load
  rw [h.read hn]

theorem At.skip {file : List UInt8} {s : Src} {a b : List UInt8} {n : Nat} (h : At file s (a ++ b)) (hn : a.length = n) :
    s.skip n = (true, { s with pos := s.pos + n, off := s.off + n }) := by
  have hl := h.len
  have ho := h.off
  rw [List.length_append] at hl
  unfold Src.skip
  rw [h.data, if_neg (by omega)]

theorem At.seek {file : List UInt8} {s0 s : Src} {a b : List UInt8} (h0 : At file s0 a) (h : At file s b) (hp : s0.pos ≤ s.pos) :
    s.seek s0.off = .ok s0 := by
  unfold Src.seek
  have h1 := h0.off
  have h2 := h.off
  rw [if_neg (by omega)]
  congr 1
  have : s.pos + s0.off - s.off = s0.pos := by omega
  rw [this]
  have := h.data
  have := h0.data
  cases s0; cases s; simp_all

/-! ## Segments of a tile-part header -/

/-- The marker a header goes on with. -/
def hd : List (Nat × List UInt8) → Nat
  | [] => 0xFF93
  | s :: _ => s.1

/-- What follows that marker. -/
def tlb : List (Nat × List UInt8) → List UInt8 → List UInt8
  | [], rest => rest
  | s :: l, rest => be 2 (s.2.length + 2) ++ (s.2 ++ (be 2 (hd l) ++ tlb l rest))

theorem hd_tlb (rest : List UInt8) : ∀ l : List (Nat × List UInt8),
    (l.flatMap fun s => Hdr.segment s.1 s.2) ++ (be 2 0xFF93 ++ rest) = be 2 (hd l) ++ tlb l rest
  | [] => rfl
  | s :: l => by
    rw [List.flatMap_cons, List.append_assoc, hd_tlb rest l]
    simp only [Hdr.segment, hd, tlb, List.append_assoc]

theorem hd_lt {u : User} {h : Hdr.Dec} {a b : Par} {l : List (Nat × List UInt8)} (r : SegsTo u h a l b) : hd l < 256 ^ 2 := by
  cases r with
  | nil => decide
  | cons st _ _ =>
    cases st with
    | plt _ _ => show 0xFF58 < 256 ^ 2; decide
    | ppt _ _ _ => show 0xFF61 < 256 ^ 2; decide
    | shared hm _ _ _ => exact hm

/-- Bytes of the segments. -/
def segLen (l : List (Nat × List UInt8)) : Nat := (l.flatMap fun s => Hdr.segment s.1 s.2).length

theorem segLen_cons (s : Nat × List UInt8) (l : List (Nat × List UInt8)) : segLen (s :: l) = s.2.length + 4 + segLen l := by
  unfold segLen
  rw [List.flatMap_cons, List.length_append]
  simp only [Hdr.segment, List.length_append, be_len]; omega

theorem pltLoop_zero (tail : List UInt8) : ∀ (l : List UInt8) (acc : Nat), (∀ x, l.getLast? = some x → x < 128) →
    pltLoop l.length (l ++ tail) acc = .ok (if l = [] then acc else 0)
  | [], acc, _ => by rfl
  | a :: l, acc, h => by
    have hn : Hdr.next 1 (a :: (l ++ tail)) = .ok (a.toNat, l ++ tail) := by
      have := next_be (nb := 1) (v := a.toNat) (l ++ tail) (by omega) (by have := a.toNat_lt; omega)
      rw [← this]
      congr 1
      simp [be, Cio.toBe]
    rw [List.length_cons, List.cons_append, pltLoop, hn, ok_bind]
    dsimp only
    have hl : ∀ x, l.getLast? = some x → x < 128 := by
      intro x hx
      refine h x ?_
      cases l with
      | nil => simp at hx
      | cons b l => rw [List.getLast?_cons_cons]; exact hx
    rw [if_neg (List.cons_ne_nil a l)]
    by_cases hl0 : l = []
    · subst hl0
      have ha := h a rfl
      have h7 : a.toNat &&& 0x80 = 0 := by
        have hlt : a.toNat < 128 := ha
        have : ∀ n < 128, n &&& 0x80 = 0 := by decide
        exact this _ hlt
      rw [if_neg (by omega)]
      rfl
    · split
      · rw [pltLoop_zero tail l _ hl, if_neg hl0]
      · rw [pltLoop_zero tail l _ hl, if_neg hl0]

/-! ## What a tile knows -/

/-- Packed headers of a tile, in the library's array. -/
structure PptIs (t : Tile) (a : Par) : Prop where
  flag : t.ppt = !a.ppts.isEmpty
  at_ : ∀ z, (t.ppts[z]?).getD none = a.ppts.lookup z
  len : t.ppts.length ≤ 256
  full : ∀ q ∈ a.ppts, q.2 ≠ []
  buf : t.pptBuf = none

theorem flat_pad (f : Nat → List UInt8) : ∀ (n : Nat) (l : List (Option (List UInt8))) (k : Nat), l.length ≤ n →
    (∀ z, ((l[z]?).getD none).getD [] = f (k + z)) →
    (l.flatMap fun m => m.getD []) = (List.range' k n).flatMap f
  | 0, l, k, h, _ => by
    have : l = [] := by cases l with | nil => rfl | cons a l => simp at h
    subst this; rfl
  | n + 1, l, k, h, hf => by
    rw [List.range'_succ, List.flatMap_cons]
    cases l with
    | nil =>
      have h0 : f k = [] := by have := hf 0; simpa using this.symm
      rw [h0, List.nil_append]
      have := flat_pad f n [] (k + 1) (by simp) (fun z => by have := hf (z + 1); rw [show k + 1 + z = k + (z + 1) by omega, ← this]; simp)
      rw [← this]
    | cons a l =>
      have h0 : a.getD [] = f k := by have := hf 0; simpa using this
      rw [List.flatMap_cons, h0, flat_pad f n l (k + 1) (by simp at h; omega)
        (fun z => by have := hf (z + 1); rw [show k + 1 + z = k + (z + 1) by omega, ← this]; simp)]

theorem lookup_ne {l : List (Nat × List UInt8)} {z : Nat} {x : List UInt8} (h : l.lookup z = some x) : (z, x) ∈ l := by
  induction l with
  | nil => simp at h
  | cons q l ih =>
    rw [List.lookup_cons] at h
    split at h
    · next e =>
      have : z = q.1 := by simpa using e
      injection h with h
      subst this; subst h
      exact List.mem_cons_self
    · exact List.mem_cons_of_mem _ (ih h)

theorem mergePpt_is {t : Tile} {a : Par} (h : PptIs t a) : ∃ t', mergePpt t = .ok t' ∧ t'.pptBuf = a.packed ∧ t'.data = t.data ∧
    t'.tcp = t.tcp := by
  unfold mergePpt Par.packed
  rw [refuse_bind (by rw [h.buf]; simp)]
  rw [h.flag]
  by_cases he : a.ppts = []
  · rw [he]
    exact ⟨t, rfl, h.buf, rfl, rfl⟩
  · have hb : a.ppts.isEmpty = false := by simpa using he
    rw [hb, if_neg (by decide), if_neg he]
    have hflat : (t.ppts.flatMap fun m => m.getD []) = (List.range 256).flatMap fun z => (a.ppts.lookup z).getD [] := by
      rw [List.range_eq_range']
      exact flat_pad (fun z => (a.ppts.lookup z).getD []) 256 t.ppts 0 h.len (fun z => by rw [h.at_ z, Nat.zero_add])
    have hne : (t.ppts.flatMap fun m => m.getD []) ≠ [] := by
      cases hl : a.ppts with
      | nil => exact absurd hl he
      | cons q l =>
        intro hnil
        have hx : a.ppts.lookup q.1 = some q.2 := by rw [hl, List.lookup_cons]; simp
        have hz := h.at_ q.1
        rw [hx] at hz
        have hz' : some q.2 ∈ t.ppts := by
          cases hg : t.ppts[q.1]? with
          | none => rw [hg] at hz; simp at hz
          | some y =>
            rw [hg] at hz
            have : y = some q.2 := by simpa using hz
            rw [this] at hg
            exact List.mem_of_getElem? hg
        have := List.flatMap_eq_nil_iff.mp hnil _ hz'
        exact h.full q (by rw [hl]; simp) (by simpa using this)
    dsimp only
    rw [refuse_bind hne]
    exact ⟨_, rfl, by rw [hflat], rfl, rfl⟩

/-! ## One header -/

theorem set_self {l : List Tile} {i : Nat} {t : Tile} (h : l[i]? = some t) : l.set i t = l := by
  obtain ⟨hi, rfl⟩ := List.getElem?_eq_some_iff.1 h
  exact List.set_getElem_self hi


theorem next_two (m : Nat) (hm : m < 256 ^ 2) (tail : List UInt8) : Hdr.next 2 (be 2 m ++ tail) = .ok (m, tail) :=
  next_be tail (by omega) hm

/-- The parameters of a tile and its packed headers are those of `a`; the rest of the tile is that of `t0`. -/
structure TileIs (t0 t : Tile) (a : Par) : Prop where
  tcp : t.tcp = a.tcp
  ppt : PptIs t a
  part : t.part = t0.part
  nb : t.nb = t0.nb
  data : t.data = t0.data

/-- The effect of one segment through the library's handler. -/
theorem handle_step {u : User} {h : Hdr.Dec} {a b : Par} {s : Nat × List UInt8} (st : SegStep u h a s b) {d : Dec} {t0 t : Tile}
    {tail : List UInt8} (hl : 1000 ≤ (s.2 ++ tail).length) (hh : d.h = { h with buf := s.2 ++ tail })
    (ht : d.tiles[d.cur]? = some t) (hi : TileIs t0 t a) :
    allowed .tph s.1 = true ∧ s.1 ≠ 0xFF93 ∧
    ∃ t', handle u s.1 d (s.2 ++ tail) s.2.length = .ok { d with tiles := d.tiles.set d.cur t' } ∧ TileIs t0 t' b := by
  cases st with
  | @plt body hne hlast =>
    refine ⟨show allowed .tph 0xFF58 = true by decide, show 0xFF58 ≠ 0xFF93 by decide, t, ?_, hi⟩
    dsimp only
    have he : handle u 0xFF58 d (body ++ tail) body.length = readPlt d (body ++ tail) body.length := by
      unfold handle; rw [if_neg (by decide), if_pos rfl]
    rw [he]
    have hset : ({ d with tiles := d.tiles.set d.cur t } : Dec) = d := by
      rw [set_self ht]
    rw [hset]
    cases body with
    | nil => exact absurd rfl hne
    | cons z l =>
      unfold readPlt
      rw [refuse_bind (by simp)]
      have hn : Hdr.next 1 (z :: (l ++ tail)) = .ok (z.toNat, l ++ tail) := by
        have := next_be (nb := 1) (v := z.toNat) (l ++ tail) (by omega) (by have := z.toNat_lt; omega)
        rw [← this]; congr 1; simp [be, Cio.toBe]
      rw [List.cons_append, hn, ok_bind]
      dsimp only
      rw [List.length_cons, Nat.add_sub_cancel, pltLoop_zero tail l 0 hlast, ok_bind, refuse_bind (by simp)]
      rfl
  | @ppt z x hppm hx hz =>
    refine ⟨show allowed .tph 0xFF61 = true by decide, show 0xFF61 ≠ 0xFF93 by decide, ?_⟩
    dsimp only
    have he : handle u 0xFF61 d (z :: x ++ tail) (z :: x).length = readPpt d (z :: x ++ tail) (z :: x).length := by
      unfold handle; rw [if_neg (by decide), if_neg (by decide), if_pos rfl]
    rw [he]
    unfold readPpt
    have hxl : 0 < x.length := List.length_pos_iff.2 hx
    have hn : Hdr.next 1 (z :: (x ++ tail)) = .ok (z.toNat, x ++ tail) := by
      have := next_be (nb := 1) (v := z.toNat) (x ++ tail) (by omega) (by have := z.toNat_lt; omega)
      rw [← this]; congr 1; simp [be, Cio.toBe]
    rw [refuse_bind (by simp; omega), refuse_bind (by rw [hh]; show ¬ h.ppm = true; rw [hppm]; decide), tileAt_ok ht, ok_bind,
      List.cons_append, hn, ok_bind]
    dsimp only
    have hp := hi.ppt
    have hzn := hp.at_ z.toNat
    rw [hz] at hzn
    obtain ⟨ms, hms⟩ : ∃ ms, ms = t.ppts ++ List.replicate (z.toNat + 1 - t.ppts.length) (none : Option (List UInt8)) := ⟨_, rfl⟩
    have hmsl : z.toNat < ms.length := by rw [hms]; simp; omega
    have hms256 : ms.length ≤ 256 := by
      have := hp.len
      have := z.toNat_lt
      rw [hms]; simp; omega
    have hmsat : ∀ k : Nat, (ms[k]?).getD none = (t.ppts[k]?).getD none := by
      intro k
      rw [hms, List.getElem?_append]
      split
      · rfl
      · next hk =>
        rw [List.getElem?_eq_none (l := t.ppts) (by omega), List.getElem?_replicate]
        split <;> rfl
    rw [← hms]
    have hget : ms[z.toNat]? = some none := by
      have := hmsat z.toNat
      rw [hzn, List.getElem?_eq_getElem hmsl] at this
      rw [List.getElem?_eq_getElem hmsl]
      simpa using this
    rw [hget]
    dsimp only
    have hb : Hdr.bytesAt ((z :: x).length - 1) (x ++ tail) = .ok x := by
      unfold Hdr.bytesAt
      rw [List.length_cons, Nat.add_sub_cancel, if_pos (by simp), List.take_left' rfl]
    rw [hb, ok_bind]
    refine ⟨_, rfl, ?_⟩
    refine ⟨hi.tcp, ⟨?_, ?_, ?_, ?_, hp.buf⟩, hi.part, hi.nb, hi.data⟩
    · show true = _
      simp
    · intro k
      show ((ms.set z.toNat (some x))[k]?).getD none = (a.ppts ++ [(z.toNat, x)]).lookup k
      rw [List.getElem?_set, List.lookup_append]
      by_cases hk : z.toNat = k
      · rw [if_pos hk, if_pos (by omega), ← hk, hz]
        simp
      · rw [if_neg hk, hmsat k, hp.at_ k]
        have : List.lookup k [(z.toNat, x)] = none := by
          rw [List.lookup_cons]
          have : (k == z.toNat) = false := by simp; omega
          rw [this]; rfl
        rw [this]; simp
    · show (ms.set z.toNat (some x)).length ≤ 256
      rw [List.length_set]; exact hms256
    · intro q hq
      rcases List.mem_append.mp hq with hq | hq
      · exact hp.full q hq
      · rw [List.mem_singleton.mp hq]; exact hx
  | @shared m body tcp hm hno hal hrun =>
    refine ⟨hal, ?_, ?_⟩
    · intro e; exact hno (by rw [← e]; simp)
    dsimp only at hl ⊢
    simp only [List.mem_cons, List.not_mem_nil, or_false, not_or] at hno
    have he : handle u m d (body ++ tail) body.length = handleShared u m d (body ++ tail) body.length := by
      unfold handle
      rw [if_neg hno.1, if_neg hno.2.1, if_neg hno.2.2.1]
    rw [he]
    unfold handleShared
    rw [tileAt_ok ht, ok_bind, hi.tcp]
    have hh2 : ({ d.h with tcp := a.tcp } : Hdr.Dec) = { h with buf := body ++ tail, tcp := a.tcp } := by rw [hh]
    rw [hh2, hrun _ _ hl, ok_bind]
    refine ⟨{ t with tcp := tcp }, ?_, ⟨rfl, ⟨hi.ppt.flag, hi.ppt.at_, hi.ppt.len, hi.ppt.full, hi.ppt.buf⟩, hi.part, hi.nb, hi.data⟩⟩
    have hb : ({ h with buf := body ++ tail, tcp := d.h.tcp } : Hdr.Dec) = d.h := by rw [hh]
    show Except.ok (put { d with h := { h with buf := body ++ tail, tcp := d.h.tcp } } { t with tcp := tcp }) = _
    rw [hb]
    rfl

theorem allowed_ne {d : Dec} {m : Nat} (h : allowed d.st m = true) : ¬ allowed d.st m = false := by rw [h]; decide

/-- The segments of a tile-part header, from behind the marker of the first. -/
theorem header_segs {u : User} {h : Hdr.Dec} {file rest : List UInt8} : ∀ {l : List (Nat × List UInt8)} {a b : Par},
    SegsTo u h a l b → ∀ {d : Dec} {s : Src} {t0 t : Tile} {fuel : Nat}, At file s (tlb l rest) → l.length < fuel →
    d.h = { h with buf := d.h.buf } → 1000 ≤ d.h.buf.length → d.st = .tph → d.skip = false →
    d.tiles[d.cur]? = some t → TileIs t0 t a →
    ∃ buf sot t' s', header u fuel (hd l) d s =
        .ok (0xFF93, { d with h := { h with buf := buf }, sot := sot, tiles := d.tiles.set d.cur t' }, s') ∧
      At file s' rest ∧ 1000 ≤ buf.length ∧ TileIs t0 t' b ∧
      (segLen l ≤ d.sot → d.sot < 2 ^ 32 → sot = d.sot - segLen l) := by
  intro l a b r
  induction r with
  | nil =>
    intro d s t0 t fuel hs hf hh hb hst hsk ht hi
    obtain ⟨f, rfl⟩ : ∃ f, fuel = f + 1 := ⟨fuel - 1, by simp at hf; omega⟩
    refine ⟨d.h.buf, d.sot, t, s, ?_, hs, hb, hi, fun _ _ => rfl⟩
    rw [header, hd, if_pos rfl, set_self ht, ← hh]
    rfl
  | @cons a sg b l c st hlen r ih =>
    intro d s t0 t fuel hs hf hh hb hst hsk ht hi
    obtain ⟨f, rfl⟩ : ∃ f, fuel = f + 1 := ⟨fuel - 1, by simp at hf; omega⟩
    obtain ⟨m, body⟩ := sg
    dsimp only [tlb] at hs hlen
    have hs1 := hs.move (n := 2) (be_len 2 _)
    have hs2 := hs1.move (n := body.length) rfl
    have hs3 := hs2.move (n := 2) (be_len 2 _)
    obtain ⟨buf1, hbuf1⟩ : ∃ x, x = be 2 (body.length + 2) ++ d.h.buf.drop 2 := ⟨_, rfl⟩
    have hb1 : 1000 ≤ buf1.length := by rw [hbuf1]; simp [be_len]; omega
    obtain ⟨buf2, hbuf2⟩ : ∃ x, x = body ++ buf1.drop body.length := ⟨_, rfl⟩
    have hb2 : 1000 ≤ buf2.length := by rw [hbuf2]; simp; omega
    obtain ⟨buf3, hbuf3⟩ : ∃ x, x = be 2 (hd l) ++ buf2.drop 2 := ⟨_, rfl⟩
    have hb3 : 1000 ≤ buf3.length := by rw [hbuf3]; simp [be_len]; omega
    obtain ⟨sot1, hsot1⟩ : ∃ x, x = (d.sot + (2 ^ 32 - (body.length + 2 + 2) % 2 ^ 32)) % 2 ^ 32 := ⟨_, rfl⟩
    obtain ⟨hal, hne, t', hh', hi'⟩ := handle_step st (d := { d with h := { h with buf := buf2 }, sot := sot1 }) (tail := buf1.drop body.length)
      (by dsimp only; rw [← hbuf2]; exact hb2) (by dsimp only; rw [← hbuf2]) ht hi
    dsimp only at hal hne hh'
    rw [← hst] at hal
    rw [← hbuf2] at hh'
    have hcur : d.cur < d.tiles.length := (List.getElem?_eq_some_iff.1 ht).1
    have hih := ih (d := { d with h := { h with buf := buf3 }, sot := sot1, tiles := d.tiles.set d.cur t' }) (fuel := f) hs3
      (by simp at hf; omega) rfl hb3 hst hsk (t := t') (by show (d.tiles.set d.cur t')[d.cur]? = _; simp [hcur]) hi'
    obtain ⟨buf, sot, t'', s', he, hs', hbl, hi'', hsot⟩ := hih
    refine ⟨buf, sot, t'', s', ?_, hs', hbl, hi'', ?_⟩
    · rw [header, hd, if_neg hne, hs.left, ok_bind, if_neg (by simp [be_len]), hs.load (be_len 2 _), ok_bind]
      dsimp only
      rw [next_two _ (by omega), ok_bind]
      dsimp only
      rw [refuse_bind (by omega), hs1.left, ok_bind, if_neg (by simp [be_len])]
      have hseg : ∀ X : Nat × Dec × Src → R (Nat × Dec × Src), (segment u m (body.length + 2) { d with h := { d.h with buf := be 2 (body.length + 2) ++ d.h.buf.drop 2 } }
          { s with pos := s.pos + 2, off := s.off + 2 } >>= X) = X (hd l, { d with h := { h with buf := buf3 }, sot := sot1, tiles := d.tiles.set d.cur t' },
            { s with pos := s.pos + 2 + body.length + 2, off := s.off + 2 + body.length + 2 }) := by
        intro X
        unfold segment
        dsimp only
        rw [refuse_bind (allowed_ne hal), Nat.add_sub_cancel, hs1.load rfl, ok_bind]
        dsimp only
        rw [if_pos hst, ← hsot1, ← hbuf1, ← hbuf2]
        have hrec : ({ d with h := { d.h with buf := buf2 }, sot := sot1 } : Dec) = { d with h := { h with buf := buf2 }, sot := sot1 } := by
          rw [hh]
        rw [hrec, hh', ok_bind]
        unfold nextMarker
        dsimp only
        rw [if_neg (by rw [hsk]; decide), hs2.load (be_len 2 _), ok_bind]
        dsimp only
        rw [next_two _ (hd_lt r), ok_bind]
        dsimp only
        rw [← hbuf3]
        rfl
      rw [hseg]
      dsimp only
      rw [he]
      congr 3
      rw [List.set_set]
    · intro h1 h2
      rw [segLen_cons] at h1 ⊢
      dsimp only at h1 ⊢ hsot
      have hs4 : sot1 = d.sot - (body.length + 4) := by
        rw [hsot1, Nat.mod_eq_of_lt (by omega : body.length + 2 + 2 < 2 ^ 32)]
        omega
      rw [hsot (by omega) (by omega), hs4]
      omega

end Jp2.Tp

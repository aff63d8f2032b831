import Mathlib.Data.List.Perm.Subperm
import Verif.Jp2.TpStep
/-!
# All tile-parts of a well-formed codestream
-/
namespace Jp2.Tp
open Jp2.Hdr (R User refuseIf be ok_bind refuse_bind next_be be_len)

theorem DIs.withBuf {h : Hdr.Dec} {done ps : List Part} {E : List Nat} {want : Nat → Bool} {f : Nat → Par} {d : Dec}
    (D : DIs h done ps E want f d) {buf : List UInt8} (hb : 1000 ≤ buf.length) :
    DIs h done ps E want f { d with h := { d.h with buf := buf } } := by
  refine ⟨?_, hb, D.len, D.tiles, D.only, D.skips, D.ready, D.skip, D.corr, D.st, D.last, D.emitted⟩
  have := D.same
  show { d.h with buf := buf } = { h with buf := buf }
  rw [this]

theorem front_lt (ps : List Part) : front ps < 256 ^ 2 := by cases ps <;> simp [front]

theorem runs_same {u : User} {h : Hdr.Dec} {want : Nat → Bool} {f g : Nat → Par} {ps : List Part} (r : Runs u h want f ps g) {i : Nat}
    (hc : cnt ps i = 0) : g i = f i := by
  induction r with
  | nil => rfl
  | @skip f p ps g _ _ ih =>
    have : p :: ps = [p] ++ ps := rfl
    rw [this, cnt_append] at hc
    exact ih (by omega)
  | @step f p ps g a _ _ _ ih =>
    have hne := cnt_zero hc p (by simp)
    have : p :: ps = [p] ++ ps := rfl
    rw [this, cnt_append] at hc
    rw [ih (by omega)]
    exact if_neg (fun e => hne e.symm)

/-- Going through tile-parts ends at a tile that is complete, or at `EOC`. -/
theorem gather_is {u : User} {h : Hdr.Dec} {file junk : List UInt8} {zero : Bool} {want : Nat → Bool} {g : Nat → Par} {E : List Nat}
    (hn : h.tw * h.th ≤ 65536) (hj : zero = true → junk = []) : ∀ (ps done : List Part) (f : Nat → Par) (d : Dec) (s : Src) (fuel : Nat),
    Valid (h.tw * h.th) want zero (done ++ ps) → DIs h done ps E want f d → d.can = false → At file s (ahead zero junk ps) →
    Runs u h want f ps g → ps.length < fuel →
    (∃ mid b f' d' s', ps = mid ++ b ∧ gather u fuel (front ps) d s = .ok (0xFF93, d', s') ∧ d'.can = true ∧
      DIs h (done ++ mid) b E want f' d' ∧ At file s' (partsBytes zero b ++ (be 2 0xFFD9 ++ junk)) ∧ Runs u h want f' b g ∧
      d'.cur ∉ E ∧ cnt b d'.cur = 0 ∧ want d'.cur = true ∧ 0 < cnt (done ++ mid) d'.cur) ∨
    (∃ d' s', gather u fuel (front ps) d s = .ok (0xFFD9, d', s') ∧ d'.can = false ∧ DIs h (done ++ ps) [] E want g d' ∧
      At file s' junk) := by
  intro ps
  induction ps with
  | nil =>
    intro done f d s fuel V D hc hs r hf
    obtain ⟨k, rfl⟩ : ∃ k, fuel = k + 1 := ⟨fuel - 1, by omega⟩
    right
    cases r
    refine ⟨d, s, ?_, hc, ?_, hs⟩
    · rw [gather, front, if_pos (Or.inr rfl)]; rfl
    · rw [List.append_nil]; exact D
  | cons p ps ih =>
    intro done f d s fuel V D hc hs r hf
    obtain ⟨k, rfl⟩ : ∃ k, fuel = k + 1 := ⟨fuel - 1, by simp at hf; omega⟩
    have V' : Valid (h.tw * h.th) want zero ((done ++ [p]) ++ ps) := by rw [List.append_assoc]; exact V
    have hpart : ∃ f' d1 s1 d' s', header u (file.length + 1) 0xFF90 d s = .ok (0xFF93, d1, s1) ∧ d1.st = .tph ∧
        (∃ l, s1.left = .ok l) ∧ body d1 s1 = .ok (d', s') ∧
        At file s' (partsBytes zero ps ++ (be 2 0xFFD9 ++ junk)) ∧ DIs h (done ++ [p]) ps E want f' d' ∧ Runs u h want f' ps g ∧
        (d'.can = true → d'.cur ∉ E ∧ cnt ps d'.cur = 0 ∧ want d'.cur = true ∧ 0 < cnt (done ++ [p]) d'.cur) := by
      cases r with
      | skip hw r =>
        obtain ⟨d1, s1, d', s', e1, e2, e2', e3, e4, e5, e6⟩ := part_skipped (u := u) hn V D hc hs hw
        exact ⟨f, d1, s1, d', s', e1, e2, e2', e3, e4, e5, r, fun hcan => by rw [e6] at hcan; exact absurd hcan (by decide)⟩
      | @step _ _ _ _ a hw hsegs r =>
        obtain ⟨d1, s1, d', s', e1, e2, e2', e3, e4, e5, e6, e7, e8⟩ := part_wanted hn V D hc hs hj hw hsegs
        refine ⟨_, d1, s1, d', s', e1, e2, e2', e3, e4, e5, r, fun hcan => ?_⟩
        rw [e6]
        refine ⟨e7, e8 hcan, hw, ?_⟩
        rw [cnt_append, cnt_single, if_pos rfl]; omega
    obtain ⟨f', d1, s1, d', s', e1, e2, ⟨l, e2'⟩, e3, e4, e5, e6, e7⟩ := hpart
    have hstep : gather u (k + 1) (front (p :: ps)) d s = if d'.can = true then .ok (0xFF93, d', s') else
        gather u k (front ps) { d' with h := { d'.h with buf := be 2 (front ps) ++ d'.h.buf.drop 2 } }
          { s' with pos := s'.pos + 2, off := s'.off + 2 } := by
      have hno : ¬ (d.can = true ∨ (0xFF90 : Nat) = 0xFFD9) := by
        rw [hc]; decide
      rw [gather, front, if_neg hno, hs.data, e1, ok_bind]
      dsimp only
      rw [e2', ok_bind, if_neg (by rw [e2]; intro h; exact absurd h.2 (by decide)), e3, ok_bind]
      dsimp only
      by_cases hcan : d'.can = true
      · rw [if_pos hcan, if_pos hcan]; rfl
      · rw [if_neg hcan, if_neg hcan]
        rw [front_ahead] at e4
        rw [e4.read (be_len 2 _)]
        dsimp only
        rw [next_two _ (front_lt ps), ok_bind]
    by_cases hcan : d'.can = true
    · left
      obtain ⟨g1, g2, g3, g4⟩ := e7 hcan
      refine ⟨[p], ps, f', d', s', rfl, by rw [hstep, if_pos hcan], hcan, e5, e4, e6, g1, g2, g3, g4⟩
    · rw [if_neg hcan] at hstep
      rw [front_ahead] at e4
      have hcf : d'.can = false := by simpa using hcan
      have hb : 1000 ≤ (be 2 (front ps) ++ d'.h.buf.drop 2).length := by
        have := e5.buf
        simp [be_len]; omega
      rcases ih (done ++ [p]) f' _ _ k V' (e5.withBuf hb) hcf (e4.move (be_len 2 _)) e6 (by simp at hf; omega) with
        ⟨mid, b, f2, d2, s2, i1, i2, i3, i4, i5, i6, i7, i8, i9, i10⟩ | ⟨d2, s2, i1, i2, i3, i4⟩
      · left
        have hm : done ++ [p] ++ mid = done ++ p :: mid := by simp
        rw [hm] at i4 i10
        exact ⟨p :: mid, b, f2, d2, s2, by rw [i1]; rfl, by rw [hstep]; exact i2, i3, i4, i5, i6, i7, i8, i9, i10⟩
      · right
        have hm : done ++ [p] ++ ps = done ++ p :: ps := by simp
        rw [hm] at i3
        exact ⟨d2, s2, by rw [hstep]; exact i1, i2, i3, i4⟩

/-! ## Handing tiles over -/

/-- The decoder behind `EOC`: no tile in front of the current one has data. -/
structure EIs (h : Hdr.Dec) (all : List Part) (E : List Nat) (want : Nat → Bool) (g : Nat → Par) (d : Dec) : Prop where
  same : d.h = { h with buf := d.h.buf }
  len : d.tiles.length = h.tw * h.th
  tiles : ∀ (i : Nat) t, d.tiles[i]? = some t → TIs all all E want g i t
  ready : d.ready = false
  can : d.can = false
  st : d.st = .eoc
  cur : d.cur ≤ h.tw * h.th
  low : ∀ (i : Nat) t, i < d.cur → d.tiles[i]? = some t → t.data = none
  emitted : ∀ i ∈ E, want i = true ∧ 0 < cnt all i

/-- Where the decoder can be between tiles: with tile-parts ahead, or behind `EOC`. -/
def Mode (u : User) (h : Hdr.Dec) (file junk : List UInt8) (zero : Bool) (want : Nat → Bool) (all : List Part) (g : Nat → Par)
    (E : List Nat) (d : Dec) (s : Src) : Prop :=
  (∃ done p ps f, all = done ++ p :: ps ∧ DIs h done (p :: ps) E want f d ∧ d.can = false ∧ At file s (ahead zero junk (p :: ps)) ∧
    Runs u h want f (p :: ps) g) ∨
  (EIs h all E want g d ∧ At file s junk)

/-- A job is what the parts of its tile make. -/
structure JobIs (want : Nat → Bool) (all : List Part) (g : Nat → Par) (j : Job) : Prop where
  want : want j.tile = true
  some : 0 < cnt all j.tile
  data : j.data = dataOf all j.tile
  tcp : j.tcp = (g j.tile).tcp
  ppt : j.ppt = (g j.tile).packed

theorem cnt_mem {ps : List Part} {i : Nat} (h : 0 < cnt ps i) : ∃ p ∈ ps, p.tile = i := by
  obtain ⟨p, hp, he⟩ := List.countP_pos_iff.mp h
  exact ⟨p, hp, by simpa using he⟩

theorem tiles_emit {all done : List Part} {E : List Nat} {want : Nat → Bool} {f : Nat → Par} {tiles : List Tile} {i : Nat} {t : Tile}
    (h : ∀ (k : Nat) t, tiles[k]? = some t → TIs all done E want f k t) (ht : t.data = none) :
    ∀ (k : Nat) t', (tiles.set i t)[k]? = some t' → TIs all done (i :: E) want f k t' := by
  intro k t' hk
  rw [List.getElem?_set] at hk
  by_cases he : i = k
  · subst he
    rw [if_pos rfl] at hk
    split at hk
    · injection hk with hk
      subst hk
      have hm : i ∈ i :: E := by simp
      exact ⟨fun _ => ht, fun hn => absurd hm hn, fun hn => absurd hm hn, fun hn => absurd hm hn, fun hn => absurd hm hn,
        fun hn => absurd hm hn⟩
    · cases hk
  · rw [if_neg he] at hk
    have T := h k t' hk
    have hm : k ∈ i :: E ↔ k ∈ E := by
      rw [List.mem_cons]
      exact ⟨fun h => h.elim (fun e => absurd e.symm he) id, Or.inr⟩
    exact ⟨fun hn => T.gone (hm.mp hn), fun hn => T.tcp (fun x => hn (hm.mpr x)), fun hn => T.ppt (fun x => hn (hm.mpr x)),
      fun hn => T.part (fun x => hn (hm.mpr x)), fun hn => T.nb (fun x => hn (hm.mpr x)), fun hn => T.data (fun x => hn (hm.mpr x))⟩

/-- `choose` after its first step. -/
def pick (d : Dec) : R (Bool × Dec) := do
  if d.can = false ∧ d.cur = d.h.tw * d.h.th then return (false, d)
  let t ← tileAt d d.cur
  let t ← mergePpt t
  return (true, { put d t with ready := true })

/-- The second step. -/
def next (d : Dec) : Dec := if d.can = true then d else { d with cur := firstWithData d d.cur }

theorem choose_pick (m : Nat) (d : Dec) :
    choose m d = pick (next (if m = 0xFFD9 ∧ ¬ (d.st = .eoc) then { d with cur := 0, st := .eoc } else d)) := rfl

/-- What `read_tile_header` does behind `EOC`. -/
theorem choose_eoc {h : Hdr.Dec} {all : List Part} {E : List Nat} {want : Nat → Bool} {g : Nat → Par} {d : Dec} {zero : Bool}
    (V : Valid (h.tw * h.th) want zero all) (X : EIs h all E want g d) :
    (∃ d', choose 0xFFD9 d = .ok (false, d') ∧ d'.cur = h.tw * h.th ∧ ∀ i, want i = true → 0 < cnt all i → i ∈ E) ∨
    (∃ i t t', choose 0xFFD9 d = .ok (true, { put { d with cur := i } t' with ready := true }) ∧ d.cur ≤ i ∧
      d.tiles[i]? = some t ∧ i ∉ E ∧ want i = true ∧ 0 < cnt all i ∧ t'.data = some (dataOf all i) ∧ t'.tcp = (g i).tcp ∧
      t'.pptBuf = (g i).packed ∧ ∀ (k : Nat) t, k < i → d.tiles[k]? = some t → t.data = none) := by
  have hdims : d.h.tw * d.h.th = h.tw * h.th := by rw [X.same]
  have hch : choose 0xFFD9 d = (do
      let e := { d with cur := firstWithData d d.cur }
      if e.can = false ∧ e.cur = e.h.tw * e.h.th then return (false, e)
      let t ← tileAt e e.cur
      let t ← mergePpt t
      return (true, { put e t with ready := true })) := by
    rw [choose_pick, if_neg (fun x => x.2 X.st), next, if_neg (by rw [X.can]; decide)]
    rfl
  rw [hch]
  dsimp only
  obtain ⟨i, hi⟩ : ∃ i, i = firstWithData d d.cur := ⟨_, rfl⟩
  rw [← hi]
  unfold firstWithData at hi
  have hcl : d.cur ≤ d.tiles.length := by rw [X.len]; exact X.cur
  have hnone : ∀ (k : Nat) t, k < i → d.tiles[k]? = some t → t.data = none := by
    intro k t hk ht
    by_cases hkc : k < d.cur
    · exact X.low k t hkc ht
    · have := List.not_of_lt_findIdx (xs := d.tiles.drop d.cur) (p := fun t => t.data.isSome) (i := k - d.cur) (by omega)
      rw [List.getElem_drop] at this
      have hkt : d.tiles[d.cur + (k - d.cur)]? = some t := by rw [show d.cur + (k - d.cur) = k by omega]; exact ht
      obtain ⟨_, hkt⟩ := List.getElem?_eq_some_iff.1 hkt
      rw [hkt] at this
      simpa using this
  by_cases hall : i = h.tw * h.th
  · left
    rw [if_pos ⟨X.can, by rw [hall]; exact hdims.symm⟩]
    refine ⟨_, rfl, hall, ?_⟩
    intro k hw hc
    by_contra hE
    obtain ⟨p, hp, hpt⟩ := cnt_mem hc
    have hk : k < h.tw * h.th := by rw [← hpt]; exact V.tile p hp
    have hkl : k < d.tiles.length := by rw [X.len]; exact hk
    have hget : d.tiles[k]? = some d.tiles[k] := List.getElem?_eq_getElem hkl
    have T := X.tiles _ _ hget
    have h1 := T.data hE
    have h2 := V.full p hp (by rw [hpt]; exact hw)
    rw [hpt] at h2
    rw [if_pos ⟨hw, h2⟩, hnone k _ (by omega) hget] at h1
    cases h1
  · right
    rw [if_neg (by rw [hdims]; intro hx; exact hall hx.2)]
    have hle := List.findIdx_le_length (xs := d.tiles.drop d.cur) (p := fun t => t.data.isSome)
    rw [List.length_drop] at hle
    have hlen := X.len
    have hil : i < d.tiles.length := by omega
    have hget : d.tiles[i]? = some d.tiles[i] := List.getElem?_eq_getElem hil
    have hsome : d.tiles[i].data.isSome = true := by
      have hlt : (d.tiles.drop d.cur).findIdx (fun t => t.data.isSome) < (d.tiles.drop d.cur).length := by
        rw [List.length_drop]; omega
      have := List.findIdx_getElem (w := hlt)
      rw [List.getElem_drop] at this
      have hidx : d.cur + (d.tiles.drop d.cur).findIdx (fun t => t.data.isSome) = i := hi.symm
      simp only [hidx] at this
      exact this
    obtain ⟨t, ht⟩ : ∃ t, t = d.tiles[i] := ⟨_, rfl⟩
    rw [← ht] at hget hsome
    have T := X.tiles _ _ hget
    have hE : i ∉ E := by intro hm; rw [T.gone hm] at hsome; cases hsome
    have hd := T.data hE
    have hw : want i = true ∧ dataOf all i ≠ [] := by
      by_contra hx
      rw [if_neg hx] at hd
      rw [hd] at hsome; cases hsome
    rw [if_pos hw] at hd
    have hc : 0 < cnt all i := by
      by_contra hx
      exact hw.2 (dataOf_zero (by omega))
    obtain ⟨t', m1, m2, m3, m4⟩ := mergePpt_is (T.ppt hE)
    have htile : tileAt { d with cur := i } i = .ok t := tileAt_ok hget
    rw [htile, ok_bind, m1, ok_bind]
    exact ⟨i, t, t', rfl, by omega, hget, hE, hw.1, hc, by rw [m3, hd], by rw [m4]; exact T.tcp hE, m2, hnone⟩

/-- A tile behind `EOC`. -/
theorem round_eoc {u : User} {h : Hdr.Dec} {file junk : List UInt8} {all : List Part} {E : List Nat} {want : Nat → Bool} {g : Nat → Par}
    {d : Dec} {s : Src} {zero : Bool} (V : Valid (h.tw * h.th) want zero all) (X : EIs h all E want g d) (hs : At file s junk) :
    (∃ d', choose 0xFFD9 d = .ok (false, d') ∧ d'.cur = h.tw * h.th ∧ ∀ i, want i = true → 0 < cnt all i → i ∈ E) ∨
    (∃ d' job d2 d3, choose 0xFFD9 d = .ok (true, d') ∧ decodeTile d' d'.cur s = .ok (job, d2, s) ∧ job.tile = d'.cur ∧
      destroy d2 d'.cur = .ok d3 ∧ JobIs want all g job ∧ job.tile ∉ E ∧ Mode u h file junk zero want all g (job.tile :: E) d3 s) := by
  rcases choose_eoc V X with hl | ⟨i, t, t', c1, c2, c3, c4, c5, c6, c7, c8, c9, c10⟩
  · exact Or.inl hl
  · right
    have hil : i < d.tiles.length := (List.getElem?_eq_some_iff.1 c3).1
    obtain ⟨d', hd'⟩ : ∃ x : Dec, x = { put { d with cur := i } t' with ready := true } := ⟨_, rfl⟩
    rw [← hd'] at c1
    have hcur : d'.cur = i := by rw [hd']; rfl
    have hget : d'.tiles[i]? = some t' := by
      rw [hd']
      show (d.tiles.set i t')[i]? = _
      simp [hil]
    obtain ⟨d2, hd2⟩ : ∃ x : Dec, x = { d' with can := false, ready := false } := ⟨_, rfl⟩
    have hst : d'.st = .eoc := by rw [hd']; exact X.st
    have hafter : afterTile d2 s = .ok (d2, s) := by
      unfold afterTile
      rw [hs.left, ok_bind, if_neg (by rw [hd2]; show ¬ (_ ∧ d'.st = .neoc); rw [hst]; intro x; exact absurd x.2 (by decide)),
        if_pos (by rw [hd2]; exact hst)]
      rfl
    have hdec : decodeTile d' d'.cur s = .ok (⟨i, t'.tcp, dataOf all i, t'.pptBuf⟩, d2, s) := by
      unfold decodeTile
      rw [refuse_bind (by rw [hd']; intro x; rcases x with x | x <;> exact absurd x (by simp)), hcur, tileAt_ok hget, ok_bind, c7]
      dsimp only
      rw [show ({ d' with cur := i, can := false, ready := false } : Dec) = d2 by rw [hd2, ← hcur], hafter, ok_bind]
      rfl
    have hget2 : d2.tiles[i]? = some t' := by rw [hd2]; exact hget
    refine ⟨d', _, d2, { d2 with tiles := d2.tiles.set i { t' with data := none } }, c1, hdec, hcur.symm, ?_,
      ⟨c5, c6, rfl, c8, c9⟩, c4, ?_⟩
    · unfold destroy; rw [hcur, tileAt_ok hget2]; rfl
    · right
      refine ⟨?_, hs⟩
      have htl : d2.tiles = d.tiles.set i t' := by rw [hd2, hd']; rfl
      refine ⟨?_, ?_, ?_, ?_, ?_, ?_, ?_, ?_, ?_⟩
      · show d2.h = { h with buf := d2.h.buf }
        rw [hd2, hd']; exact X.same
      · show (d2.tiles.set _ _).length = _
        rw [htl, List.length_set, List.length_set]; exact X.len
      · show ∀ (k : Nat) tk, (d2.tiles.set i { t' with data := none })[k]? = some tk → _
        rw [htl, List.set_set]
        exact tiles_emit X.tiles rfl
      · rw [hd2]
      · rw [hd2]
      · show d2.st = _
        rw [hd2]; exact hst
      · show d2.cur ≤ _
        rw [hd2]
        show d'.cur ≤ _
        rw [hcur, ← X.len]; omega
      · intro k tk hk hkt
        have hk : k < d2.cur := hk
        have hk' : k < i := by rw [hd2] at hk; have hk : k < d'.cur := hk; rw [hcur] at hk; exact hk
        have hkt : (d2.tiles.set i { t' with data := none })[k]? = some tk := hkt
        rw [htl, List.set_set, List.getElem?_set, if_neg (by omega)] at hkt
        exact c10 k tk hk' hkt
      · intro k hk
        rcases List.mem_cons.mp hk with rfl | hk
        · exact ⟨c5, c6⟩
        · exact X.emitted k hk

/-- One call of `read_tile_header`, and the decoding of the tile it finds. -/
theorem round {u : User} {h : Hdr.Dec} {file junk : List UInt8} {all : List Part} {E : List Nat} {want : Nat → Bool} {g : Nat → Par}
    {d : Dec} {s : Src} {zero : Bool} (hn : h.tw * h.th ≤ 65536) (hj : zero = true → junk = [])
    (V : Valid (h.tw * h.th) want zero all) (M : Mode u h file junk zero want all g E d s) :
    (∃ d' s', readTileHeader u d s = .ok (false, d', s') ∧ d'.cur = h.tw * h.th ∧ ∀ i, want i = true → 0 < cnt all i → i ∈ E) ∨
    (∃ d' s1 job d2 s2 d3, readTileHeader u d s = .ok (true, d', s1) ∧ decodeTile d' d'.cur s1 = .ok (job, d2, s2) ∧
      job.tile = d'.cur ∧ destroy d2 d'.cur = .ok d3 ∧ JobIs want all g job ∧ job.tile ∉ E ∧
      Mode u h file junk zero want all g (job.tile :: E) d3 s2) := by
  rcases M with ⟨done, p, ps, f, hall, D, hc, hs, r⟩ | ⟨X, hs⟩
  · subst hall
    have hfuel : (p :: ps).length < s.data.length + 2 := by
      have h1 := hs.len
      rw [hs.data, List.length_cons]
      have h2 := partsBytes_len (zero := zero) ps
      rw [ahead] at h1
      simp only [List.length_append, be_len] at h1
      omega
    have hrd : readTileHeader u d s = (do
        let (m, d, s) ← gather u (s.data.length + 2) (front (p :: ps)) d s
        let (goOn, d) ← choose m d
        return (goOn, d, s)) := by
      unfold readTileHeader
      rw [refuse_bind (by rw [D.ready, D.st]; decide), if_neg (by rw [D.st]; decide)]
      rfl
    rcases gather_is (u := u) hn hj (p :: ps) done f d s _ V D hc hs r hfuel with
      ⟨mid, b, f2, d2, s2, i1, i2, i3, i4, i5, i6, i7, i8, i9, i10⟩ | ⟨d2, s2, i1, i2, i3, i4⟩
    · -- a complete tile
      right
      obtain ⟨i, hi⟩ : ∃ i, i = d2.cur := ⟨_, rfl⟩
      rw [← hi] at i7 i8 i9 i10
      have hall : done ++ mid ++ b = done ++ p :: ps := by rw [i1]; simp
      obtain ⟨q, hq, hqt⟩ := cnt_mem i10
      have hqa : q ∈ done ++ p :: ps := by rw [← hall]; exact List.mem_append_left _ hq
      have hil : i < d2.tiles.length := by rw [i4.len, ← hqt]; exact V.tile q hqa
      have hget : d2.tiles[i]? = some d2.tiles[i] := List.getElem?_eq_getElem hil
      obtain ⟨t, ht⟩ : ∃ t, t = d2.tiles[i] := ⟨_, rfl⟩
      rw [← ht] at hget
      have T := i4.tiles _ _ hget
      have hdata : dataOf (done ++ mid) i = dataOf (done ++ p :: ps) i := by
        rw [← hall, dataOf_append (done ++ mid), dataOf_zero i8, List.append_nil]
      have hne : dataOf (done ++ p :: ps) i ≠ [] := by rw [← hqt]; exact V.full q hqa (by rw [hqt]; exact i9)
      have htd := T.data i7
      rw [hdata, if_pos ⟨i9, hne⟩] at htd
      obtain ⟨t', m1, m2, m3, m4⟩ := mergePpt_is (T.ppt i7)
      have hg : g i = f2 i := runs_same i6 i8
      obtain ⟨d', hd'⟩ : ∃ x : Dec, x = { put d2 t' with ready := true } := ⟨_, rfl⟩
      have hch : choose 0xFF93 d2 = .ok (true, d') := by
        rw [choose_pick, if_neg (fun x => absurd x.1 (by decide)), next, if_pos i3, pick]
        rw [if_neg (by rw [i3]; intro x; exact absurd x.1 (by decide)), ← hi, tileAt_ok hget, ok_bind, m1, ok_bind, hd']
        rfl
      have hcur : d'.cur = i := by rw [hd', hi]; rfl
      have hget' : d'.tiles[i]? = some t' := by
        rw [hd']
        show (d2.tiles.set d2.cur t')[i]? = _
        rw [← hi]
        simp [hil]
      rw [front_ahead] at i5
      have hs3 := i5.move (n := 2) (be_len 2 _)
      obtain ⟨d3, hd3⟩ : ∃ x : Dec, x = { d' with can := false, ready := false } := ⟨_, rfl⟩
      have hst3 : d3.st = .tphsot := by rw [hd3, hd']; exact i4.st
      obtain ⟨d4, hd4⟩ : ∃ x : Dec, x = if b = [] then { d3 with cur := 0, st := .eoc } else d3 := ⟨_, rfl⟩
      have hafter : afterTile d3 s2 = .ok (d4, { s2 with pos := s2.pos + 2, off := s2.off + 2 }) := by
        unfold afterTile
        rw [i5.left, ok_bind, if_neg (by rw [hst3]; intro x; exact absurd x.2 (by decide)), if_neg (by rw [hst3]; decide),
          i5.read (be_len 2 _)]
        dsimp only
        have hnx := next_two (front b) (front_lt b) []
        rw [List.append_nil] at hnx
        rw [hnx, ok_bind]
        dsimp only
        cases hb : b with
        | nil => rw [front, if_pos rfl, hd4, if_pos hb]; rfl
        | cons q l =>
          rw [front, if_neg (by decide), if_neg (by decide), hd4, if_neg (by rw [hb]; simp)]
          rfl
      have hdec : decodeTile d' d'.cur s2 = .ok (⟨i, t'.tcp, dataOf (done ++ p :: ps) i, t'.pptBuf⟩, d4,
          { s2 with pos := s2.pos + 2, off := s2.off + 2 }) := by
        unfold decodeTile
        rw [refuse_bind (by rw [hd']; intro x; rcases x with x | x <;> exact absurd x (by simp)), hcur, tileAt_ok hget', ok_bind,
          m3, htd]
        dsimp only
        rw [show ({ d' with cur := i, can := false, ready := false } : Dec) = d3 by rw [hd3, ← hcur], hafter, ok_bind]
        rfl
      have htl3 : d3.tiles = d2.tiles.set i t' := by rw [hd3, hd', hi]; rfl
      have htl4 : d4.tiles = d2.tiles.set i t' := by rw [hd4, ← htl3]; split <;> rfl
      have hget4 : d4.tiles[i]? = some t' := by rw [htl4]; simp [hil]
      obtain ⟨d5, hd5⟩ : ∃ x : Dec, x = { d4 with tiles := d4.tiles.set i { t' with data := none } } := ⟨_, rfl⟩
      have htl5 : d5.tiles = d2.tiles.set i { t' with data := none } := by rw [hd5]; show d4.tiles.set _ _ = _; rw [htl4, List.set_set]
      have hT5 := tiles_emit (t := { t' with data := none }) (i := i) i4.tiles rfl
      rw [← htl5, hall] at hT5
      have hcnt : 0 < cnt (done ++ p :: ps) i := by rw [← hall, cnt_append]; omega
      refine ⟨d', s2, _, d4, _, d5, ?_, hdec, hcur.symm, ?_, ⟨i9, hcnt, rfl, ?_, ?_⟩, i7, ?_⟩
      · rw [hrd, i2, ok_bind]
        dsimp only
        rw [hch, ok_bind]
        rfl
      · unfold destroy; rw [hcur, tileAt_ok hget4, hd5]; rfl
      · show t'.tcp = (g i).tcp
        rw [m4, hg]; exact T.tcp i7
      · show t'.pptBuf = (g i).packed
        rw [m2, hg]
      · show Mode u h file junk zero want (done ++ p :: ps) g (i :: E) d5 _
        have hem : ∀ k ∈ i :: E, cnt b k = 0 ∧ want k = true ∧ 0 < cnt (done ++ mid) k := by
          intro k hk
          rcases List.mem_cons.mp hk with rfl | hk
          · exact ⟨i8, i9, i10⟩
          · exact i4.emitted k hk
        cases hb : b with
        | nil =>
          right
          subst hb
          rw [if_pos rfl] at hd4
          have hrun : f2 = g := by cases i6; rfl
          rw [List.append_nil] at hall
          rw [hall] at hT5 hem
          rw [hrun] at hT5
          refine ⟨⟨?_, ?_, hT5, ?_, ?_, ?_, ?_, ?_, fun k hk => ⟨(hem k hk).2.1, (hem k hk).2.2⟩⟩, hs3⟩
          · rw [hd5, hd4, hd3, hd']; exact i4.same
          · rw [htl5, List.length_set]; exact i4.len
          · rw [hd5, hd4, hd3]
          · rw [hd5, hd4, hd3]
          · rw [hd5, hd4]
          · rw [hd5, hd4]; exact Nat.zero_le _
          · intro k tk hk
            rw [hd5, hd4] at hk
            exact absurd hk (Nat.not_lt_zero _)
        | cons q2 l =>
          left
          rw [if_neg (by rw [hb]; simp)] at hd4
          subst hb
          refine ⟨done ++ mid, q2, l, f2, hall.symm, ?_, ?_, hs3, i6⟩
          · refine ⟨?_, ?_, ?_, ?_, ?_, ?_, ?_, ?_, ?_, ?_, ?_, hem⟩
            · rw [hd5, hd4, hd3, hd']; exact i4.same
            · rw [hd5, hd4, hd3, hd']; exact i4.buf
            · rw [htl5, List.length_set]; exact i4.len
            · rw [hall]; exact hT5
            · rw [hd5, hd4, hd3, hd']; exact i4.only
            · rw [hd5, hd4, hd3, hd']; exact i4.skips
            · rw [hd5, hd4, hd3]
            · rw [hd5, hd4, hd3, hd']; exact i4.skip
            · rw [hd5, hd4, hd3, hd']; exact i4.corr
            · rw [hd5, hd4]; exact hst3
            · rw [hd5, hd4, hd3, hd']; exact i4.last
          · rw [hd5, hd4, hd3]
    · -- `EOC`
      have hX : EIs h (done ++ p :: ps) E want g { d2 with cur := 0, st := .eoc } := by
        refine ⟨i3.same, i3.len, ?_, i3.ready, i2, rfl, Nat.zero_le _, (fun k _ hk => absurd hk (Nat.not_lt_zero _)),
          fun k hk => ⟨(i3.emitted k hk).2.1, (i3.emitted k hk).2.2⟩⟩
        have := i3.tiles
        rw [List.append_nil] at this
        exact this
      have hch : choose 0xFFD9 d2 = choose 0xFFD9 { d2 with cur := 0, st := .eoc } := by
        have hno : ¬ d2.st = .eoc := by rw [i3.st]; decide
        rw [choose_pick, choose_pick, if_pos ⟨rfl, hno⟩, if_neg (fun x => x.2 rfl)]
      rcases round_eoc (u := u) (file := file) (junk := junk) V hX i4 with ⟨d', c1, c2, c3⟩ | ⟨d', job, d4, d5, c1, c2, c3, c4, c5, c6, c7⟩
      · left
        refine ⟨d', s2, ?_, c2, c3⟩
        rw [hrd, i1, ok_bind]
        dsimp only
        rw [hch, c1, ok_bind]
        rfl
      · right
        refine ⟨d', s2, job, d4, s2, d5, ?_, c2, c3, c4, c5, c6, c7⟩
        rw [hrd, i1, ok_bind]
        dsimp only
        rw [hch, c1, ok_bind]
        rfl
  · have hrd : readTileHeader u d s = (do
        let (goOn, d) ← choose 0xFFD9 d
        return (goOn, d, s)) := by
      unfold readTileHeader
      rw [refuse_bind (by rw [X.ready, X.st]; decide), if_pos X.st]
      have : gather u (s.data.length + 2) 0xFFD9 d s = .ok (0xFFD9, d, s) := by
        rw [gather, if_pos (Or.inr rfl)]; rfl
      rw [this, ok_bind]
    rcases round_eoc (u := u) (file := file) (junk := junk) V X hs with ⟨d', c1, c2, c3⟩ | ⟨d', job, d4, d5, c1, c2, c3, c4, c5, c6, c7⟩
    · left
      exact ⟨d', s, by rw [hrd, c1, ok_bind]; rfl, c2, c3⟩
    · right
      exact ⟨d', s, job, d4, s, d5, by rw [hrd, c1, ok_bind]; rfl, c2, c3, c4, c5, c6, c7⟩

theorem Mode.left {u : User} {h : Hdr.Dec} {file junk : List UInt8} {all : List Part} {E : List Nat} {want : Nat → Bool}
    {g : Nat → Par} {d : Dec} {s : Src} {zero : Bool} (M : Mode u h file junk zero want all g E d s) :
    (∃ l, s.left = .ok l) ∧ d.st ≠ .neoc := by
  rcases M with ⟨done, p, ps, f, hall, D, hc, hs, r⟩ | ⟨X, hs⟩
  · exact ⟨⟨_, hs.left⟩, by rw [D.st]; decide⟩
  · exact ⟨⟨_, hs.left⟩, by rw [X.st]; decide⟩

theorem Mode.emitted {u : User} {h : Hdr.Dec} {file junk : List UInt8} {all : List Part} {E : List Nat} {want : Nat → Bool}
    {g : Nat → Par} {d : Dec} {s : Src} {zero : Bool} (M : Mode u h file junk zero want all g E d s) :
    ∀ i ∈ E, 0 < cnt all i := by
  rcases M with ⟨done, p, ps, f, hall, D, hc, hs, r⟩ | ⟨X, hs⟩
  · intro i hi
    rw [hall, cnt_append]
    have := (D.emitted i hi).2.2
    omega
  · exact fun i hi => (X.emitted i hi).2

/-- What the loop over the tiles hands over, with the tiles `E` handed over before. -/
structure Out (want : Nat → Bool) (all : List Part) (g : Nat → Par) (E : List Nat) (js : List Job) : Prop where
  nodup : (js.map (·.tile)).Nodup
  fresh : ∀ j ∈ js, j.tile ∉ E
  right : ∀ j ∈ js, JobIs want all g j
  all : ∀ i, want i = true → 0 < cnt all i → i ∈ E ∨ i ∈ js.map (·.tile)

theorem loop {u : User} {h : Hdr.Dec} {file junk : List UInt8} {all : List Part} {want : Nat → Bool} {g : Nat → Par} {zero : Bool}
    (hn : h.tw * h.th ≤ 65536) (hj : zero = true → junk = []) (V : Valid (h.tw * h.th) want zero all) :
    ∀ (n : Nat) (E : List Nat) d s, E.length + n = h.tw * h.th → E.Nodup → Mode u h file junk zero want all g E d s →
      ∃ js, tilesLoop u n d s = .ok js ∧ Out want all g E js := by
  intro n
  induction n with
  | zero =>
    intro E d s hl hE M
    refine ⟨[], rfl, by simp, by simp, by simp, ?_⟩
    intro i _ hc
    left
    obtain ⟨p, hp, hpt⟩ := cnt_mem hc
    have hi : i < h.tw * h.th := by rw [← hpt]; exact V.tile p hp
    have hsub : E ⊆ List.range (h.tw * h.th) := by
      intro k hk
      obtain ⟨q, hq, hqt⟩ := cnt_mem (M.emitted k hk)
      rw [List.mem_range, ← hqt]
      exact V.tile q hq
    have hperm := (List.subperm_of_subset hE hsub).perm_of_length_le (by rw [List.length_range]; omega)
    exact hperm.mem_iff.mpr (List.mem_range.mpr hi)
  | succ n ih =>
    intro E d s hl hE M
    rcases round hn hj V M with ⟨d', s', c1, c2, c3⟩ | ⟨d', s1, job, d2, s2, d3, c1, c2, c3, c4, c5, c6, c7⟩
    · refine ⟨[], ?_, by simp, by simp, by simp, fun i hw hc => Or.inl (c3 i hw hc)⟩
      rw [tilesLoop, c1, ok_bind]
      rfl
    · obtain ⟨⟨l, hleft⟩, hst⟩ := c7.left
      obtain ⟨js, j1, j2⟩ := ih (job.tile :: E) d3 s2 (by rw [List.length_cons]; omega) (List.nodup_cons.mpr ⟨c6, hE⟩) c7
      refine ⟨job :: js, ?_, ?_, ?_, ?_, ?_⟩
      · rw [tilesLoop, c1, ok_bind]
        dsimp only
        rw [if_neg (by decide), c2, ok_bind]
        dsimp only
        rw [c4, ok_bind, hleft, ok_bind, if_neg (fun x => hst x.2), j1]
        rfl
      · rw [List.map_cons, List.nodup_cons]
        refine ⟨fun hm => ?_, j2.nodup⟩
        obtain ⟨j, hj, he⟩ := List.mem_map.mp hm
        exact j2.fresh j hj (by rw [he]; simp)
      · intro j hj
        rcases List.mem_cons.mp hj with rfl | hj
        · exact c6
        · exact fun hm => j2.fresh j hj (List.mem_cons_of_mem _ hm)
      · intro j hj
        rcases List.mem_cons.mp hj with rfl | hj
        · exact c5
        · exact j2.right j hj
      · intro i hw hc
        rcases j2.all i hw hc with hm | hm
        · rcases List.mem_cons.mp hm with rfl | hm
          · right; simp
          · exact Or.inl hm
        · right; rw [List.map_cons]; exact List.mem_cons_of_mem _ hm

end Jp2.Tp

import Verif.Jp2.TpFrame
/-!
# Tile-parts: any bytes are safe to read

The invariant of the decoder between two steps, and that every step keeps it.
-/
namespace Jp2.Tp
open Jp2.Hdr (R Fail User refuseIf Post Inv TcpInv CodDone)

/-! ## The stream -/

/-- The offset is not ahead of the file, and within it. -/
structure SrcOk (file : List UInt8) (s : Src) : Prop where
  data : s.data = file
  pos : s.off ≤ s.pos
  off : s.off ≤ file.length

theorem read_some {file : List UInt8} {s s' : Src} {n : Nat} {bs : List UInt8} (h : SrcOk file s)
    (e : s.read n = (some bs, s')) :
    SrcOk file s' ∧ bs.length = n ∧ s'.off = s.off + n ∧ s'.pos = s.pos + n ∧ (0 < n → s.pos + n ≤ file.length) ∧
      bs = (file.drop s.pos).take n := by
  have hd := h.data
  have hp := h.pos
  have ho := h.off
  unfold Src.read at e
  rw [hd] at e
  split at e
  · next hn =>
    injection e with e1 e2
    injection e1 with e1
    subst e1 e2
    refine ⟨⟨rfl, by dsimp only; omega, by dsimp only; omega⟩, ?_, rfl, rfl, by omega, rfl⟩
    rw [List.length_take, List.length_drop]; omega
  · exact nomatch e

theorem read_none {file : List UInt8} {s s' : Src} {n : Nat} (h : SrcOk file s) (e : s.read n = (none, s')) :
    SrcOk file s' ∧ s'.off = s.off ∧ s.pos ≤ s'.pos := by
  have hd := h.data
  have hp := h.pos
  have ho := h.off
  unfold Src.read at e
  rw [hd] at e
  split at e
  · exact nomatch e
  · injection e with e1 e2
    subst e2
    exact ⟨⟨rfl, by dsimp only; omega, ho⟩, rfl, by dsimp only; omega⟩

theorem left_post {file : List UInt8} {s : Src} (h : SrcOk file s) :
    Post s.left (fun l => l = file.length - s.off) := by
  unfold Src.left
  rw [h.data, if_pos h.off]
  exact Post.ok rfl

theorem load_post {file : List UInt8} {s : Src} {n : Nat} {buf : List UInt8} (h : SrcOk file s) :
    Post (s.load n buf) (fun r => SrcOk file r.2 ∧ n ≤ r.1.length ∧ buf.length ≤ r.1.length ∧ r.2.off = s.off + n ∧
      r.2.pos = s.pos + n ∧ (0 < n → s.pos + n ≤ file.length) ∧ (n = 0 ∨ s.pos + n ≤ file.length)) := by
  unfold Src.load
  split
  · next bs s' e =>
    obtain ⟨a, b, c, d, f, g⟩ := read_some h e
    refine Post.ok ⟨a, ?_, ?_, c, d, f, by omega⟩
    · show n ≤ (bs ++ buf.drop n).length
      simp; omega
    · show buf.length ≤ (bs ++ buf.drop n).length
      simp; omega
  · exact Post.refused

theorem skip_true {file : List UInt8} {s s' : Src} {n : Nat} (h : SrcOk file s) (hf : 0 < file.length)
    (e : s.skip n = (true, s')) : SrcOk file s' ∧ s'.off = s.off + n ∧ s'.pos = s.pos + n := by
  have hd := h.data
  have hp := h.pos
  unfold Src.skip at e
  rw [hd] at e
  split at e
  · exact nomatch e
  · next hn =>
    injection e with _ e2
    subst e2
    exact ⟨⟨rfl, by dsimp only; omega, by dsimp only; omega⟩, rfl, rfl⟩

theorem skip_false {s s' : Src} {n : Nat} (e : s.skip n = (false, s')) : s' = s := by
  unfold Src.skip at e
  split at e
  · injection e with _ e2; exact e2.symm
  · exact nomatch e

theorem seek_post {file : List UInt8} {s : Src} {o : Nat} (h : SrcOk file s) (ho : o ≤ file.length) :
    Post (s.seek o) (fun r => SrcOk file r ∧ r.off = o ∧ r.pos + s.off = s.pos + o) := by
  have hp := h.pos
  unfold Src.seek
  split
  · exact Post.refused
  · exact Post.ok ⟨⟨h.data, by dsimp only; omega, ho⟩, rfl, by dsimp only; omega⟩

/-! ## The invariant -/

/-- Bytes held by a tile. -/
def dlen (t : Tile) : Nat := (t.data.getD []).length

/-- Bytes held by all tiles. -/
def held (d : Dec) : Nat := (d.tiles.map dlen).sum

/-- What holds of every tile: usable parameters, data with the margin of two behind them, and in strict mode no
allocation larger than the file (and the margin). -/
structure TileOk (u : User) (n size : Nat) (strict : Bool) (t : Tile) : Prop where
  tcp : TcpInv u n t.tcp
  cod : CodDone u t.tcp
  room : ∀ x, t.data = some x → x.length + 2 ≤ t.cap
  cap : strict = true → t.cap ≤ size + 2

/-- What holds of the decoder: the main header is unchanged but for its buffer. -/
structure Ok (u : User) (h0 : Hdr.Dec) (size : Nat) (strict : Bool) (d : Dec) : Prop where
  same : d.h = { h0 with buf := d.h.buf }
  buf : 1000 ≤ d.h.buf.length
  len : d.tiles.length = h0.tw * h0.th
  cur : d.cur < h0.tw * h0.th
  tiles : ∀ t ∈ d.tiles, TileOk u h0.comps.length size strict t
  strict : d.strict = strict

theorem sum_set (f : Tile → Nat) : ∀ (l : List Tile) (i : Nat) (t0 t : Tile), l[i]? = some t0 →
    ((l.set i t).map f).sum + f t0 = (l.map f).sum + f t
  | [], i, t0, t, h => by simp at h
  | a :: l, 0, t0, t, h => by
    simp only [List.getElem?_cons_zero, Option.some.injEq] at h
    subst h
    simp only [List.set_cons_zero, List.map_cons, List.sum_cons]; omega
  | a :: l, i + 1, t0, t, h => by
    have := sum_set f l i t0 t (by simpa using h)
    simp only [List.set_cons_succ, List.map_cons, List.sum_cons]; omega

theorem tileAt_post {u : User} {h0 : Hdr.Dec} {size : Nat} {b : Bool} {d : Dec} {i : Nat} (h : Ok u h0 size b d)
    (hi : i < h0.tw * h0.th) : Post (tileAt d i) (fun t => d.tiles[i]? = some t ∧ TileOk u h0.comps.length size b t) := by
  unfold tileAt
  have hl := h.len
  rw [List.getElem?_eq_getElem (by omega)]
  exact Post.ok ⟨rfl, h.tiles _ (List.getElem_mem _)⟩

theorem tileAt_ok {d : Dec} {i : Nat} {t : Tile} (h : d.tiles[i]? = some t) : tileAt d i = .ok t := by
  unfold tileAt; rw [h]

/-- A new value of the current tile. -/
theorem put_ok {u : User} {h0 : Hdr.Dec} {size : Nat} {b : Bool} {d : Dec} {t0 t : Tile} (h : Ok u h0 size b d)
    (h0t : d.tiles[d.cur]? = some t0) (ht : TileOk u h0.comps.length size b t) :
    Ok u h0 size b (put d t) ∧ held (put d t) + dlen t0 = held d + dlen t := by
  refine ⟨⟨h.same, h.buf, ?_, h.cur, ?_, h.strict⟩, sum_set dlen _ _ _ _ h0t⟩
  · show (d.tiles.set d.cur t).length = _
    rw [List.length_set]; exact h.len
  · intro x hx
    rcases List.mem_or_eq_of_mem_set hx with hx | rfl
    · exact h.tiles x hx
    · exact ht

/-- Another buffer. -/
theorem Ok.withBuf {u : User} {h0 : Hdr.Dec} {size : Nat} {b : Bool} {d : Dec} {buf : List UInt8} (h : Ok u h0 size b d)
    (hb : 1000 ≤ buf.length) : Ok u h0 size b { d with h := { d.h with buf := buf } } := by
  refine ⟨?_, hb, h.len, h.cur, h.tiles, h.strict⟩
  have := h.same
  show { d.h with buf := buf } = { h0 with buf := buf }
  rw [this]

theorem Ok.dims {u : User} {h0 : Hdr.Dec} {size : Nat} {b : Bool} {d : Dec} (h : Ok u h0 size b d) :
    d.h.tw = h0.tw ∧ d.h.th = h0.th ∧ d.h.comps = h0.comps := by
  have := h.same
  rw [this]
  exact ⟨rfl, rfl, rfl⟩

/-! ## The marker segments -/

theorem sotValues_post {p : List UInt8} {size : Nat} (hp : size ≤ p.length) :
    Post (sotValues p size) (fun r => r.1 < 2 ^ 16 ∧ r.2.1 < 2 ^ 32 ∧ r.2.2.1 < 256 ∧ r.2.2.2 < 256) := by
  unfold sotValues
  refine Post.bind (Hdr.refuseIf_post _) fun _ h1 => ?_
  refine Post.bind (Hdr.next_post (by omega) (by omega)) fun ⟨a, p1⟩ ⟨ha, hp1⟩ => ?_
  dsimp only at ha hp1 ⊢
  refine Post.bind (Hdr.next_post (by omega) (by omega)) fun ⟨b, p2⟩ ⟨hb, hp2⟩ => ?_
  dsimp only at hb hp2 ⊢
  refine Post.bind (Hdr.next_post (by omega) (by omega)) fun ⟨c, p3⟩ ⟨hc, hp3⟩ => ?_
  dsimp only at hc hp3 ⊢
  refine Post.bind (Hdr.next_post (by omega) (by omega)) fun ⟨e, p4⟩ ⟨he, hp4⟩ => ?_
  dsimp only at he hp4 ⊢
  exact Post.pure ⟨by omega, by omega, by omega, by omega⟩

theorem newNb_post {d : Dec} {t : Tile} {part num : Nat} : Post (newNb d t part num) (fun _ => True) := by
  unfold newNb
  refine Post.bind (Hdr.refuseIf_post _) fun _ h1 => ?_
  split
  · refine Post.bind (Hdr.refuseIf_post _) fun _ h1 => ?_
    exact Post.pure trivial
  · exact Post.pure trivial

theorem readSot_post {u : User} {h0 : Hdr.Dec} {n : Nat} {b : Bool} {d : Dec} {p : List UInt8} {size : Nat}
    (h : Ok u h0 n b d) (hp : size ≤ p.length) : Post (readSot d p size) (fun d' => Ok u h0 n b d' ∧ held d' = held d) := by
  unfold readSot
  refine Post.bind (sotValues_post hp) fun ⟨tile, len, part, num⟩ _ => ?_
  dsimp only
  refine Post.bind (Hdr.refuseIf_post _) fun _ h1 => ?_
  have hd := h.dims
  rw [hd.1, hd.2.1] at h1
  refine Post.bind (tileAt_post h (by omega)) fun t ⟨ht, hok⟩ => ?_
  refine Post.bind (Hdr.refuseIf_post _) fun _ h2 => ?_
  refine Post.bind (Hdr.refuseIf_post _) fun _ h3 => ?_
  refine Post.bind newNb_post fun nb _ => ?_
  refine Post.pure ?_
  have hcur : tile < h0.tw * h0.th := by omega
  have hnew : Ok u h0 n b { d with
      cur := tile, last := d.last || len == 0, can := d.can || (nb != 0 && nb == part + 1),
      sot := if (d.last || len == 0) then 0 else (len + (2 ^ 32 - 12)) % 2 ^ 32, st := .tph, skip := skipped d tile } :=
    ⟨h.same, h.buf, h.len, hcur, h.tiles, h.strict⟩
  obtain ⟨a, c⟩ := put_ok (t0 := t) (t := { t with part := part, nb := nb }) hnew ht ⟨hok.tcp, hok.cod, hok.room, hok.cap⟩
  refine ⟨a, ?_⟩
  have e : dlen { t with part := part, nb := nb } = dlen t := rfl
  rw [e] at c
  exact Nat.add_right_cancel c

theorem pltLoop_post : ∀ (k : Nat) (p : List UInt8) (acc : Nat), k ≤ p.length → Post (pltLoop k p acc) (fun _ => True)
  | 0, p, acc, h => by unfold pltLoop; exact Post.ok trivial
  | k + 1, p, acc, h => by
    unfold pltLoop
    refine Post.bind (Hdr.next_post (by omega) (by omega)) fun ⟨a, p1⟩ ⟨ha, hp1⟩ => ?_
    dsimp only at ha hp1 ⊢
    split
    · exact pltLoop_post k p1 _ (by omega)
    · exact pltLoop_post k p1 _ (by omega)

theorem readPlt_post {d : Dec} {p : List UInt8} {size : Nat} (hp : size ≤ p.length) :
    Post (readPlt d p size) (fun d' => d' = d) := by
  unfold readPlt
  refine Post.bind (Hdr.refuseIf_post _) fun _ h1 => ?_
  refine Post.bind (Hdr.next_post (by omega) (by omega)) fun ⟨a, p1⟩ ⟨ha, hp1⟩ => ?_
  dsimp only at ha hp1 ⊢
  refine Post.bind (pltLoop_post _ _ _ (by omega)) fun acc _ => ?_
  refine Post.bind (Hdr.refuseIf_post _) fun _ h2 => ?_
  exact Post.pure rfl

theorem readPpt_post {u : User} {h0 : Hdr.Dec} {n : Nat} {b : Bool} {d : Dec} {p : List UInt8} {size : Nat}
    (h : Ok u h0 n b d) (hp : size ≤ p.length) : Post (readPpt d p size) (fun d' => Ok u h0 n b d' ∧ held d' = held d) := by
  unfold readPpt
  refine Post.bind (Hdr.refuseIf_post _) fun _ h1 => ?_
  refine Post.bind (Hdr.refuseIf_post _) fun _ h2 => ?_
  refine Post.bind (tileAt_post h h.cur) fun t ⟨ht, hok⟩ => ?_
  refine Post.bind (Hdr.next_post (by omega) (by omega)) fun ⟨z, p1⟩ ⟨ha, hp1⟩ => ?_
  dsimp only at ha hp1 ⊢
  have hz : z < (t.ppts ++ List.replicate (z + 1 - t.ppts.length) none).length := by simp; omega
  rw [List.getElem?_eq_getElem hz]
  split
  · next e => exact nomatch e
  · exact Post.refused
  · refine Post.bind (Hdr.bytesAt_post (by omega)) fun data _ => ?_
    refine Post.pure ?_
    obtain ⟨a, c⟩ := put_ok (t := { t with ppt := true, ppts := (t.ppts ++ List.replicate (z + 1 - t.ppts.length) none).set z (some data) }) h ht ⟨hok.tcp, hok.cod, hok.room, hok.cap⟩
    exact ⟨a, Nat.add_right_cancel c⟩

/-- The parameters of a tile next to the main header. -/
theorem inv_tile {u : User} {h0 h : Hdr.Dec} {t : Hdr.Tcp} (i : Inv u h0) (hs : h = { h0 with buf := h.buf })
    (ht : TcpInv u h0.comps.length t) : Inv u { h with tcp := t } := by
  have g := i.geom
  rw [hs]
  exact ⟨i.siz, ⟨g.image_x, g.image_y, g.tile_x, g.tile_y, g.count_x, g.count_y, g.count, g.comps_len, fun c hc =>
      ⟨(g.comps c hc).prec, (g.comps c hc).sgnd, (g.comps c hc).dx, (g.comps c hc).dy, (g.comps c hc).factor,
        (g.comps c hc).x0, (g.comps c hc).y0, (g.comps c hc).w, (g.comps c hc).h⟩⟩, ht⟩

theorem handleShared_post {u : User} {h0 : Hdr.Dec} {n : Nat} {b : Bool} {m : Nat} {d : Dec} {p : List UInt8} {size : Nat}
    (i : Inv u h0) (h : Ok u h0 n b d) (hm : allowed .tph m = true) (hp : size ≤ p.length) (hbig : 1000 ≤ p.length) :
    Post (handleShared u m d p size) (fun d' => Ok u h0 n b d' ∧ held d' = held d) := by
  unfold handleShared
  refine Post.bind (tileAt_post h h.cur) fun t ⟨ht, hok⟩ => ?_
  have hm1 : m ≠ 0xFF51 := by rintro rfl; exact nomatch hm
  have hi := inv_tile i h.same hok.tcp
  have hpost := Hdr.handle_siz_post (m := m) hi hm1 hp (by omega)
  have hsame := Hdr.handle_same (u := u) (d := { d.h with tcp := t.tcp }) (p := p) (size := size) hm
  have both : Post (Hdr.handle u m { d.h with tcp := t.tcp } p size)
      (fun h' => Hdr.Fine u { d.h with tcp := t.tcp } h' ∧ Hdr.Same { d.h with tcp := t.tcp } h') := by
    cases hr : Hdr.handle u m { d.h with tcp := t.tcp } p size with
    | error e => rw [hr] at hpost; exact hpost
    | ok h' => rw [hr] at hpost; exact Post.ok ⟨hpost.1, hsame h' hr⟩
  refine Post.bind both fun h' ⟨⟨_, hinv, hcod⟩, hs⟩ => ?_
  refine Post.pure ?_
  have e : { h' with tcp := d.h.tcp } = d.h := by
    rw [hs]
  rw [e]
  have hlen : h'.comps.length = h0.comps.length := by
    rw [hs]
    show d.h.comps.length = _
    rw [h.dims.2.2]
  have htile : TileOk u h0.comps.length n b { t with tcp := h'.tcp } := by
    refine ⟨?_, hcod hok.cod, hok.room, hok.cap⟩
    have := hinv.tcp
    rw [hlen] at this
    exact this
  obtain ⟨a, c⟩ := put_ok (d := { d with h := d.h }) (t := { t with tcp := h'.tcp }) h ht htile
  exact ⟨a, Nat.add_right_cancel c⟩

theorem handle_post {u : User} {h0 : Hdr.Dec} {n : Nat} {b : Bool} {m : Nat} {d : Dec} {p : List UInt8} {size : Nat}
    (i : Inv u h0) (h : Ok u h0 n b d) (hm : ¬ allowed d.st m = false) (hp : size ≤ p.length) (hbig : 1000 ≤ p.length) :
    Post (handle u m d p size) (fun d' => Ok u h0 n b d' ∧ held d' = held d) := by
  unfold handle
  refine Hdr.Post.ite (fun _ => readSot_post h hp) fun h1 => ?_
  have hst : allowed .tph m = true := by
    cases hs : d.st with
    | tph => rw [hs] at hm; simpa using hm
    | tphsot => rw [hs] at hm; unfold allowed at hm; simp at hm; exact absurd hm h1
    | neoc => rw [hs] at hm; exact absurd rfl hm
    | eoc => rw [hs] at hm; exact absurd rfl hm
  refine Hdr.Post.ite (fun _ => Hdr.Post.mono (readPlt_post hp) fun d' e => ⟨e ▸ h, by rw [e]⟩) fun _ => ?_
  refine Hdr.Post.ite (fun _ => readPpt_post h hp) fun _ => ?_
  exact handleShared_post i h hst hp hbig

/-- The decoder and the stream together, `e` bytes having been handed on. -/
structure Good (u : User) (h0 : Hdr.Dec) (file : List UInt8) (b : Bool) (e : Nat) (d : Dec) (s : Src) : Prop where
  ok : Ok u h0 file.length b d
  src : SrcOk file s
  held : held d + e ≤ s.off

theorem nextMarker_post {u : User} {h0 : Hdr.Dec} {file : List UInt8} {b : Bool} {e : Nat} {d : Dec} {s : Src}
    (hf : 0 < file.length) (h : Good u h0 file b e d s) :
    Post (nextMarker d s) (fun r => Good u h0 file b e r.2.1 r.2.2 ∧ s.pos ≤ r.2.2.pos) := by
  unfold nextMarker
  have hh := h.held
  split
  · split
    · next s' he =>
      obtain ⟨a, c, g⟩ := skip_true h.src hf he
      exact Post.ok ⟨⟨h.ok, a, by dsimp only; omega⟩, by dsimp only; omega⟩
    · exact Post.refused
  · refine Post.bind (load_post h.src) fun ⟨buf, s'⟩ ⟨a, hn, hb, ho, hpos, _⟩ => ?_
    dsimp only at a hn hb ho hpos ⊢
    have hbuf := h.ok.buf
    refine Post.bind (Hdr.next_post (by omega) (by omega)) fun ⟨m, _⟩ _ => ?_
    dsimp only
    exact Post.pure ⟨⟨h.ok.withBuf (by omega), a, by dsimp only; show Tp.held d + e ≤ _; omega⟩, by dsimp only; omega⟩

theorem segment_post {u : User} {h0 : Hdr.Dec} {file : List UInt8} {b : Bool} {e m len : Nat} {d : Dec} {s : Src}
    (i : Inv u h0) (hf : 0 < file.length) (h : Good u h0 file b e d s) :
    Post (segment u m len d s) (fun r => Good u h0 file b e r.2.1 r.2.2 ∧ s.pos ≤ r.2.2.pos) := by
  unfold segment
  dsimp only
  have hh := h.held
  refine Post.bind (Hdr.refuseIf_post _) fun _ h1 => ?_
  refine Post.bind (load_post h.src) fun ⟨buf, s'⟩ ⟨a, hn, hb, ho, hpos, _⟩ => ?_
  dsimp only at a hn hb ho hpos ⊢
  have hbuf := h.ok.buf
  refine Post.bind (handle_post (n := file.length) (b := b) i ?_ h1 hn (by omega)) fun d' ⟨hok, hheld⟩ => ?_
  · have := h.ok.withBuf (buf := buf) (by omega)
    exact ⟨this.same, this.buf, this.len, this.cur, this.tiles, this.strict⟩
  refine Post.mono (nextMarker_post hf (e := e) ⟨hok, a, ?_⟩) fun r ⟨hg, hr⟩ => ⟨hg, by omega⟩
  rw [hheld]
  show Tp.held d + e ≤ _
  omega

theorem header_post {u : User} {h0 : Hdr.Dec} {file : List UInt8} {b : Bool} {e : Nat}
    (i : Inv u h0) (hf : 0 < file.length) : ∀ (fuel m : Nat) (d : Dec) (s : Src), file.length - s.pos < fuel →
    Good u h0 file b e d s → Post (header u fuel m d s) (fun r => Good u h0 file b e r.2.1 r.2.2 ∧ s.pos ≤ r.2.2.pos)
  | 0, _, _, _, hfu, _ => by omega
  | fuel + 1, m, d, s, hfu, h => by
    unfold header
    refine Hdr.Post.ite (fun _ => Post.pure ⟨h, Nat.le_refl _⟩) fun _ => ?_
    have hh := h.held
    refine Post.bind (left_post h.src) fun l hl => ?_
    refine Hdr.Post.ite (fun _ => Post.pure ⟨⟨⟨h.ok.same, h.ok.buf, h.ok.len, h.ok.cur, h.ok.tiles, h.ok.strict⟩, h.src, h.held⟩,
      Nat.le_refl _⟩) fun _ => ?_
    refine Post.bind (load_post h.src) fun ⟨buf, s'⟩ ⟨a, hn, hb, ho, hpos, hin, _⟩ => ?_
    dsimp only at a hn hb ho hpos ⊢
    have hbuf := h.ok.buf
    have hin := hin (by omega)
    refine Post.bind (Hdr.next_post (by omega) (by omega)) fun ⟨len, _⟩ _ => ?_
    dsimp only
    refine Post.bind (Hdr.refuseIf_post _) fun _ h1 => ?_
    refine Post.bind (left_post a) fun l hl => ?_
    have hok := h.ok.withBuf (buf := buf) (by omega)
    refine Hdr.Post.ite (fun _ => Post.pure ⟨⟨⟨hok.same, hok.buf, hok.len, hok.cur, hok.tiles, hok.strict⟩, a, ?_⟩, ?_⟩) fun _ => ?_
    · show Tp.held d + e ≤ _
      dsimp only; omega
    · dsimp only; omega
    refine Post.bind (segment_post i hf (e := e) ⟨hok, a, ?_⟩) fun ⟨m', d', s2⟩ ⟨hg, hr⟩ => ?_
    · show Tp.held d + e ≤ _
      omega
    dsimp only at hg hr ⊢
    refine Post.mono (header_post i hf fuel m' d' s2 (by omega) hg) fun r ⟨hg2, hr2⟩ => ⟨hg2, by omega⟩

/-! ## The data -/

theorem readSod_post {u : User} {h0 : Hdr.Dec} {file : List UInt8} {b : Bool} {e : Nat} {d : Dec} {s : Src}
    (h : Good u h0 file b e d s) :
    Post (readSod d s) (fun r => Good u h0 file b e r.1 r.2 ∧ s.pos ≤ r.2.pos) := by
  unfold readSod
  have hh := h.held
  refine Post.bind (tileAt_post h.ok h.ok.cur) fun t ⟨ht, hok⟩ => ?_
  refine Post.bind (left_post h.src) fun l hl => ?_
  dsimp only
  have hoff := h.src.off
  generalize sodLength d l = n
  have hok' : Ok u h0 file.length b { d with sot := n } :=
    ⟨h.ok.same, h.ok.buf, h.ok.len, h.ok.cur, h.ok.tiles, h.ok.strict⟩
  refine Hdr.Post.ite (fun _ => Post.pure ⟨⟨⟨h.ok.same, h.ok.buf, h.ok.len, h.ok.cur, h.ok.tiles, h.ok.strict⟩, h.src, h.held⟩,
      Nat.le_refl _⟩) fun _ => ?_
  have hdl : dlen t ≤ held d := by
    have := sum_set dlen d.tiles d.cur t { t with data := none } ht
    have hz : dlen { t with data := none } = 0 := rfl
    unfold held
    omega
  have room : Post (sodRoom { d with sot := n } t n l) (fun cap => cap = dlen t + n + 2 ∧ (b = true → n ≤ l)) := by
    unfold sodRoom
    refine Post.bind (Hdr.refuseIf_post _) fun _ h1 => ?_
    refine Post.bind (Hdr.refuseIf_post _) fun _ h2 => ?_
    have hb : b = true → n ≤ l := by
      intro hb
      have : d.strict = true := by rw [h.ok.strict, hb]
      dsimp only at h1
      rw [this] at h1
      simp at h1; exact h1
    cases hd : t.data with
    | none => exact Post.pure ⟨by unfold dlen; rw [hd]; simp, hb⟩
    | some old =>
      refine Post.bind (Hdr.refuseIf_post _) fun _ h3 => ?_
      exact Post.pure ⟨by unfold dlen; rw [hd]; simp, hb⟩
  refine Post.bind room fun cap ⟨hcap, hb⟩ => ?_
  unfold sodStore
  dsimp only
  have hdl2 : dlen t = (t.data.getD []).length := rfl
  rw [if_neg (by omega)]
  have hcap2 : b = true → cap ≤ file.length + 2 := by
    intro hb'
    have := hb hb'
    omega
  split
  · next bs s' he =>
    obtain ⟨a, c, g, q, _, _⟩ := read_some h.src he
    have htile : TileOk u h0.comps.length file.length b { t with data := some (t.data.getD [] ++ bs), cap := cap } := by
      refine ⟨hok.tcp, hok.cod, ?_, hcap2⟩
      intro x hx
      injection hx with hx
      subst hx
      show (t.data.getD [] ++ bs).length + 2 ≤ cap
      rw [List.length_append]; omega
    obtain ⟨p1, p2⟩ := put_ok hok' ht htile
    refine Post.pure ⟨⟨⟨p1.same, p1.buf, p1.len, p1.cur, p1.tiles, p1.strict⟩, a, ?_⟩, by dsimp only; omega⟩
    show Tp.held (put { d with sot := n } { t with data := some (t.data.getD [] ++ bs), cap := cap }) + e ≤ s'.off
    have hz : dlen { t with data := some (t.data.getD [] ++ bs), cap := cap } = dlen t + bs.length := by
      show (t.data.getD [] ++ bs).length = _
      rw [List.length_append]; rfl
    have hz2 : Tp.held { d with sot := n } = Tp.held d := rfl
    omega
  · next s' he =>
    obtain ⟨a, c, g⟩ := read_none h.src he
    have htile : TileOk u h0.comps.length file.length b { t with data := some (t.data.getD []), cap := cap } := by
      refine ⟨hok.tcp, hok.cod, ?_, hcap2⟩
      intro x hx
      injection hx with hx
      subst hx
      show (t.data.getD []).length + 2 ≤ cap
      omega
    obtain ⟨p1, p2⟩ := put_ok hok' ht htile
    refine Post.pure ⟨⟨⟨p1.same, p1.buf, p1.len, p1.cur, p1.tiles, p1.strict⟩, a, ?_⟩, by dsimp only; omega⟩
    show Tp.held (put { d with sot := n } { t with data := some (t.data.getD []), cap := cap }) + e ≤ s'.off
    have hz : dlen { t with data := some (t.data.getD []), cap := cap } = dlen t := rfl
    have hz2 : Tp.held { d with sot := n } = Tp.held d := rfl
    omega

theorem needCorrection_post {file : List UInt8} (hf : 0 < file.length) (tile back : Nat) (hback : back ≤ file.length) :
    ∀ (fuel : Nat) (s : Src), file.length - s.pos < fuel → SrcOk file s → back ≤ s.off →
    Post (needCorrection tile back fuel s) (fun r => SrcOk file r.2 ∧ r.2.off = back ∧ s.pos + back ≤ r.2.pos + s.off)
  | 0, s, hfu, _, _ => by omega
  | fuel + 1, s, hfu, h, hb => by
    have hp := h.pos
    have back_post : ∀ (s1 : Src) (v : Bool), SrcOk file s1 → s.pos + s1.off ≤ s1.pos + s.off →
        Post (do let s2 ← s1.seek back; return (v, s2))
          (fun r : Bool × Src => SrcOk file r.2 ∧ r.2.off = back ∧ s.pos + back ≤ r.2.pos + s.off) := by
      intro s1 v h1 hle
      refine Post.bind (seek_post h1 hback) fun s2 ⟨a, c, g⟩ => ?_
      exact Post.pure ⟨a, c, by dsimp only; omega⟩
    unfold needCorrection
    split
    · next s1 he =>
      obtain ⟨a, c, g⟩ := read_none h he
      exact back_post s1 false a (by omega)
    · next b1 s1 he =>
      obtain ⟨a, hl, c, g, hin, _⟩ := read_some h he
      have hin := hin (by omega)
      refine Post.bind (Hdr.next_post (by omega) (by omega)) fun ⟨m, _⟩ _ => ?_
      dsimp only
      refine Hdr.Post.ite (fun _ => back_post s1 false a (by omega)) fun _ => ?_
      refine Post.bind (load_post a) fun ⟨b2, s2⟩ ⟨a2, hn2, _, ho2, hp2, _⟩ => ?_
      dsimp only at a2 hn2 ho2 hp2 ⊢
      refine Post.bind (Hdr.next_post (by omega) (by omega)) fun ⟨len, _⟩ _ => ?_
      dsimp only
      refine Post.bind (Hdr.refuseIf_post _) fun _ _ => ?_
      refine Post.bind (load_post a2) fun ⟨b3, s3⟩ ⟨a3, hn3, _, ho3, hp3, _⟩ => ?_
      dsimp only at a3 hn3 ho3 hp3 ⊢
      refine Post.bind (sotValues_post (by omega)) fun ⟨i, tot, part, num⟩ _ => ?_
      dsimp only
      refine Hdr.Post.ite (fun _ => back_post s3 _ a3 (by omega)) fun _ => ?_
      refine Hdr.Post.ite (fun _ => back_post s3 _ a3 (by omega)) fun _ => ?_
      split
      · next s4 he4 =>
        have := skip_false he4
        subst this
        exact back_post s4 _ a3 (by omega)
      · next s4 he4 =>
        obtain ⟨a4, c4, g4⟩ := skip_true a3 hf he4
        refine Post.mono (needCorrection_post hf tile back hback fuel s4 (by omega) a4 (by omega)) fun r ⟨x, y, z⟩ =>
          ⟨x, y, by omega⟩

theorem correct_ok {u : User} {h0 : Hdr.Dec} {n : Nat} {b : Bool} {d : Dec} (h : Ok u h0 n b d) :
    Ok u h0 n b (correct d) ∧ held (correct d) = held d := by
  refine ⟨⟨h.same, h.buf, ?_, h.cur, ?_, h.strict⟩, ?_⟩
  · show (d.tiles.map _).length = _
    rw [List.length_map]; exact h.len
  · intro x hx
    obtain ⟨t, ht, rfl⟩ := List.mem_map.mp hx
    have := h.tiles t ht
    exact ⟨this.tcp, this.cod, this.room, this.cap⟩
  · show ((d.tiles.map _).map dlen).sum = (d.tiles.map dlen).sum
    rw [List.map_map]
    rfl

theorem body_post {u : User} {h0 : Hdr.Dec} {file : List UInt8} {b : Bool} {e : Nat} {d : Dec} {s : Src}
    (hf : 0 < file.length) (h : Good u h0 file b e d s) :
    Post (body d s) (fun r => Good u h0 file b e r.1 r.2 ∧ s.pos ≤ r.2.pos) := by
  unfold body
  refine Hdr.Post.ite (fun _ => Post.pure ⟨⟨⟨h.ok.same, h.ok.buf, h.ok.len, h.ok.cur, h.ok.tiles, h.ok.strict⟩, h.src, h.held⟩,
      Nat.le_refl _⟩) fun _ => ?_
  refine Post.bind (readSod_post h) fun ⟨d1, s1⟩ ⟨hg, hpos⟩ => ?_
  dsimp only at hg hpos ⊢
  refine Hdr.Post.ite (fun _ => ?_) fun _ => Post.pure ⟨hg, hpos⟩
  have hheld := hg.held
  refine Post.bind (needCorrection_post hf _ _ hg.src.off _ s1 (by rw [hg.src.data]; omega) hg.src (Nat.le_refl _))
    fun ⟨need, s2⟩ ⟨a, c, g⟩ => ?_
  dsimp only at a c g ⊢
  refine Post.pure ⟨?_, by dsimp only; omega⟩
  have hok : Ok u h0 file.length b { d1 with checked := true } :=
    ⟨hg.ok.same, hg.ok.buf, hg.ok.len, hg.ok.cur, hg.ok.tiles, hg.ok.strict⟩
  cases need with
  | false => exact ⟨hok, a, by show Tp.held d1 + e ≤ s2.off; omega⟩
  | true =>
    obtain ⟨x, y⟩ := correct_ok hok
    refine ⟨x, a, ?_⟩
    show Tp.held (correct { d1 with checked := true }) + e ≤ s2.off
    rw [y]
    show Tp.held d1 + e ≤ s2.off
    omega

theorem spot6_some {d : Dec} {i : Nat} (h : spot6 d = some i) : i < d.tiles.length := by
  unfold spot6 at h
  split at h
  · obtain ⟨h1, _⟩ := List.findIdx?_eq_some_iff_getElem.mp h
    exact h1
  · exact nomatch h

theorem gather_post {u : User} {h0 : Hdr.Dec} {file : List UInt8} {b : Bool} {e : Nat}
    (i : Inv u h0) (hf : 0 < file.length) : ∀ (fuel m : Nat) (d : Dec) (s : Src), file.length - s.pos < fuel →
    Good u h0 file b e d s → Post (gather u fuel m d s) (fun r => Good u h0 file b e r.2.1 r.2.2)
  | 0, _, _, _, hfu, _ => by omega
  | fuel + 1, m, d, s, hfu, h => by
    unfold gather
    refine Hdr.Post.ite (fun _ => Post.pure h) fun _ => ?_
    refine Post.bind (header_post i hf _ m d s (by rw [h.src.data]; omega) h) fun ⟨m1, d1, s1⟩ ⟨h1, hp1⟩ => ?_
    dsimp only at h1 hp1 ⊢
    refine Post.bind (left_post h1.src) fun l hl => ?_
    refine Hdr.Post.ite (fun _ => Post.pure h1) fun _ => ?_
    refine Post.bind (body_post hf h1) fun ⟨d2, s2⟩ ⟨h2, hp2⟩ => ?_
    dsimp only at h2 hp2 ⊢
    refine Hdr.Post.ite (fun _ => Post.pure h2) fun _ => ?_
    have hheld := h2.held
    have hbuf := h2.ok.buf
    split
    · next bs s3 he =>
      obtain ⟨a, hl, c, g, hin, _⟩ := read_some h2.src he
      have hin := hin (by omega)
      have hbl : 1000 ≤ (bs ++ d2.h.buf.drop 2).length := by
        rw [List.length_append, List.length_drop]; omega
      refine Post.bind (Hdr.next_post (by omega) (by omega)) fun ⟨m3, _⟩ _ => ?_
      dsimp only
      exact gather_post i hf fuel m3 _ s3 (by omega)
        ⟨h2.ok.withBuf hbl, a, by show Tp.held d2 + e ≤ _; omega⟩
    · next s3 he =>
      obtain ⟨a, c, g⟩ := read_none h2.src he
      split
      · next k hk =>
        have := spot6_some hk
        rw [h2.ok.len] at this
        exact Post.pure ⟨⟨h2.ok.same, h2.ok.buf, h2.ok.len, this, h2.ok.tiles, h2.ok.strict⟩, a,
          by show Tp.held d2 + e ≤ s3.off; omega⟩
      · exact Post.refused

/-! ## Tiles -/

theorem mergePpt_post {t : Tile} : Post (mergePpt t)
    (fun t' => t'.tcp = t.tcp ∧ t'.data = t.data ∧ t'.cap = t.cap) := by
  unfold mergePpt
  refine Post.bind (Hdr.refuseIf_post _) fun _ _ => ?_
  refine Hdr.Post.ite (fun _ => Post.pure ⟨rfl, rfl, rfl⟩) fun _ => ?_
  dsimp only
  refine Post.bind (Hdr.refuseIf_post _) fun _ _ => ?_
  exact Post.pure ⟨rfl, rfl, rfl⟩

/-- `Ok` looks at these fields only. -/
theorem Ok.with {u : User} {h0 : Hdr.Dec} {n : Nat} {b : Bool} {d d' : Dec} (h : Ok u h0 n b d) (hh : d'.h = d.h)
    (ht : d'.tiles = d.tiles) (hs : d'.strict = d.strict) (hc : d'.cur < h0.tw * h0.th) : Ok u h0 n b d' :=
  ⟨by rw [hh]; exact h.same, by rw [hh]; exact h.buf, by rw [ht]; exact h.len, hc, by rw [ht]; exact h.tiles,
    by rw [hs]; exact h.strict⟩

theorem firstWithData_le {d : Dec} {i : Nat} (h : i ≤ d.tiles.length) : firstWithData d i ≤ d.tiles.length := by
  unfold firstWithData
  have := List.findIdx_le_length (xs := d.tiles.drop i) (p := fun t => t.data.isSome)
  rw [List.length_drop] at this
  omega

theorem choose_post {u : User} {h0 : Hdr.Dec} {file : List UInt8} {b : Bool} {e m : Nat} {d : Dec} {s : Src}
    (i : Inv u h0) (h : Good u h0 file b e d s) :
    Post (choose m d) (fun r => (r.1 = true → Good u h0 file b e r.2 s) ∧ (r.1 = false → r.2.cur = h0.tw * h0.th)) := by
  unfold choose
  dsimp only
  have hnb : 0 < h0.tw * h0.th := Nat.mul_pos i.geom.count.1 i.geom.count.2.1
  obtain ⟨d1, hd1⟩ : ∃ d1, d1 = (if m = 0xFFD9 ∧ ¬ (d.st = .eoc) then { d with cur := 0, st := .eoc } else d) := ⟨_, rfl⟩
  rw [← hd1]
  have g1 : Ok u h0 file.length b d1 ∧ held d1 = held d := by
    rw [hd1]
    split
    · exact ⟨h.ok.with rfl rfl rfl hnb, rfl⟩
    · exact ⟨h.ok, rfl⟩
  obtain ⟨hok1, hheld1⟩ := g1
  have hcur := hok1.cur
  have hlen := hok1.len
  have hle := firstWithData_le (d := d1) (i := d1.cur) (by omega)
  by_cases hcan : d1.can = true
  · rw [if_pos hcan, if_neg (by rw [hcan]; rintro ⟨hh, _⟩; exact nomatch hh)]
    refine Post.bind (tileAt_post hok1 hok1.cur) fun t ⟨ht, hok⟩ => ?_
    refine Post.bind mergePpt_post fun t' ⟨e1, e2, e3⟩ => ?_
    refine Post.pure ⟨fun _ => ?_, (fun hh => nomatch hh)⟩
    obtain ⟨a, c⟩ := put_ok (t := t') hok1 ht
      ⟨by rw [e1]; exact hok.tcp, by rw [e1]; exact hok.cod, by rw [e2, e3]; exact hok.room, by rw [e3]; exact hok.cap⟩
    refine ⟨a.with rfl rfl rfl a.cur, h.src, ?_⟩
    have hz : dlen t' = dlen t := by unfold dlen; rw [e2]
    have := h.held
    show held (put d1 t') + e ≤ s.off
    omega
  · have hcan' : d1.can = false := by simpa using hcan
    rw [if_neg hcan]
    have hdim := hok1.dims
    refine Hdr.Post.ite (fun hy => Post.pure ⟨(fun hh => nomatch hh), fun _ => ?_⟩) fun hne => ?_
    · have h2 := hy.2
      dsimp only at h2 ⊢
      rw [hdim.1, hdim.2.1] at h2
      exact h2
    dsimp only at hne
    rw [hdim.1, hdim.2.1] at hne
    have hlt : firstWithData d1 d1.cur < h0.tw * h0.th := by
      have : ¬ firstWithData d1 d1.cur = h0.tw * h0.th := fun hh => hne ⟨hcan', hh⟩
      omega
    have hok2 : Ok u h0 file.length b { d1 with cur := firstWithData d1 d1.cur } := hok1.with rfl rfl rfl hlt
    refine Post.bind (tileAt_post hok2 hok2.cur) fun t ⟨ht, hok⟩ => ?_
    refine Post.bind mergePpt_post fun t' ⟨e1, e2, e3⟩ => ?_
    refine Post.pure ⟨fun _ => ?_, (fun hh => nomatch hh)⟩
    obtain ⟨a, c⟩ := put_ok (t := t') hok2 ht
      ⟨by rw [e1]; exact hok.tcp, by rw [e1]; exact hok.cod, by rw [e2, e3]; exact hok.room, by rw [e3]; exact hok.cap⟩
    refine ⟨a.with rfl rfl rfl a.cur, h.src, ?_⟩
    have hz : dlen t' = dlen t := by unfold dlen; rw [e2]
    have hz2 : held { d1 with cur := firstWithData d1 d1.cur } = held d1 := rfl
    have := h.held
    show held (put { d1 with cur := firstWithData d1 d1.cur } t') + e ≤ s.off
    omega

theorem readTileHeader_post {u : User} {h0 : Hdr.Dec} {file : List UInt8} {b : Bool} {e : Nat} {d : Dec} {s : Src}
    (i : Inv u h0) (hf : 0 < file.length) (h : Good u h0 file b e d s) :
    Post (readTileHeader u d s) (fun r => (r.1 = true → Good u h0 file b e r.2.1 r.2.2) ∧
      (r.1 = false → r.2.1.cur = h0.tw * h0.th)) := by
  unfold readTileHeader
  refine Post.bind (Hdr.refuseIf_post _) fun _ _ => ?_
  refine Post.bind (gather_post i hf _ _ d s (by rw [h.src.data]; omega) h) fun ⟨m, d1, s1⟩ h1 => ?_
  dsimp only at h1 ⊢
  refine Post.bind (choose_post i h1) fun ⟨g, d2⟩ h2 => ?_
  exact Post.pure h2

theorem afterTile_post {u : User} {h0 : Hdr.Dec} {file : List UInt8} {b : Bool} {e : Nat} {d : Dec} {s : Src}
    (i : Inv u h0) (h : Good u h0 file b e d s) :
    Post (afterTile d s) (fun r => Good u h0 file b e r.1 r.2 ∧ r.1.tiles = d.tiles) := by
  unfold afterTile
  have hnb : 0 < h0.tw * h0.th := Nat.mul_pos i.geom.count.1 i.geom.count.2.1
  have hheld := h.held
  refine Post.bind (left_post h.src) fun l hl => ?_
  refine Hdr.Post.ite (fun _ => Post.pure ⟨h, rfl⟩) fun _ => ?_
  refine Hdr.Post.ite (fun _ => Post.pure ⟨h, rfl⟩) fun _ => ?_
  split
  · exact Post.refused
  · next bs s3 he =>
    obtain ⟨a, hl, c, g, hin, _⟩ := read_some h.src he
    refine Post.bind (Hdr.next_post (by omega) (by omega)) fun ⟨m3, _⟩ _ => ?_
    dsimp only
    refine Hdr.Post.ite (fun _ => Post.pure ⟨⟨h.ok.with rfl rfl rfl hnb, a, by show Tp.held d + e ≤ s3.off; omega⟩, rfl⟩) fun _ => ?_
    refine Hdr.Post.ite (fun _ => ?_) fun _ => Post.pure ⟨⟨h.ok, a, by dsimp only; omega⟩, rfl⟩
    refine Post.bind (left_post a) fun l hl => ?_
    refine Post.bind (Hdr.refuseIf_post _) fun _ _ => ?_
    exact Post.pure ⟨⟨h.ok.with rfl rfl rfl h.ok.cur, a, by show Tp.held d + e ≤ s3.off; omega⟩, rfl⟩

/-- What the decoding of a tile gets is in range. -/
structure JobOk (u : User) (h0 : Hdr.Dec) (j : Job) : Prop where
  tile : j.tile < h0.tw * h0.th
  tcp : TcpInv u h0.comps.length j.tcp
  cod : CodDone u j.tcp

theorem decodeTile_post {u : User} {h0 : Hdr.Dec} {file : List UInt8} {b : Bool} {e k : Nat} {d : Dec} {s : Src}
    (i : Inv u h0) (h : Good u h0 file b e d s) :
    Post (decodeTile d k s) (fun r => Good u h0 file b e r.2.1 r.2.2 ∧ JobOk u h0 r.1 ∧ k = d.cur ∧
      ∃ t, r.2.1.tiles[k]? = some t ∧ t.data = some r.1.data) := by
  unfold decodeTile
  refine Post.bind (Hdr.refuseIf_post _) fun _ h1 => ?_
  have hk : k = d.cur := by
    by_cases e : k = d.cur
    · exact e
    · exact absurd (Or.inr e) h1
  have hcur := h.ok.cur
  refine Post.bind (tileAt_post h.ok (by omega)) fun t ⟨ht, hok⟩ => ?_
  split
  · exact Post.refused
  · next data hd =>
    refine Post.bind (afterTile_post i (d := { d with can := false, ready := false })
      ⟨h.ok.with rfl rfl rfl h.ok.cur, h.src, h.held⟩) fun ⟨d2, s2⟩ ⟨hg, ht2⟩ => ?_
    dsimp only at hg ht2 ⊢
    exact Post.pure ⟨hg, ⟨by dsimp only; omega, hok.tcp, hok.cod⟩, hk, t, by dsimp only; rw [ht2]; exact ht, hd⟩

theorem destroy_post {u : User} {h0 : Hdr.Dec} {file : List UInt8} {b : Bool} {e k : Nat} {d : Dec} {s : Src} {t : Tile}
    {data : List UInt8} (h : Good u h0 file b e d s) (ht : d.tiles[k]? = some t) (hd : t.data = some data) :
    Post (destroy d k) (fun d' => Good u h0 file b (e + data.length) d' s) := by
  unfold destroy
  rw [tileAt_ok ht]
  refine Post.pure ?_
  have hm := h.ok.tiles t (List.mem_of_getElem? ht)
  have hs := sum_set dlen d.tiles k t { t with data := none } ht
  refine ⟨⟨h.ok.same, h.ok.buf, ?_, h.ok.cur, ?_, h.ok.strict⟩, h.src, ?_⟩
  · show (d.tiles.set k _).length = _
    rw [List.length_set]; exact h.ok.len
  · intro x hx
    rcases List.mem_or_eq_of_mem_set hx with hx | rfl
    · exact h.ok.tiles x hx
    · exact ⟨hm.tcp, hm.cod, (fun _ hh => nomatch hh), hm.cap⟩
  · show ((d.tiles.set k { t with data := none }).map dlen).sum + (e + data.length) ≤ s.off
    have hz : dlen { t with data := none } = 0 := rfl
    have hz2 : dlen t = data.length := by unfold dlen; rw [hd]; rfl
    have := h.held
    unfold held at this
    omega

/-- The bytes handed on. -/
def total (js : List Job) : Nat := (js.map fun j => j.data.length).sum

theorem tilesLoop_post {u : User} {h0 : Hdr.Dec} {file : List UInt8} {b : Bool} (i : Inv u h0) (hf : 0 < file.length) :
    ∀ (n e : Nat) (d : Dec) (s : Src), Good u h0 file b e d s →
    Post (tilesLoop u n d s) (fun js => (∀ j ∈ js, JobOk u h0 j) ∧ e + total js ≤ file.length ∧ js.length ≤ n)
  | 0, e, d, s, h => by
    unfold tilesLoop
    have := h.held
    have := h.src.off
    exact Post.ok ⟨by simp, by simp [total]; omega, Nat.le_refl _⟩
  | n + 1, e, d, s, h => by
    unfold tilesLoop
    have h1 := h.held
    have h2 := h.src.off
    refine Post.bind (readTileHeader_post i hf h) fun ⟨g, d1, s1⟩ ⟨ht, _⟩ => ?_
    dsimp only at ht ⊢
    refine Hdr.Post.ite (fun _ => Post.pure ⟨by simp, by simp [total]; omega, Nat.zero_le _⟩) fun hg => ?_
    have hgood := ht (by simpa using hg)
    refine Post.bind (decodeTile_post i hgood) fun ⟨job, d2, s2⟩ ⟨hg2, hjob, _, t, htile, hdata⟩ => ?_
    dsimp only at hg2 hjob htile hdata ⊢
    refine Post.bind (destroy_post hg2 htile hdata) fun d3 hg3 => ?_
    have h3 := hg3.held
    have h4 := hg3.src.off
    refine Post.bind (left_post hg3.src) fun l hl => ?_
    refine Hdr.Post.ite (fun _ => Post.pure ⟨?_, ?_, by simp⟩) fun _ => ?_
    · intro j hj
      rw [List.mem_singleton.mp hj]; exact hjob
    · simp [total]; omega
    refine Post.bind (tilesLoop_post i hf n _ d3 s2 hg3) fun rest ⟨ha, hb, hc⟩ => ?_
    refine Post.pure ⟨?_, ?_, by simp; omega⟩
    · intro j hj
      rcases List.mem_cons.mp hj with rfl | hj
      · exact hjob
      · exact ha j hj
    · simp only [total, List.map_cons, List.sum_cons] at hb ⊢; omega

theorem decodeTiles_post {u : User} {h0 : Hdr.Dec} {file : List UInt8} {b : Bool} {d : Dec} {s : Src} (i : Inv u h0)
    (hf : 0 < file.length) (whole : Bool) (h : Good u h0 file b 0 d s) :
    Post (decodeTiles u whole d s) (fun js => (∀ j ∈ js, JobOk u h0 j) ∧ total js ≤ file.length ∧
      js.length ≤ h0.tw * h0.th) := by
  unfold decodeTiles
  have hnb : 0 < h0.tw * h0.th := Nat.mul_pos i.geom.count.1 i.geom.count.2.1
  refine Hdr.Post.ite (fun _ => ?_) fun _ => ?_
  · refine Post.bind (readTileHeader_post i hf h) fun ⟨g, d1, s1⟩ ⟨ht, hfl⟩ => ?_
    dsimp only at ht hfl ⊢
    cases g with
    | false =>
      have := hfl rfl
      unfold decodeTile
      have hr : refuseIf (d1.ready = false ∨ (if false = true then d1.cur else 0) ≠ d1.cur) = .error .refused := by
        unfold refuseIf
        rw [if_pos]
        right
        rw [if_neg (by decide)]
        omega
      rw [hr]
      exact Post.refused
    | true =>
      refine Post.bind (decodeTile_post i (ht rfl)) fun ⟨job, d2, s2⟩ ⟨hg2, hjob, _, t, htile, hdata⟩ => ?_
      dsimp only at hg2 hjob htile hdata ⊢
      have hs := sum_set dlen d2.tiles _ t { t with data := none } htile
      have hz : dlen { t with data := none } = 0 := rfl
      have hz2 : dlen t = job.data.length := by unfold dlen; rw [hdata]; rfl
      have hheld := hg2.held
      have hoff := hg2.src.off
      unfold held at hheld
      refine Post.pure ⟨?_, ?_, by simp; omega⟩
      · intro j hj
        rw [List.mem_singleton.mp hj]; exact hjob
      · simp [total]; omega
  · have hd := h.ok.dims
    rw [hd.1, hd.2.1]
    refine Post.mono (tilesLoop_post i hf _ 0 d s h) fun js ⟨a, c, e⟩ => ⟨a, by omega, e⟩

end Jp2.Tp

import Verif.Jp2.HdrSpec
import Verif.Jp2.CioProps
/-!
# Reading any bytes as a header: helper lemmas
-/
namespace Jp2.Hdr

/-- A call ends well, with `Q`, or refuses. -/
def Post {α : Type} (r : R α) (Q : α → Prop) : Prop :=
  match r with
  | .ok a => Q a
  | .error f => f = .refused

theorem Post.ok {α : Type} {a : α} {Q : α → Prop} (h : Q a) : Post (.ok a) Q := h

theorem Post.pure {α : Type} {a : α} {Q : α → Prop} (h : Q a) : Post (Pure.pure a) Q := h

theorem Post.refused {α : Type} {Q : α → Prop} : Post (.error .refused : R α) Q := rfl

theorem Post.bind {α β : Type} {x : R α} {f : α → R β} {P : α → Prop} {Q : β → Prop}
    (hx : Post x P) (hf : ∀ a, P a → Post (f a) Q) : Post (x >>= f) Q := by
  cases x with
  | ok a => exact hf a hx
  | error e => exact hx

theorem Post.mono {α : Type} {x : R α} {P Q : α → Prop} (hx : Post x P) (h : ∀ a, P a → Q a) : Post x Q := by
  cases x with
  | ok a => exact h a hx
  | error e => exact hx

theorem Post.of_ok {α : Type} {x : R α} {P : α → Prop} {a : α} (h : Post x P) (e : x = .ok a) : P a := by
  subst e; exact h

theorem refuseIf_post (c : Prop) [Decidable c] : Post (refuseIf c) (fun _ => ¬ c) := by
  unfold refuseIf
  split
  · exact Post.refused
  · exact Post.ok (by assumption)

theorem next_eq {nb : Nat} {p : List UInt8} (h : nb ≤ p.length) (h4 : 1 ≤ nb ∧ nb ≤ 4) :
    next nb p = .ok (Cio.fromBe (p.take nb), p.drop nb) := by
  unfold next Cio.readBytes Cio.sliceOf
  rw [if_pos (by omega), if_pos (by omega)]
  simp [Cio.fromBe_zeros]

theorem next_post {nb : Nat} {p : List UInt8} (h : nb ≤ p.length) (h4 : 1 ≤ nb ∧ nb ≤ 4) :
    Post (next nb p) (fun r => r.1 < 256 ^ nb ∧ r.2.length = p.length - nb) := by
  rw [next_eq h h4]
  refine ⟨?_, by simp⟩
  have := Cio.fromBe_lt (p.take nb)
  have hl : (p.take nb).length = nb := by simp; omega
  rw [hl] at this
  exact this

theorem bytesAt_post {n : Nat} {p : List UInt8} (h : n ≤ p.length) :
    Post (bytesAt n p) (fun r => r = p.take n) := by
  unfold bytesAt; rw [if_pos h]; exact Post.ok rfl

theorem put_post {α : Type} {old new : List α} (h : new.length ≤ old.length) :
    Post (put old new) (fun r => r = new ++ old.drop new.length) := by
  unfold put; rw [if_pos h]; exact Post.ok rfl

/-! ## The invariant -/

/-- What always holds of the parameters of one component. -/
structure TccpInv (u : User) (t : Tccp) : Prop where
  style : t.numres = 0 ∨ StyleOk u t
  prcs_len : t.prcs.length = 33
  quant : QuantOk t
  csty : t.csty ≤ 255
  roi : t.roishift ≤ 255

/-- What always holds of the tile parameters, for `n` components. -/
structure TcpInv (u : User) (n : Nat) (t : Tcp) : Prop where
  len : t.tccps.length = n
  tccps : ∀ c ∈ t.tccps, TccpInv u c
  pocs_len : t.pocs.length < 32
  pocs : ∀ p ∈ t.pocs, PocOk n p
  layers : t.numlayers ≤ 65535
  mccs : ∀ r ∈ t.mccs, (∀ k, r.deco = some k → k < t.mcts.length) ∧ ∀ k, r.offs = some k → k < t.mcts.length
  spare : (∀ k, t.mccSpare.deco = some k → k < t.mcts.length) ∧ ∀ k, t.mccSpare.offs = some k → k < t.mcts.length
  matrix : ∀ e vs, t.matrix = some (e, vs) → vs.length = n * n

/-- What holds behind a `COD` marker. -/
structure CodDone (u : User) (t : Tcp) : Prop where
  csty : t.csty ≤ 7
  prg : -1 ≤ t.prg ∧ t.prg ≤ 4
  layers : 1 ≤ t.numlayers
  mct : t.mct ≤ 1
  style : ∀ c ∈ t.tccps, StyleOk u c

/-- What a handler leaves alone. -/
structure Keep (d d' : Dec) : Prop where
  buf : d'.buf = d.buf
  hasSiz : d'.hasSiz = d.hasSiz
  hasCod : d'.hasCod = d.hasCod
  hasQcd : d'.hasQcd = d.hasQcd

/-- The invariant behind `SIZ`. -/
structure Inv (u : User) (d : Dec) : Prop where
  siz : d.siz = true
  geom : GeomOk u d
  tcp : TcpInv u d.comps.length d.tcp

/-- What every handler but those of `SIZ` and `COD` does. -/
def Fine (u : User) (d d' : Dec) : Prop := Keep d d' ∧ Inv u d' ∧ (CodDone u d.tcp → CodDone u d'.tcp)

/-- A change of the tile parameters only. -/
theorem Inv.withTcp {u : User} {d : Dec} {t : Tcp} (h : Inv u d) (ht : TcpInv u d.comps.length t)
    (hc : CodDone u d.tcp → CodDone u t) : Fine u d { d with tcp := t } :=
  ⟨⟨rfl, rfl, rfl, rfl⟩, ⟨h.siz, ⟨h.geom.image_x, h.geom.image_y, h.geom.tile_x, h.geom.tile_y, h.geom.count_x,
    h.geom.count_y, h.geom.count, h.geom.comps_len, fun c hc => ⟨(h.geom.comps c hc).prec, (h.geom.comps c hc).sgnd,
      (h.geom.comps c hc).dx, (h.geom.comps c hc).dy, (h.geom.comps c hc).factor, (h.geom.comps c hc).x0,
      (h.geom.comps c hc).y0, (h.geom.comps c hc).w, (h.geom.comps c hc).h⟩⟩, ht⟩, hc⟩

theorem Inv.fine {u : User} {d : Dec} (h : Inv u d) : Fine u d d := ⟨⟨rfl, rfl, rfl, rfl⟩, h, id⟩

/-! ## Coding style -/

theorem readPrcs_post : ∀ (n i : Nat) (p : List UInt8), n ≤ p.length →
    Post (readPrcs n i p) (fun l => l.length = n ∧
      ∀ r q, l[r]? = some q → q.1 ≤ 15 ∧ q.2 ≤ 15 ∧ (0 < i + r → 0 < q.1 ∧ 0 < q.2))
  | 0, i, p, _ => by
    unfold readPrcs
    exact Post.ok ⟨rfl, by intro r q h; simp at h⟩
  | n + 1, i, p, h => by
    unfold readPrcs
    refine Post.bind (next_post (by omega) (by omega)) fun ⟨v, p'⟩ ⟨hv, hp⟩ => ?_
    dsimp only at hv hp ⊢
    refine Post.bind (refuseIf_post _) fun _ hr => ?_
    refine Post.bind (readPrcs_post n (i + 1) p' (by omega)) fun l ⟨hl, hq⟩ => ?_
    refine Post.pure ⟨by simp [hl], ?_⟩
    intro r q hrq
    cases r with
    | zero =>
      simp at hrq
      subst hrq
      dsimp only
      refine ⟨by omega, by omega, ?_⟩
      intro h0
      have : ¬ (v % 16 = 0 ∨ v / 16 = 0) := fun hc => hr ⟨by omega, hc⟩
      omega
    | succ r =>
      simp at hrq
      obtain ⟨a, b, c⟩ := hq r q hrq
      exact ⟨a, b, fun _ => c (by omega)⟩

theorem get_put {α : Type} {new rest : List α} {r : Nat} {q : α} (h : (new ++ rest)[r]? = some q) (hr : r < new.length) :
    new[r]? = some q := by
  rw [List.getElem?_append_left hr] at h; exact h

theorem readSPCod_post {u : User} {t : Tccp} {p : List UInt8} {size : Nat} (hp : size ≤ p.length)
    (ht : t.prcs.length = 33) (hq : QuantOk t) (hc : t.csty ≤ 255) (hroi : t.roishift ≤ 255) :
    Post (readSPCod u t p size) (fun r => TccpInv u r.1 ∧ StyleOk u r.1) := by
  unfold readSPCod
  refine Post.bind (refuseIf_post _) fun _ h1 => ?_
  refine Post.bind (next_post (by omega) (by omega)) fun ⟨r, p1⟩ ⟨hr, hp1⟩ => ?_
  dsimp only at hr hp1 ⊢
  refine Post.bind (refuseIf_post _) fun _ h2 => ?_
  refine Post.bind (refuseIf_post _) fun _ h3 => ?_
  refine Post.bind (next_post (by omega) (by omega)) fun ⟨w, p2⟩ ⟨hw, hp2⟩ => ?_
  dsimp only at hw hp2 ⊢
  refine Post.bind (next_post (by omega) (by omega)) fun ⟨h, p3⟩ ⟨hh, hp3⟩ => ?_
  dsimp only at hh hp3 ⊢
  refine Post.bind (refuseIf_post _) fun _ h4 => ?_
  refine Post.bind (next_post (by omega) (by omega)) fun ⟨s, p4⟩ ⟨hs, hp4⟩ => ?_
  dsimp only at hs hp4 ⊢
  refine Post.bind (refuseIf_post _) fun _ h5 => ?_
  refine Post.bind (next_post (by omega) (by omega)) fun ⟨q, p5⟩ ⟨hq', hp5⟩ => ?_
  dsimp only at hq' hp5 ⊢
  refine Post.bind (refuseIf_post _) fun _ h6 => ?_
  split
  · refine Post.bind (refuseIf_post _) fun _ h7 => ?_
    refine Post.bind (readPrcs_post (r + 1) 0 p5 (by omega)) fun new ⟨hn, hnew⟩ => ?_
    refine Post.bind (put_post (by omega)) fun prcs hprcs => ?_
    have S : StyleOk u { t with numres := r + 1, cblkw := w + 2, cblkh := h + 2, cblksty := s, qmfbid := q, prcs := prcs } := by
      refine ⟨?_, ?_, ?_, ?_, ?_, ?_, ?_, ?_⟩ <;> dsimp only <;> try omega
      intro i x hx hi
      subst hprcs
      obtain ⟨a, b, c⟩ := hnew i x (get_put hx (by omega))
      exact ⟨a, b, fun hh => c (by omega)⟩
    refine Post.pure ⟨⟨Or.inr S, ?_, ⟨hq.qntsty, hq.numgbits, hq.steps_len, hq.steps⟩, hc, hroi⟩, S⟩
    subst hprcs
    simp; omega
  · refine Post.bind (put_post (by simp; omega)) fun prcs hprcs => ?_
    have S : StyleOk u { t with numres := r + 1, cblkw := w + 2, cblkh := h + 2, cblksty := s, qmfbid := q, prcs := prcs } := by
      refine ⟨?_, ?_, ?_, ?_, ?_, ?_, ?_, ?_⟩ <;> dsimp only <;> try omega
      intro i x hx hi
      subst hprcs
      have := get_put hx (by simp; omega)
      rw [List.getElem?_replicate, if_pos (by omega)] at this
      injection this with this
      subst this
      exact ⟨by decide, by decide, fun _ => ⟨by decide, by decide⟩⟩
    refine Post.pure ⟨⟨Or.inr S, ?_, ⟨hq.qntsty, hq.numgbits, hq.steps_len, hq.steps⟩, hc, hroi⟩, S⟩
    subst hprcs
    simp; omega

theorem mapR_post {α β : Type} {f : α → R β} {P : α → Prop} {Q : β → Prop} :
    ∀ l : List α, (∀ a ∈ l, P a) → (∀ a, P a → Post (f a) Q) →
      Post (mapR f l) (fun r => r.length = l.length ∧ ∀ b ∈ r, Q b)
  | [], _, _ => by unfold mapR; exact Post.ok ⟨rfl, by simp⟩
  | a :: l, ha, hf => by
    unfold mapR
    refine Post.bind (hf a (ha a (by simp))) fun b hb => ?_
    refine Post.bind (mapR_post l (fun x hx => ha x (by simp [hx])) hf) fun r ⟨hr, hq⟩ => ?_
    refine Post.pure ⟨by simp [hr], ?_⟩
    intro x hx
    rcases List.mem_cons.1 hx with h | h
    · subst h; exact hb
    · exact hq x h

theorem copyStyle_post {u : User} {ref t : Tccp} (hr : StyleOk u ref) (hrl : ref.prcs.length = 33) (ht : TccpInv u t) :
    Post (copyStyle ref t) (fun r => TccpInv u r ∧ StyleOk u r) := by
  unfold copyStyle
  have hlen : (ref.prcs.take ref.numres).length = ref.numres := by
    have := hr.numres; simp; omega
  refine Post.bind (put_post (by rw [hlen, ht.prcs_len]; exact hr.numres.2)) fun prcs hprcs => ?_
  have S : StyleOk u { t with numres := ref.numres, cblkw := ref.cblkw, cblkh := ref.cblkh, cblksty := ref.cblksty,
                              qmfbid := ref.qmfbid, prcs := prcs } := by
    refine ⟨hr.numres, hr.reduce, hr.cblkw, hr.cblkh, hr.cblk, hr.cblksty, hr.qmfbid, ?_⟩
    intro i x hx hi
    dsimp only at hx hi
    subst hprcs
    have := get_put hx (by rw [hlen]; exact hi)
    rw [List.getElem?_take, if_pos hi] at this
    exact hr.prcs i x this hi
  refine Post.pure ⟨⟨Or.inr S, ?_, ⟨ht.quant.qntsty, ht.quant.numgbits, ht.quant.steps_len, ht.quant.steps⟩, ht.csty, ht.roi⟩, S⟩
  subst hprcs
  have h1 := ht.prcs_len
  have h2 := hr.numres
  show (List.take ref.numres ref.prcs ++ List.drop (List.take ref.numres ref.prcs).length t.prcs).length = 33
  rw [List.length_append, List.length_drop, hlen]
  omega

theorem readCod_post {u : User} {d : Dec} {p : List UInt8} {size : Nat} (h : Inv u d) (hp : size ≤ p.length) :
    Post (readCod u d p size) (fun d' => Fine u d d' ∧ CodDone u d'.tcp) := by
  unfold readCod
  refine Post.bind (refuseIf_post _) fun _ h1 => ?_
  refine Post.bind (next_post (by omega) (by omega)) fun ⟨csty, p1⟩ ⟨hr, hp1⟩ => ?_
  dsimp only at hr hp1 ⊢
  refine Post.bind (refuseIf_post _) fun _ h2 => ?_
  refine Post.bind (next_post (by omega) (by omega)) fun ⟨g, p2⟩ ⟨hg, hp2⟩ => ?_
  dsimp only at hg hp2 ⊢
  refine Post.bind (next_post (by omega) (by omega)) fun ⟨nl, p3⟩ ⟨hnl, hp3⟩ => ?_
  dsimp only at hnl hp3 ⊢
  refine Post.bind (refuseIf_post _) fun _ h3 => ?_
  refine Post.bind (next_post (by omega) (by omega)) fun ⟨mct, p4⟩ ⟨hmct, hp4⟩ => ?_
  dsimp only at hmct hp4 ⊢
  refine Post.bind (refuseIf_post _) fun _ h4 => ?_
  have hlen := h.tcp.len
  have hpos := h.geom.comps_len
  have hall : ∀ c ∈ d.tcp.tccps.map (fun t => { t with csty := csty % 2 }), TccpInv u c := by
    intro c hc
    obtain ⟨t, ht, rfl⟩ := List.mem_map.1 hc
    have := h.tcp.tccps t ht
    refine ⟨?_, this.prcs_len, ⟨this.quant.qntsty, this.quant.numgbits, this.quant.steps_len, this.quant.steps⟩, ?_, this.roi⟩
    · rcases this.style with a | a
      · exact Or.inl a
      · exact Or.inr ⟨a.numres, a.reduce, a.cblkw, a.cblkh, a.cblk, a.cblksty, a.qmfbid, a.prcs⟩
    · show csty % 2 ≤ 255
      omega
  have hl2 : (d.tcp.tccps.map (fun t => { t with csty := csty % 2 })).length = d.comps.length := by
    rw [List.length_map]; exact hlen
  generalize d.tcp.tccps.map (fun t => { t with csty := csty % 2 }) = ts at hall hl2
  match ts, hall, hl2 with
  | [], _, hl2 => simp at hl2; omega
  | t :: ts, hall, hl2 =>
    have ht := hall t (by simp)
    dsimp only
    refine Post.bind (readSPCod_post (by omega) ht.prcs_len ht.quant ht.csty ht.roi) fun ⟨t', left⟩ ⟨hi, hs⟩ => ?_
    dsimp only at hi hs ⊢
    refine Post.bind (refuseIf_post _) fun _ h5 => ?_
    refine Post.bind (mapR_post ts (fun a ha => hall a (by simp [ha])) (fun a ha => copyStyle_post hs hi.prcs_len ha))
      fun ts' ⟨hts, hts'⟩ => ?_
    have D : CodDone u { d.tcp with
        csty := csty, prg := if g ≤ 4 then (g : Int) else -1, numlayers := nl,
        toDecode := if u.layer ≠ 0 then u.layer else nl, mct := mct, tccps := t' :: ts' } := by
      refine ⟨?_, ?_, ?_, ?_, ?_⟩ <;> dsimp only
      · omega
      · split <;> omega
      · omega
      · omega
      · intro c hc
        rcases List.mem_cons.1 hc with e | e
        · subst e; exact hs
        · exact (hts' c e).2
    refine Post.pure ⟨h.withTcp ⟨?_, ?_, h.tcp.pocs_len, h.tcp.pocs, ?_, h.tcp.mccs, h.tcp.spare, h.tcp.matrix⟩ (fun _ => D), D⟩
    · simp only [List.length_cons, hts] at hl2 ⊢; omega
    · intro c hc
      rcases List.mem_cons.1 hc with e | e
      · subst e; exact hi
      · exact (hts' c e).1
    · show nl ≤ 65535
      omega

theorem room_pos (n : Nat) : 1 ≤ room n ∧ room n ≤ 2 := by unfold room; split <;> omega

theorem comp_post {u : User} {d : Dec} {i : Nat} (h : Inv u d) (hi : i < d.comps.length) :
    Post (comp d i) (fun t => TccpInv u t ∧ t ∈ d.tcp.tccps) := by
  unfold comp
  have : i < d.tcp.tccps.length := by rw [h.tcp.len]; exact hi
  rw [List.getElem?_eq_getElem this]
  exact ⟨h.tcp.tccps _ (List.getElem_mem this), List.getElem_mem this⟩

/-- Replacing one component. -/
theorem setComp_fine {u : User} {d : Dec} {i : Nat} {t : Tccp} (h : Inv u d) (ht : TccpInv u t)
    (hs : CodDone u d.tcp → StyleOk u t) : Fine u d (setComp d i t) := by
  refine h.withTcp ⟨?_, ?_, h.tcp.pocs_len, h.tcp.pocs, h.tcp.layers, h.tcp.mccs, h.tcp.spare, h.tcp.matrix⟩ ?_
  · simp [h.tcp.len]
  · intro c hc
    rcases List.mem_or_eq_of_mem_set hc with e | e
    · exact h.tcp.tccps c e
    · subst e; exact ht
  · intro hd
    refine ⟨hd.csty, hd.prg, hd.layers, hd.mct, ?_⟩
    intro c hc
    rcases List.mem_or_eq_of_mem_set hc with e | e
    · exact hd.style c e
    · subst e; exact hs hd

theorem readCoc_post {u : User} {d : Dec} {p : List UInt8} {size : Nat} (h : Inv u d) (hp : size ≤ p.length) :
    Post (readCoc u d p size) (Fine u d) := by
  unfold readCoc
  have hrm := room_pos d.comps.length
  generalize hr : room d.comps.length = rm at hrm
  refine Post.bind (refuseIf_post _) fun _ h1 => ?_
  refine Post.bind (next_post (by omega) (by omega)) fun ⟨i, p1⟩ ⟨_, hp1⟩ => ?_
  dsimp only at hp1 ⊢
  refine Post.bind (refuseIf_post _) fun _ h2 => ?_
  refine Post.bind (next_post (by omega) (by omega)) fun ⟨c, p2⟩ ⟨hc, hp2⟩ => ?_
  dsimp only at hc hp2 ⊢
  refine Post.bind (comp_post h (by omega)) fun t ⟨ht, _⟩ => ?_
  refine Post.bind (readSPCod_post (by omega) ht.prcs_len ⟨ht.quant.qntsty, ht.quant.numgbits, ht.quant.steps_len, ht.quant.steps⟩
    (by show c ≤ 255; omega) ht.roi) fun ⟨t', left⟩ ⟨hi, hs⟩ => ?_
  refine Post.bind (refuseIf_post _) fun _ h5 => ?_
  exact Post.pure (setComp_fine h hi fun _ => hs)

/-! ## Quantization -/

theorem readSteps1_post : ∀ (n : Nat) (p : List UInt8), n ≤ p.length →
    Post (readSteps1 n p) (fun l => l.length = n ∧ ∀ s ∈ l, s.1 ≤ 31 ∧ s.2 ≤ 2047)
  | 0, p, _ => by unfold readSteps1; exact Post.ok ⟨rfl, by simp⟩
  | n + 1, p, h => by
    unfold readSteps1
    refine Post.bind (next_post (by omega) (by omega)) fun ⟨v, p'⟩ ⟨hv, hp⟩ => ?_
    dsimp only at hv hp ⊢
    refine Post.bind (readSteps1_post n p' (by omega)) fun l ⟨hl, hq⟩ => ?_
    refine Post.pure ⟨by simp [hl], ?_⟩
    intro s hs
    rcases List.mem_cons.1 hs with e | e
    · subst e; dsimp only; omega
    · exact hq s e

theorem readSteps2_post : ∀ (n : Nat) (p : List UInt8), 2 * n ≤ p.length →
    Post (readSteps2 n p) (fun l => l.length = n ∧ ∀ s ∈ l, s.1 ≤ 31 ∧ s.2 ≤ 2047)
  | 0, p, _ => by unfold readSteps2; exact Post.ok ⟨rfl, by simp⟩
  | n + 1, p, h => by
    unfold readSteps2
    refine Post.bind (next_post (by omega) (by omega)) fun ⟨v, p'⟩ ⟨hv, hp⟩ => ?_
    dsimp only at hv hp ⊢
    refine Post.bind (readSteps2_post n p' (by omega)) fun l ⟨hl, hq⟩ => ?_
    refine Post.pure ⟨by simp [hl], ?_⟩
    intro s hs
    rcases List.mem_cons.1 hs with e | e
    · subst e; dsimp only; omega
    · exact hq s e

theorem derive_ok {l : List (Nat × Nat)} (h : ∀ s ∈ l, s.1 ≤ 31 ∧ s.2 ≤ 2047) :
    (derive l).length = l.length ∧ ∀ s ∈ derive l, s.1 ≤ 31 ∧ s.2 ≤ 2047 := by
  cases l with
  | nil => exact ⟨rfl, h⟩
  | cons s l =>
    have := h s (by simp)
    refine ⟨by simp [derive], ?_⟩
    intro x hx
    rcases List.mem_cons.1 hx with e | e
    · subst e; exact this
    · obtain ⟨k, _, rfl⟩ := List.mem_map.1 e
      dsimp only
      omega

theorem put_steps {old new : List (Nat × Nat)} (ho : old.length = 97) (hn : ∀ s ∈ old, s.1 ≤ 31 ∧ s.2 ≤ 2047)
    (h : ∀ s ∈ new, s.1 ≤ 31 ∧ s.2 ≤ 2047) :
    Post (put old (new.take 97)) (fun r => r.length = 97 ∧ ∀ s ∈ r, s.1 ≤ 31 ∧ s.2 ≤ 2047) := by
  refine Post.mono (put_post (by simp; omega)) fun r hr => ?_
  subst hr
  refine ⟨by simp; omega, ?_⟩
  intro s hs
  rcases List.mem_append.1 hs with e | e
  · exact h s (List.mem_of_mem_take e)
  · exact hn s (List.mem_of_mem_drop e)

theorem readSQcd_post {u : User} {t : Tccp} {p : List UInt8} {size : Nat} (hp : size ≤ p.length) (hbig : 3 ≤ p.length)
    (ht : TccpInv u t) :
    Post (readSQcd t p size) (fun r => TccpInv u r.1 ∧ (StyleOk u t → StyleOk u r.1)) := by
  unfold readSQcd
  refine Post.bind (refuseIf_post _) fun _ h1 => ?_
  refine Post.bind (next_post (by omega) (by omega)) fun ⟨v, p1⟩ ⟨hr, hp1⟩ => ?_
  dsimp only at hr hp1 ⊢
  have key : ∀ steps : List (Nat × Nat), steps.length = 97 → (∀ s ∈ steps, s.1 ≤ 31 ∧ s.2 ≤ 2047) →
      TccpInv u { t with qntsty := v % 32, numgbits := v / 32, steps := steps } ∧
      (StyleOk u t → StyleOk u { t with qntsty := v % 32, numgbits := v / 32, steps := steps }) := by
    intro steps hl hs
    have C : StyleOk u t → StyleOk u { t with qntsty := v % 32, numgbits := v / 32, steps := steps } :=
      fun a => ⟨a.numres, a.reduce, a.cblkw, a.cblkh, a.cblk, a.cblksty, a.qmfbid, a.prcs⟩
    refine ⟨⟨?_, ht.prcs_len, ⟨?_, ?_, hl, hs⟩, ht.csty, ht.roi⟩, C⟩
    · rcases ht.style with a | a
      · exact Or.inl a
      · exact Or.inr (C a)
    · show v % 32 ≤ 31
      omega
    · show v / 32 ≤ 7
      omega
  split
  · rename_i h0
    refine Post.bind (readSteps1_post _ p1 (by rw [if_neg (by omega)]; omega)) fun new ⟨_, hnew⟩ => ?_
    refine Post.bind (put_steps ht.quant.steps_len ht.quant.steps hnew) fun steps ⟨hl, hs⟩ => ?_
    refine Post.bind (refuseIf_post _) fun _ h2 => ?_
    exact Post.pure (key steps hl hs)
  · rename_i h0
    have hn : 2 * (if v % 32 = 1 then 1 else (size - 1) / 2) ≤ p1.length := by
      split <;> omega
    refine Post.bind (readSteps2_post _ p1 hn) fun new ⟨_, hnew⟩ => ?_
    refine Post.bind (put_steps ht.quant.steps_len ht.quant.steps hnew) fun steps ⟨hl, hs⟩ => ?_
    refine Post.bind (refuseIf_post _) fun _ h2 => ?_
    refine Post.pure (key _ ?_ ?_)
    · split
      · rw [(derive_ok hs).1]; exact hl
      · exact hl
    · split
      · exact (derive_ok hs).2
      · exact hs

theorem copyQuant_ok {u : User} {ref t : Tccp} (hr : TccpInv u ref) (ht : TccpInv u t) :
    TccpInv u (copyQuant ref t) ∧ (StyleOk u t → StyleOk u (copyQuant ref t)) := by
  have C : StyleOk u t → StyleOk u (copyQuant ref t) :=
    fun a => ⟨a.numres, a.reduce, a.cblkw, a.cblkh, a.cblk, a.cblksty, a.qmfbid, a.prcs⟩
  refine ⟨⟨?_, ht.prcs_len, ⟨hr.quant.qntsty, hr.quant.numgbits, hr.quant.steps_len, hr.quant.steps⟩, ht.csty, ht.roi⟩, C⟩
  rcases ht.style with a | a
  · exact Or.inl a
  · exact Or.inr (C a)

theorem readQcd_post {u : User} {d : Dec} {p : List UInt8} {size : Nat} (h : Inv u d) (hp : size ≤ p.length)
    (hbig : 3 ≤ p.length) : Post (readQcd d p size) (Fine u d) := by
  unfold readQcd
  have hlen := h.tcp.len
  have hpos := h.geom.comps_len
  have hall := h.tcp.tccps
  have hcd : CodDone u d.tcp → ∀ c ∈ d.tcp.tccps, StyleOk u c := fun h => h.style
  generalize hts : d.tcp.tccps = ts at hall hlen hcd
  match ts, hall, hlen, hcd with
  | [], _, hl2, _ => simp at hl2; omega
  | t :: ts, hall, hl2, hcd =>
    have ht := hall t (by simp)
    dsimp only
    refine Post.bind (readSQcd_post hp hbig ht) fun ⟨t', left⟩ ⟨hi, hs⟩ => ?_
    dsimp only at hi hs ⊢
    refine Post.bind (refuseIf_post _) fun _ h5 => ?_
    refine Post.pure (h.withTcp ⟨?_, ?_, h.tcp.pocs_len, h.tcp.pocs, h.tcp.layers, h.tcp.mccs, h.tcp.spare, h.tcp.matrix⟩ ?_)
    · simp only [List.length_cons, List.length_map] at hl2 ⊢; omega
    · intro c hc
      rcases List.mem_cons.1 hc with e | e
      · subst e; exact hi
      · obtain ⟨a, ha, rfl⟩ := List.mem_map.1 e
        exact (copyQuant_ok hi (hall a (by simp [ha]))).1
    · intro hd
      refine ⟨hd.csty, hd.prg, hd.layers, hd.mct, ?_⟩
      intro c hc
      rcases List.mem_cons.1 hc with e | e
      · subst e; exact hs (hcd hd t (by simp))
      · obtain ⟨a, ha, rfl⟩ := List.mem_map.1 e
        exact (copyQuant_ok hi (hall a (by simp [ha]))).2 (hcd hd a (by simp [ha]))

theorem readQcc_post {u : User} {d : Dec} {p : List UInt8} {size : Nat} (h : Inv u d) (hp : size ≤ p.length)
    (hbig : 5 ≤ p.length) : Post (readQcc d p size) (Fine u d) := by
  unfold readQcc
  have hrm := room_pos d.comps.length
  generalize hr : room d.comps.length = rm at hrm
  refine Post.bind (refuseIf_post _) fun _ h1 => ?_
  refine Post.bind (next_post (by omega) (by omega)) fun ⟨i, p1⟩ ⟨_, hp1⟩ => ?_
  dsimp only at hp1 ⊢
  refine Post.bind (refuseIf_post _) fun _ h2 => ?_
  refine Post.bind (comp_post h (by omega)) fun t ⟨ht, hm⟩ => ?_
  refine Post.bind (readSQcd_post (by omega) (by omega) ht) fun ⟨t', left⟩ ⟨hi, hs⟩ => ?_
  refine Post.bind (refuseIf_post _) fun _ h5 => ?_
  exact Post.pure (setComp_fine h hi fun hd => hs (hd.style t hm))

/-! ## The other markers -/

theorem readPocs_post (rm nl nc : Nat) (hrm : 1 ≤ rm ∧ rm ≤ 2) (hnl : nl ≤ 65535) : ∀ (n : Nat) (p : List UInt8),
    n * (5 + 2 * rm) ≤ p.length →
    Post (readPocs rm nl nc n p) (fun l => l.length = n ∧ ∀ q ∈ l, PocOk nc q)
  | 0, p, _ => by unfold readPocs; exact Post.ok ⟨rfl, by simp⟩
  | n + 1, p, h => by
    unfold readPocs
    rw [Nat.succ_mul] at h
    refine Post.bind (next_post (by omega) (by omega)) fun ⟨r0, p1⟩ ⟨hr0, hp1⟩ => ?_
    dsimp only at hr0 hp1 ⊢
    refine Post.bind (next_post (by omega) (by omega)) fun ⟨c0, p2⟩ ⟨hc0, hp2⟩ => ?_
    dsimp only at hc0 hp2 ⊢
    refine Post.bind (next_post (by omega) (by omega)) fun ⟨l1, p3⟩ ⟨hl1, hp3⟩ => ?_
    dsimp only at hl1 hp3 ⊢
    refine Post.bind (next_post (by omega) (by omega)) fun ⟨r1, p4⟩ ⟨hr1, hp4⟩ => ?_
    dsimp only at hr1 hp4 ⊢
    refine Post.bind (next_post (by omega) (by omega)) fun ⟨c1, p5⟩ ⟨_, hp5⟩ => ?_
    dsimp only at hp5 ⊢
    refine Post.bind (next_post (by omega) (by omega)) fun ⟨g, p6⟩ ⟨hg, hp6⟩ => ?_
    dsimp only at hg hp6 ⊢
    refine Post.bind (readPocs_post rm nl nc hrm hnl n p6 (by omega)) fun l ⟨hl, hq⟩ => ?_
    refine Post.pure ⟨by simp [hl], ?_⟩
    intro q hq'
    rcases List.mem_cons.1 hq' with e | e
    · subst e
      have hc0' : c0 ≤ 65535 := by
        have : (256 : Nat) ^ rm ≤ 256 ^ 2 := Nat.pow_le_pow_right (by omega) hrm.2
        omega
      refine ⟨?_, ?_, ?_, ?_⟩ <;> dsimp only <;> omega
    · exact hq q e

theorem readPoc_post {u : User} {d : Dec} {p : List UInt8} {size : Nat} (h : Inv u d) (hp : size ≤ p.length) :
    Post (readPoc d p size) (Fine u d) := by
  unfold readPoc
  have hrm := room_pos d.comps.length
  generalize hr : room d.comps.length = rm at hrm
  dsimp only
  refine Post.bind (refuseIf_post _) fun _ h1 => ?_
  refine Post.bind (refuseIf_post _) fun _ h2 => ?_
  refine Post.bind (readPocs_post rm _ _ hrm h.tcp.layers _ p (by
    have := Nat.div_mul_le_self size (5 + 2 * rm); omega)) fun l ⟨hl, hq⟩ => ?_
  refine Post.pure (h.withTcp ⟨h.tcp.len, h.tcp.tccps, ?_, ?_, h.tcp.layers, h.tcp.mccs, h.tcp.spare, h.tcp.matrix⟩ ?_)
  · simp only [List.length_append]; omega
  · intro q hq'
    rcases List.mem_append.1 hq' with e | e
    · exact h.tcp.pocs q e
    · exact hq q e
  · exact fun hd => ⟨hd.csty, hd.prg, hd.layers, hd.mct, hd.style⟩

theorem readRgn_post {u : User} {d : Dec} {p : List UInt8} {size : Nat} (h : Inv u d) (hp : size ≤ p.length) :
    Post (readRgn d p size) (Fine u d) := by
  unfold readRgn
  have hrm := room_pos d.comps.length
  generalize hr : room d.comps.length = rm at hrm
  dsimp only
  refine Post.bind (refuseIf_post _) fun _ h1 => ?_
  refine Post.bind (next_post (by omega) (by omega)) fun ⟨i, p1⟩ ⟨_, hp1⟩ => ?_
  dsimp only at hp1 ⊢
  refine Post.bind (next_post (by omega) (by omega)) fun ⟨x, p2⟩ ⟨_, hp2⟩ => ?_
  dsimp only at hp2 ⊢
  refine Post.bind (refuseIf_post _) fun _ h2 => ?_
  refine Post.bind (next_post (by omega) (by omega)) fun ⟨s, p3⟩ ⟨hs, hp3⟩ => ?_
  dsimp only at hs hp3 ⊢
  refine Post.bind (comp_post h (by omega)) fun t ⟨ht, hm⟩ => ?_
  have C : StyleOk u t → StyleOk u { t with roishift := s } :=
    fun a => ⟨a.numres, a.reduce, a.cblkw, a.cblkh, a.cblk, a.cblksty, a.qmfbid, a.prcs⟩
  refine Post.pure (setComp_fine h ⟨?_, ht.prcs_len, ⟨ht.quant.qntsty, ht.quant.numgbits, ht.quant.steps_len, ht.quant.steps⟩,
    ht.csty, ?_⟩ fun hd => C (hd.style t hm))
  · rcases ht.style with a | a
    · exact Or.inl a
    · exact Or.inr (C a)
  · show s ≤ 255
    omega

theorem readCrg_post {u : User} {d : Dec} {size : Nat} (h : Inv u d) : Post (readCrg d size) (Fine u d) := by
  unfold readCrg
  refine Post.bind (refuseIf_post _) fun _ h1 => ?_
  exact Post.pure h.fine

theorem readPlm_post {u : User} {d : Dec} {size : Nat} (h : Inv u d) : Post (readPlm d size) (Fine u d) := by
  unfold readPlm
  refine Post.bind (refuseIf_post _) fun _ h1 => ?_
  exact Post.pure h.fine

theorem readTlm_post {u : User} {d : Dec} {p : List UInt8} {size : Nat} (h : Inv u d) (hp : size ≤ p.length) :
    Post (readTlm d p size) (Fine u d) := by
  unfold readTlm
  refine Post.bind (refuseIf_post _) fun _ h1 => ?_
  refine Post.bind (next_post (by omega) (by omega)) fun ⟨i, p1⟩ ⟨_, hp1⟩ => ?_
  dsimp only at hp1 ⊢
  refine Post.bind (next_post (by omega) (by omega)) fun ⟨x, p2⟩ ⟨_, hp2⟩ => ?_
  refine Post.bind (refuseIf_post _) fun _ h2 => ?_
  exact Post.pure h.fine

theorem readDepths_post {u : User} {d : Dec} : ∀ (cs : List Comp) (p : List UInt8), cs.length ≤ p.length →
    (∀ c ∈ cs, CompOk u d c) →
    Post (readDepths cs p) (fun l => l.length = cs.length ∧ ∀ c ∈ l, CompOk u d c)
  | [], p, _, _ => by unfold readDepths; exact Post.ok ⟨rfl, by simp⟩
  | c :: cs, p, h, hc => by
    unfold readDepths
    simp only [List.length_cons] at h
    refine Post.bind (next_post (by omega) (by omega)) fun ⟨v, p1⟩ ⟨hv, hp1⟩ => ?_
    dsimp only at hv hp1 ⊢
    refine Post.bind (refuseIf_post _) fun _ h2 => ?_
    refine Post.bind (readDepths_post cs p1 (by omega) (fun x hx => hc x (by simp [hx]))) fun l ⟨hl, hq⟩ => ?_
    refine Post.pure ⟨by simp [hl], ?_⟩
    intro x hx
    rcases List.mem_cons.1 hx with e | e
    · subst e
      have := hc c (by simp)
      refine ⟨?_, ?_, this.dx, this.dy, this.factor, this.x0, this.y0, this.w, this.h⟩ <;> dsimp only <;> omega
    · exact hq x e

theorem readCbd_post {u : User} {d : Dec} {p : List UInt8} {size : Nat} (h : Inv u d) (hp : size ≤ p.length) :
    Post (readCbd d p size) (Fine u d) := by
  unfold readCbd
  refine Post.bind (refuseIf_post _) fun _ h1 => ?_
  refine Post.bind (next_post (by omega) (by omega)) fun ⟨n, p1⟩ ⟨_, hp1⟩ => ?_
  dsimp only at hp1 ⊢
  refine Post.bind (refuseIf_post _) fun _ h2 => ?_
  refine Post.bind (readDepths_post (u := u) (d := d) d.comps p1 (by omega) h.geom.comps) fun l ⟨hl, hq⟩ => ?_
  refine Post.pure ⟨⟨rfl, rfl, rfl, rfl⟩, ⟨h.siz, ⟨h.geom.image_x, h.geom.image_y, h.geom.tile_x, h.geom.tile_y, h.geom.count_x,
    h.geom.count_y, h.geom.count, ?_, fun c hc => ?_⟩, ?_⟩, id⟩
  · show 1 ≤ l.length ∧ l.length ≤ 16384
    rw [hl]; exact h.geom.comps_len
  · have := hq c hc
    exact ⟨this.prec, this.sgnd, this.dx, this.dy, this.factor, this.x0, this.y0, this.w, this.h⟩
  · show TcpInv u l.length d.tcp
    rw [hl]; exact h.tcp

theorem readPpm_post {u : User} {d : Dec} {p : List UInt8} {size : Nat} (h : Inv u d) (hp : size ≤ p.length) :
    Post (readPpm d p size) (Fine u d) := by
  unfold readPpm
  refine Post.bind (refuseIf_post _) fun _ h1 => ?_
  refine Post.bind (next_post (by omega) (by omega)) fun ⟨z, p1⟩ ⟨_, hp1⟩ => ?_
  dsimp only at hp1 ⊢
  have hz : z < (d.ppms ++ List.replicate (z + 1 - d.ppms.length) none).length := by simp; omega
  rw [List.getElem?_eq_getElem hz]
  generalize (d.ppms ++ List.replicate (z + 1 - d.ppms.length) none)[z] = o
  cases o with
  | some x => exact Post.refused
  | none =>
    dsimp only
    refine Post.bind (bytesAt_post (by omega)) fun data _ => ?_
    exact Post.pure ⟨⟨rfl, rfl, rfl, rfl⟩, ⟨h.siz, ⟨h.geom.image_x, h.geom.image_y, h.geom.tile_x, h.geom.tile_y, h.geom.count_x,
      h.geom.count_y, h.geom.count, h.geom.comps_len, fun c hc => ⟨(h.geom.comps c hc).prec, (h.geom.comps c hc).sgnd,
      (h.geom.comps c hc).dx, (h.geom.comps c hc).dy, (h.geom.comps c hc).factor, (h.geom.comps c hc).x0,
      (h.geom.comps c hc).y0, (h.geom.comps c hc).w, (h.geom.comps c hc).h⟩⟩, h.tcp⟩, id⟩

end Jp2.Hdr

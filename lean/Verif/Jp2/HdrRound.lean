import Verif.Jp2.HdrPpm
/-!
# A written header is read back: helper lemmas
-/
namespace Jp2.Hdr

theorem be_len (nb v : Nat) : (be nb v).length = nb := Cio.toBe_length nb v

theorem next_mod {nb : Nat} (v : Nat) (p : List UInt8) (h : 1 ≤ nb ∧ nb ≤ 4) :
    next nb (be nb v ++ p) = .ok (v % 256 ^ nb, p) := by
  have hl := be_len nb v
  rw [next_eq (by simp; omega) h, List.take_left' hl, List.drop_left' hl, Cio.fromBe_toBe]

theorem next_be {nb : Nat} {v : Nat} (p : List UInt8) (h : 1 ≤ nb ∧ nb ≤ 4) (hv : v < 256 ^ nb) :
    next nb (be nb v ++ p) = .ok (v, p) := by
  rw [next_mod v p h, Nat.mod_eq_of_lt hv]

theorem ok_bind {α β : Type} (a : α) (f : α → R β) : ((.ok a : R α) >>= f) = f a := rfl

theorem pure_bind' {α β : Type} (a : α) (f : α → R β) : ((pure a : R α) >>= f) = f a := rfl

theorem refuse_no {c : Prop} [Decidable c] (h : ¬ c) : refuseIf c = .ok () := by unfold refuseIf; rw [if_neg h]

theorem refuse_bind {α : Type} {c : Prop} [Decidable c] (h : ¬ c) (f : Unit → R α) : (refuseIf c >>= f) = f () := by
  rw [refuse_no h]; rfl

/-! ## Chunks of a header -/

/-- A marker segment. -/
abbrev seg := segment

/-- The marker loop from a place where a marker is due. -/
def resume (u : User) (fuel : Nat) (d : Dec) (s : List UInt8) : R (Dec × List UInt8) := do
  let (buf, s) ← load 2 d.buf s
  let (m, _) ← next 2 buf
  readMarkers u fuel m { d with buf := buf } s

/-- Reading `n` segments takes a decoder from `P` to `Q`. -/
def Chunk (u : User) (P : Dec → Prop) (bytes : List UInt8) (n : Nat) (Q : Dec → Prop) : Prop :=
  4 * n ≤ bytes.length ∧ ∀ d, P d → ∃ d', Q d' ∧ ∀ fuel rest, resume u (fuel + n) d (bytes ++ rest) = resume u fuel d' rest

theorem Chunk.nil (u : User) (P : Dec → Prop) : Chunk u P [] 0 P := ⟨by simp, fun d h => ⟨d, h, fun _ _ => rfl⟩⟩

theorem Chunk.append {u : User} {P Q T : Dec → Prop} {a b : List UInt8} {n k : Nat} (h : Chunk u P a n Q)
    (h' : Chunk u Q b k T) : Chunk u P (a ++ b) (n + k) T := by
  refine ⟨by simp; have := h.1; have := h'.1; omega, fun d hd => ?_⟩
  obtain ⟨d1, h1, e1⟩ := h.2 d hd
  obtain ⟨d2, h2, e2⟩ := h'.2 d1 h1
  refine ⟨d2, h2, fun fuel rest => ?_⟩
  rw [List.append_assoc, show fuel + (n + k) = (fuel + k) + n by omega, e1, e2]

theorem Chunk.mono {u : User} {P P' Q Q' : Dec → Prop} {a : List UInt8} {n : Nat} (h : Chunk u P a n Q)
    (hp : ∀ d, P' d → P d) (hq : ∀ d, Q d → Q' d) : Chunk u P' a n Q' := by
  refine ⟨h.1, fun d hd => ?_⟩
  obtain ⟨d', hd', e⟩ := h.2 d (hp d hd)
  exact ⟨d', hq d' hd', e⟩

/-- The flags set when a marker is met. -/
def flag (m : Nat) (d : Dec) (b : List UInt8) : Dec := { d with
  hasSiz := d.hasSiz || m == 0xFF51, hasCod := d.hasCod || m == 0xFF52,
  hasQcd := d.hasQcd || m == 0xFF5C, buf := b }

theorem load_eq {n : Nat} {buf a s : List UInt8} (h : a.length = n) : load n buf (a ++ s) = .ok (a ++ buf.drop n, s) := by
  unfold load
  rw [if_neg (by simp; omega), List.take_left' h, List.drop_left' h]

theorem readMarkers_known {u : User} {fuel m : Nat} {d : Dec} {s : List UInt8} (hm : m ≠ 0xFF90) (hm1 : 0xFF00 ≤ m)
    (hk : known m = true) : readMarkers u (fuel + 1) m d s = (do
      let (m', d, s) ← readSegment u m d s
      readMarkers u fuel m' d s) := by
  rw [readMarkers, if_neg hm, refuse_bind (by omega), if_pos hk]

/-- One segment. -/
theorem chunk_seg {u : User} {P Q : Dec → Prop} {m : Nat} {body : List UInt8} (hm : m < 65536) (hm1 : 0xFF00 ≤ m)
    (hk : known m = true) (hm2 : m ≠ 0xFF90)
    (hlen : body.length + 2 < 65536) (hal : ∀ d, P d → allowed d.siz m = true)
    (hh : ∀ d tail, P d → ∃ d', handle u m (flag m d (body ++ tail)) (body ++ tail) body.length = .ok d' ∧ Q d') :
    Chunk u P (seg m body) 1 Q := by
  have l1 := be_len 2 m
  have l2 := be_len 2 (body.length + 2)
  refine ⟨by unfold seg segment; simp; omega, fun d hd => ?_⟩
  obtain ⟨b, hb⟩ : ∃ b, b = (be 2 (body.length + 2) ++ (be 2 m ++ d.buf.drop 2).drop 2).drop body.length := ⟨_, rfl⟩
  obtain ⟨d', hd', hq⟩ := hh d b hd
  refine ⟨d', hq, fun fuel rest => ?_⟩
  unfold resume seg segment
  rw [List.append_assoc, List.append_assoc, load_eq l1, ok_bind]
  dsimp only
  rw [next_be _ (by omega) (by omega), ok_bind]
  dsimp only
  rw [readMarkers_known hm2 hm1 hk]
  unfold readSegment
  dsimp only
  rw [refuse_bind (by rw [hal d hd]; simp), load_eq l2, ok_bind]
  dsimp only
  rw [next_be _ (by omega) (by omega), ok_bind]
  dsimp only
  rw [refuse_bind (by omega), load_eq (by omega), ok_bind]
  dsimp only
  rw [show body.length + 2 - 2 = body.length by omega, ← hb]
  have hd'' : handle u m { d with
      hasSiz := d.hasSiz || m == 0xFF51, hasCod := d.hasCod || m == 0xFF52,
      hasQcd := d.hasQcd || m == 0xFF5C, buf := body ++ b } (body ++ b) body.length = .ok d' := hd'
  rw [hd'', ok_bind]
  cases load 2 d'.buf rest with
  | error e => rfl
  | ok r =>
    obtain ⟨buf, s⟩ := r
    simp only [ok_bind]
    cases next 2 buf with
    | error e => rfl
    | ok r => rfl

/-- The end of the header. -/
theorem resume_sot (u : User) (fuel : Nat) (d : Dec) (rest : List UInt8) :
    ∃ b, resume u fuel d (be 2 0xFF90 ++ rest) = .ok ({ d with buf := b }, rest) := by
  refine ⟨be 2 0xFF90 ++ d.buf.drop 2, ?_⟩
  unfold resume
  rw [load_eq (be_len 2 _), ok_bind]
  dsimp only
  rw [next_be _ (by omega) (by omega), ok_bind]
  cases fuel with
  | zero => rfl
  | succ n => rfl

/-! ## The element of `COD` -/

/-- The bytes of `SPcod`. -/
def spBytes (t : Tccp) : List UInt8 :=
  be 1 (t.numres + (2 ^ 32 - 1)) ++ be 1 (t.cblkw + (2 ^ 32 - 2)) ++ be 1 (t.cblkh + (2 ^ 32 - 2)) ++
    be 1 t.cblksty ++ be 1 t.qmfbid ++
    if t.csty % 2 ≠ 0 then (t.prcs.take t.numres).flatMap fun q => be 1 (q.1 + q.2 * 16) else []

theorem flatMap_be_len {α : Type} (k : Nat) (f : α → Nat) (l : List α) : (l.flatMap fun x => be k (f x)).length = k * l.length := by
  induction l with
  | nil => simp
  | cons a l ih =>
    rw [List.flatMap_cons, List.length_append, ih, be_len, List.length_cons, Nat.mul_succ]
    omega

theorem spBytes_len {t : Tccp} (h : t.prcs.length = 33) (hn : t.numres ≤ 33) : (spBytes t).length = spcodSize t := by
  unfold spBytes spcodSize
  simp only [List.length_append, be_len]
  split
  · rw [flatMap_be_len]
    simp; omega
  · simp

theorem writeSPCod_eq {t : Tccp} (h : t.prcs.length = 33) (hn : t.numres ≤ 33) :
    writeSPCod t (spcodSize t) = .ok (spBytes t, 0, true) := by
  unfold writeSPCod spBytes spcodSize
  by_cases hc : t.csty % 2 ≠ 0
  · rw [if_pos hc, if_neg (by omega)]
    dsimp only
    rw [if_pos hc, if_neg (by omega), if_neg (by omega), if_pos hc]
    rw [show 5 + t.numres - 5 - t.numres = 0 by omega]
    rfl
  · rw [if_neg hc, if_neg (by omega)]
    dsimp only
    rw [if_neg hc, if_neg hc]
    simp only [List.append_nil]
    rfl

theorem readPrcs_eq : ∀ (l : List (Nat × Nat)) (i : Nat) (tail : List UInt8),
    (∀ r q, l[r]? = some q → q.1 ≤ 15 ∧ q.2 ≤ 15 ∧ (0 < i + r → 0 < q.1 ∧ 0 < q.2)) →
    readPrcs l.length i ((l.flatMap fun q => be 1 (q.1 + q.2 * 16)) ++ tail) = .ok l
  | [], i, tail, _ => rfl
  | q :: l, i, tail, h => by
    have h0 := h 0 q rfl
    rw [List.length_cons, List.flatMap_cons, List.append_assoc]
    unfold readPrcs
    rw [next_be _ (by omega) (by omega), ok_bind]
    dsimp only
    rw [refuse_bind (by omega), readPrcs_eq l (i + 1) tail (fun r q' hr => by
      obtain ⟨a, b, c⟩ := h (r + 1) q' (by simpa using hr)
      exact ⟨a, b, fun hh => c (by omega)⟩)]
    have e1 : (q.1 + q.2 * 16) % 16 = q.1 := by omega
    have e2 : (q.1 + q.2 * 16) / 16 = q.2 := by omega
    rw [e1, e2]
    rfl

/-- A component with the coding style of another one. -/
structure StyleSame (w r : Tccp) : Prop where
  csty : r.csty = w.csty
  numres : r.numres = w.numres
  cblkw : r.cblkw = w.cblkw
  cblkh : r.cblkh = w.cblkh
  cblksty : r.cblksty = w.cblksty
  qmfbid : r.qmfbid = w.qmfbid
  prcs : ∀ i < w.numres, r.prcs[i]? = precinctOf w i
  prcs_len : r.prcs.length = 33

theorem readSPCod_eq {u : User} {w t : Tccp} (tail : List UInt8) (hw : StyleOk {} w) (hwl : w.prcs.length = 33)
    (htl : t.prcs.length = 33) (hc : t.csty = w.csty) (hu : u.reduce < w.numres) :
    ∃ r, readSPCod u t (spBytes w ++ tail) (spcodSize w) = .ok (r, 0) ∧ StyleSame w r ∧ r.roishift = t.roishift ∧
      r.dcShift = t.dcShift ∧ r.steps = t.steps := by
  have hnr := hw.numres
  have hcw := hw.cblkw
  have hch := hw.cblkh
  have hcb := hw.cblk
  have hcs := hw.cblksty
  have hq := hw.qmfbid
  have hsz : 5 ≤ spcodSize w := by unfold spcodSize; split <;> omega
  unfold readSPCod spBytes
  simp only [List.append_assoc]
  rw [refuse_bind (by omega), next_mod _ _ (by omega), ok_bind]
  dsimp only
  have e1 : (w.numres + (2 ^ 32 - 1)) % 256 ^ 1 = w.numres - 1 := by omega
  rw [e1, refuse_bind (by omega), refuse_bind (by omega), next_mod _ _ (by omega), ok_bind]
  dsimp only
  have e2 : (w.cblkw + (2 ^ 32 - 2)) % 256 ^ 1 = w.cblkw - 2 := by omega
  rw [e2, next_mod _ _ (by omega), ok_bind]
  dsimp only
  have e3 : (w.cblkh + (2 ^ 32 - 2)) % 256 ^ 1 = w.cblkh - 2 := by omega
  rw [e3, refuse_bind (by omega), next_be _ (by omega) (by omega), ok_bind]
  dsimp only
  rw [refuse_bind (by omega), next_be _ (by omega) (by omega), ok_bind]
  dsimp only
  rw [refuse_bind (by omega)]
  have r1 : w.numres - 1 + 1 = w.numres := by omega
  have r2 : w.cblkw - 2 + 2 = w.cblkw := by omega
  have r3 : w.cblkh - 2 + 2 = w.cblkh := by omega
  rw [r1, r2, r3, hc]
  by_cases hcy : w.csty % 2 ≠ 0
  · rw [if_pos hcy, if_pos hcy]
    have hsz' : spcodSize w = 5 + w.numres := by unfold spcodSize; rw [if_pos hcy]
    rw [refuse_bind (by omega)]
    have hl : (w.prcs.take w.numres).length = w.numres := by simp; omega
    have := readPrcs_eq (w.prcs.take w.numres) 0 tail (fun r q hr => by
      rw [List.getElem?_take] at hr
      split at hr
      · obtain ⟨a, b, c⟩ := hw.prcs r q hr (by assumption)
        exact ⟨a, b, fun hh => c (by omega)⟩
      · cases hr)
    rw [hl] at this
    rw [this, ok_bind]
    unfold put
    rw [if_pos (by omega), ok_bind, hl, hsz', show 5 + w.numres - 5 - w.numres = 0 by omega]
    refine ⟨_, rfl, ⟨rfl, rfl, rfl, rfl, rfl, rfl, ?_, ?_⟩, rfl, rfl, rfl⟩
    · intro i hi
      unfold precinctOf
      dsimp only
      rw [if_pos (by omega), List.getElem?_append_left (by omega), List.getElem?_take, if_pos hi]
    · simp; omega
  · rw [if_neg hcy]
    have hsz' : spcodSize w = 5 := by unfold spcodSize; rw [if_neg hcy]
    unfold put
    rw [if_pos (by simp; omega), ok_bind, hsz']
    refine ⟨_, rfl, ⟨rfl, rfl, rfl, rfl, rfl, rfl, ?_, ?_⟩, rfl, rfl, rfl⟩
    · intro i hi
      unfold precinctOf
      dsimp only
      rw [if_neg (by omega), List.getElem?_append_left (by simpa using hi), List.getElem?_replicate, if_pos hi]
    · simp; omega

theorem copyStyle_eq {w ref t : Tccp} (h : StyleSame w ref) (hn : w.numres ≤ 33) (htl : t.prcs.length = 33)
    (hc : t.csty = w.csty) :
    ∃ r, copyStyle ref t = .ok r ∧ StyleSame w r ∧ r.roishift = t.roishift ∧ r.dcShift = t.dcShift ∧ r.steps = t.steps := by
  unfold copyStyle put
  have hnr := h.numres
  have hl : (ref.prcs.take ref.numres).length = ref.numres := by have := h.prcs_len; simp; omega
  rw [if_pos (by omega), ok_bind, hl]
  refine ⟨_, rfl, ⟨hc, h.numres, h.cblkw, h.cblkh, h.cblksty, h.qmfbid, ?_, ?_⟩, rfl, rfl, rfl⟩
  · intro i hi
    dsimp only
    rw [List.getElem?_append_left (by omega), List.getElem?_take, if_pos (by omega)]
    exact h.prcs i hi
  · have := h.prcs_len
    rw [List.length_append, List.length_take, List.length_drop]; omega

/-! ## The element of `QCD` -/

/-- The bytes of `SQcd`. -/
def sqBytes (t : Tccp) : List UInt8 :=
  be 1 (t.qntsty + t.numgbits * 2 ^ 5) ++
    if t.qntsty = 0 then (t.steps.take (numBands t)).flatMap fun s => be 1 (s.1 * 2 ^ 3)
    else (t.steps.take (numBands t)).flatMap fun s => be 2 (s.1 * 2 ^ 11 + s.2)

theorem numBands_eq {t : Tccp} (h : 1 ≤ t.numres ∧ t.numres ≤ 33) (hq : t.qntsty ≠ 1) : numBands t = 3 * t.numres - 2 := by
  unfold numBands
  rw [if_neg hq]
  omega

theorem numBands_le {t : Tccp} (h : 1 ≤ t.numres ∧ t.numres ≤ 33) : 1 ≤ numBands t ∧ numBands t ≤ 97 := by
  by_cases hq : t.qntsty = 1
  · unfold numBands; rw [if_pos hq]; omega
  · rw [numBands_eq h hq]; omega

theorem writeSQcd_eq {t : Tccp} (h : 1 ≤ t.numres ∧ t.numres ≤ 33) (hl : t.steps.length = 97) :
    writeSQcd t = .ok (sqBytes t) := by
  have := numBands_le h
  unfold writeSQcd sqBytes
  rw [if_neg (by omega)]
  by_cases hq : t.qntsty = 0
  · rw [if_pos hq, if_pos hq]; rfl
  · rw [if_neg hq, if_neg hq]; rfl

theorem sqBytes_len {t : Tccp} (h : 1 ≤ t.numres ∧ t.numres ≤ 33) (hl : t.steps.length = 97) :
    (sqBytes t).length = sqcdSize t := by
  have := numBands_le h
  have ht : (t.steps.take (numBands t)).length = numBands t := by simp; omega
  unfold sqBytes sqcdSize
  rw [List.length_append, be_len]
  split
  · rw [flatMap_be_len, ht]; omega
  · rw [flatMap_be_len, ht]

theorem readSteps1_eq : ∀ (l : List (Nat × Nat)) (tail : List UInt8), (∀ s ∈ l, s.1 ≤ 31) →
    readSteps1 l.length ((l.flatMap fun s => be 1 (s.1 * 2 ^ 3)) ++ tail) = .ok (l.map fun s => (s.1, 0))
  | [], _, _ => rfl
  | s :: l, tail, h => by
    have h0 := h s (by simp)
    rw [List.length_cons, List.flatMap_cons, List.append_assoc]
    unfold readSteps1
    rw [next_be _ (by omega) (by omega), ok_bind]
    dsimp only
    rw [readSteps1_eq l tail (fun x hx => h x (by simp [hx])), ok_bind, show s.1 * 2 ^ 3 / 8 = s.1 by omega]
    rfl

theorem readSteps2_eq : ∀ (l : List (Nat × Nat)) (tail : List UInt8), (∀ s ∈ l, s.1 ≤ 31 ∧ s.2 ≤ 2047) →
    readSteps2 l.length ((l.flatMap fun s => be 2 (s.1 * 2 ^ 11 + s.2)) ++ tail) = .ok l
  | [], _, _ => rfl
  | s :: l, tail, h => by
    have h0 := h s (by simp)
    rw [List.length_cons, List.flatMap_cons, List.append_assoc]
    unfold readSteps2
    rw [next_be _ (by omega) (by omega), ok_bind]
    dsimp only
    rw [readSteps2_eq l tail (fun x hx => h x (by simp [hx])), ok_bind, show (s.1 * 2 ^ 11 + s.2) / 2048 = s.1 by omega,
      show (s.1 * 2 ^ 11 + s.2) % 2048 = s.2 by omega]
    rfl

/-- A component with the quantization of another one. -/
structure QuantSame (w r : Tccp) : Prop where
  qntsty : r.qntsty = w.qntsty
  numgbits : r.numgbits = w.numgbits
  steps : ∀ b < 3 * w.numres - 2, r.steps[b]? = stepOf w b
  steps_len : r.steps.length = 97

theorem derive_get {l : List (Nat × Nat)} (hl : 0 < l.length) {b : Nat} (hb : b < l.length) :
    (derive l)[b]? = (l[0]?).map fun s => (s.1 - (b - 1) / 3, s.2) := by
  cases l with
  | nil => simp at hl
  | cons s l =>
    cases b with
    | zero => simp [derive]
    | succ b =>
      have : b < l.length := by simpa using hb
      simp [derive, this]

theorem readSQcd_eq {w t : Tccp} (tail : List UInt8) (hw : QuantOk w) (hn : 1 ≤ w.numres ∧ w.numres ≤ 33)
    (htl : t.steps.length = 97) :
    ∃ r, readSQcd t (sqBytes w ++ tail) (sqcdSize w) = .ok (r, 0) ∧ QuantSame w r ∧ r.roishift = t.roishift ∧
      r.dcShift = t.dcShift ∧ (∀ v, StyleSame v t → StyleSame v r) := by
  have hq := hw.qntsty
  have hg := hw.numgbits
  have hsl := hw.steps_len
  have hnb := numBands_le hn
  have hlen : (w.steps.take (numBands w)).length = numBands w := by simp; omega
  have hsz : 1 ≤ sqcdSize w := by unfold sqcdSize; split <;> omega
  have htake : ∀ s ∈ w.steps.take (numBands w), s.1 ≤ 31 ∧ s.2 ≤ 2047 := fun s hs => hw.steps s (List.mem_of_mem_take hs)
  unfold readSQcd sqBytes
  rw [refuse_bind (by omega), List.append_assoc, next_be _ (by omega) (by omega), ok_bind]
  dsimp only
  have e1 : (w.qntsty + w.numgbits * 2 ^ 5) % 32 = w.qntsty := by omega
  have e2 : (w.qntsty + w.numgbits * 2 ^ 5) / 32 = w.numgbits := by omega
  rw [e1, e2]
  by_cases h0 : w.qntsty = 0
  · have hs : sqcdSize w = 1 + numBands w := by unfold sqcdSize; rw [if_pos h0]
    have hb := numBands_eq hn (by omega : w.qntsty ≠ 1)
    rw [if_pos h0, if_pos h0, if_neg (by omega), if_pos h0, show sqcdSize w - 1 = numBands w by omega]
    have := readSteps1_eq (w.steps.take (numBands w)) tail (fun s hs => (htake s hs).1)
    rw [hlen] at this
    rw [this, ok_bind]
    have hml : (((w.steps.take (numBands w)).map fun s => (s.1, 0)).take 97).length = numBands w := by
      simp; omega
    unfold put
    rw [if_pos (by omega), ok_bind, refuse_bind (by omega), Nat.sub_self, hml]
    refine ⟨_, rfl, ⟨rfl, rfl, ?_, ?_⟩, rfl, rfl,
      fun v a => ⟨a.csty, a.numres, a.cblkw, a.cblkh, a.cblksty, a.qmfbid, a.prcs, a.prcs_len⟩⟩
    · intro b hb'
      unfold stepOf
      dsimp only
      rw [if_pos h0, List.getElem?_append_left (by omega), List.getElem?_take, if_pos (by omega), List.getElem?_map,
        List.getElem?_take, if_pos (by omega)]
    · dsimp only
      rw [List.length_append, hml, List.length_drop]; omega
  · have hs : sqcdSize w = 1 + 2 * numBands w := by unfold sqcdSize; rw [if_neg h0]
    rw [if_neg h0, if_neg h0, if_neg h0]
    have hnn : (if w.qntsty = 1 then 1 else (sqcdSize w - 1) / 2) = numBands w := by
      by_cases h1 : w.qntsty = 1
      · rw [if_pos h1]; unfold numBands; rw [if_pos h1]
      · rw [if_neg h1]; omega
    rw [hnn]
    have := readSteps2_eq (w.steps.take (numBands w)) tail htake
    rw [hlen] at this
    rw [this, ok_bind]
    have hml : ((w.steps.take (numBands w)).take 97).length = numBands w := by
      rw [List.length_take, hlen]; omega
    unfold put
    rw [if_pos (by omega), ok_bind, refuse_bind (by omega), hml, show sqcdSize w - 1 - 2 * numBands w = 0 by omega]
    obtain ⟨S, hS⟩ : ∃ S, S = (w.steps.take (numBands w)).take 97 ++ t.steps.drop (numBands w) := ⟨_, rfl⟩
    rw [← hS]
    have hSl : S.length = 97 := by rw [hS, List.length_append, hml, List.length_drop]; omega
    have hSg : ∀ b < numBands w, S[b]? = w.steps[b]? := by
      intro b hb
      rw [hS, List.getElem?_append_left (by omega), List.getElem?_take, if_pos (by omega), List.getElem?_take, if_pos hb]
    refine ⟨_, rfl, ⟨rfl, rfl, ?_, ?_⟩, rfl, rfl,
      fun v a => ⟨a.csty, a.numres, a.cblkw, a.cblkh, a.cblksty, a.qmfbid, a.prcs, a.prcs_len⟩⟩
    · intro b hb'
      unfold stepOf
      dsimp only
      rw [if_neg h0]
      by_cases h1 : w.qntsty = 1
      · rw [if_pos h1, if_pos h1, derive_get (by omega) (by omega), hSg 0 (by omega)]
      · rw [if_neg h1, if_neg h1, hSg b (by rw [numBands_eq hn h1]; exact hb')]
    · dsimp only
      split
      · have : (derive S).length = S.length := by
          cases S with
          | nil => rfl
          | cons a l => simp [derive]
        omega
      · exact hSl

end Jp2.Hdr

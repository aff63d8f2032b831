import Verif.Jp2.HdrRound
/-!
# A written header is read back: the marker segments
-/
namespace Jp2.Hdr

/-- A decoder on its way through the header of `e`; `T` relates each component written to the one read so far. -/
structure Stage (e : Enc) (cod qcd : Bool) (T : Nat → Tccp → Tccp → Prop) (d : Dec) : Prop where
  rsiz : d.rsiz = e.rsiz
  image : d.x0 = e.x0 ∧ d.y0 = e.y0 ∧ d.x1 = e.x1 ∧ d.y1 = e.y1
  tiles : d.tdx = e.tdx ∧ d.tdy = e.tdy ∧ d.tx0 = e.tx0 ∧ d.ty0 = e.ty0
  comps : d.comps.map (fun c => (c.prec, c.sgnd, c.dx, c.dy)) = e.comps.map fun c => (c.prec, c.sgnd, c.dx, c.dy)
  clen : d.comps.length = e.comps.length
  tlen : d.tcp.tccps.length = e.comps.length
  head : cod = true → d.tcp.csty = e.csty ∧ d.tcp.prg = e.prg ∧ d.tcp.numlayers = e.numlayers ∧ d.tcp.mct = e.mct
  pocs : d.tcp.pocs = []
  shift : d.tcp.tccps.map Tccp.dcShift = e.comps.map levelShift
  siz : d.siz = true
  hasSiz : d.hasSiz = true
  hasCod : d.hasCod = cod
  hasQcd : d.hasQcd = qcd
  ppm : d.ppm = false
  ppms : d.ppms = []
  rel : ∀ j w r, e.tccps[j]? = some w → d.tcp.tccps[j]? = some r → T j w r

theorem Stage.mono {e : Enc} {cod qcd : Bool} {T T' : Nat → Tccp → Tccp → Prop} {d : Dec} (h : Stage e cod qcd T d)
    (hT : ∀ j w r, e.tccps[j]? = some w → d.tcp.tccps[j]? = some r → T j w r → T' j w r) : Stage e cod qcd T' d :=
  { h with rel := fun j w r a b => hT j w r a b (h.rel j w r a b) }

/-- Markers that set no flag. -/
theorem Stage.flag {e : Enc} {cod qcd : Bool} {T : Nat → Tccp → Tccp → Prop} {d : Dec} {m : Nat} {b : List UInt8}
    (h : Stage e cod qcd T d) (h1 : m ≠ 0xFF51) (h2 : m ≠ 0xFF52) (h3 : m ≠ 0xFF5C) :
    Stage e cod qcd T (flag m d b) := by
  have e1 : (m == 0xFF51) = false := by simpa using h1
  have e2 : (m == 0xFF52) = false := by simpa using h2
  have e3 : (m == 0xFF5C) = false := by simpa using h3
  refine ⟨h.rsiz, h.image, h.tiles, h.comps, h.clen, h.tlen, h.head, h.pocs, h.shift, h.siz, ?_, ?_, ?_, h.ppm, h.ppms, h.rel⟩
  · unfold Hdr.flag; rw [h.hasSiz]; rfl
  · unfold Hdr.flag; dsimp only; rw [h.hasCod, e2, Bool.or_false]
  · unfold Hdr.flag; dsimp only; rw [h.hasQcd, e3, Bool.or_false]

/-! ## `SIZ` -/

/-- The body of `SIZ`. -/
def sizBody (e : Enc) : List UInt8 :=
  be 2 e.rsiz ++ (be 4 e.x1 ++ (be 4 e.y1 ++ (be 4 e.x0 ++ (be 4 e.y0 ++
  (be 4 e.tdx ++ (be 4 e.tdy ++ (be 4 e.tx0 ++ (be 4 e.ty0 ++ (be 2 e.comps.length ++
  e.comps.flatMap fun c => be 1 ((c.prec + (2 ^ 32 - 1) + c.sgnd * 2 ^ 7) % 2 ^ 32) ++ be 1 c.dx ++ be 1 c.dy)))))))))

theorem comps_len (l : List Comp) : (l.flatMap fun c => be 1 ((c.prec + (2 ^ 32 - 1) + c.sgnd * 2 ^ 7) % 2 ^ 32) ++
    be 1 c.dx ++ be 1 c.dy).length = 3 * l.length := by
  induction l with
  | nil => rfl
  | cons c l ih =>
    rw [List.flatMap_cons, List.length_append, ih, List.length_append, List.length_append, be_len, be_len, be_len,
      List.length_cons]
    omega

theorem sizBody_len (e : Enc) : (sizBody e).length = 36 + 3 * e.comps.length := by
  unfold sizBody
  simp only [List.length_append, be_len, comps_len]
  omega

theorem writeSiz_eq (e : Enc) : writeSiz e = seg 0xFF51 (sizBody e) := by
  unfold writeSiz seg segment
  rw [sizBody_len, show 36 + 3 * e.comps.length + 2 = 38 + 3 * e.comps.length by omega]
  unfold sizBody
  simp only [List.append_assoc]

theorem readComps_eq {u : User} : ∀ (l : List Comp) (tail : List UInt8),
    (∀ c ∈ l, (1 ≤ c.prec ∧ c.prec ≤ 31) ∧ c.sgnd ≤ 1 ∧ (1 ≤ c.dx ∧ c.dx ≤ 255) ∧ (1 ≤ c.dy ∧ c.dy ≤ 255)) →
    readComps u l.length ((l.flatMap fun c => be 1 ((c.prec + (2 ^ 32 - 1) + c.sgnd * 2 ^ 7) % 2 ^ 32) ++
      be 1 c.dx ++ be 1 c.dy) ++ tail) = .ok (l.map fun c => ⟨c.prec, c.sgnd, c.dx, c.dy, u.reduce, 0, 0, 0, 0⟩)
  | [], _, _ => rfl
  | c :: l, tail, h => by
    have h0 := h c (by simp)
    have e1 : (c.prec + (2 ^ 32 - 1) + c.sgnd * 2 ^ 7) % 2 ^ 32 = c.prec - 1 + c.sgnd * 128 := by omega
    rw [List.length_cons, List.flatMap_cons, e1]
    simp only [List.append_assoc]
    unfold readComps
    rw [next_be _ (by omega) (by omega), ok_bind]
    dsimp only
    rw [next_be _ (by omega) (by omega), ok_bind]
    dsimp only
    rw [next_be _ (by omega) (by omega), ok_bind]
    dsimp only
    have ih := readComps_eq (u := u) l tail (fun x hx => h x (by simp [hx]))
    simp only [List.append_assoc] at ih
    rw [refuse_bind (by omega), refuse_bind (by omega), ih, ok_bind, List.map_cons,
      show (c.prec - 1 + c.sgnd * 128) % 128 + 1 = c.prec by omega, show (c.prec - 1 + c.sgnd * 128) / 128 = c.sgnd by omega]
    rfl

theorem cdiv_pos {a b : Nat} (ha : 0 < a) (hb : 0 < b) : 0 < cdiv a b := by
  unfold cdiv; exact Nat.div_pos (by omega) hb

theorem readSiz_eq {u : User} {e : Enc} {d : Dec} (tail : List UInt8) (hw : Writable e) (hs : Suits u e) (hd : d.tcp = {})
    (hsz : d.hasSiz = true) (hc : d.hasCod = false) (hq : d.hasQcd = false) (hp : d.ppm = false) (hp' : d.ppms = []) :
    ∃ d', readSiz u d (sizBody e ++ tail) (sizBody e).length = .ok d' ∧
      Stage e false false (fun _ _ r => r.prcs.length = 33 ∧ r.steps.length = 97 ∧ r.roishift = 0) d' := by
  have hix := hw.image_x
  have hiy := hw.image_y
  have htx := hw.tile_x
  have hty := hw.tile_y
  have hcl := hw.comps_len
  have hrz := hw.rsiz
  have hcnt := hw.count
  have hru : u.reduce < 64 := by
    have hl := hw.tccps
    cases ht : e.tccps with
    | nil => rw [ht] at hl; simp at hl; omega
    | cons t ts =>
      have h1 := hs.reduce t (by rw [ht]; simp)
      have h2 := (hw.style t (by rw [ht]; simp)).numres
      omega
  have ptw : 0 < cdiv (e.x1 - e.tx0) e.tdx := cdiv_pos (by omega) (by omega)
  have pth : 0 < cdiv (e.y1 - e.ty0) e.tdy := cdiv_pos (by omega) (by omega)
  unfold readSiz
  rw [sizBody_len]
  unfold sizBody
  simp only [List.append_assoc]
  have rc := readComps_eq (u := u) e.comps tail hw.comps
  simp only [List.append_assoc] at rc
  rw [refuse_bind (by omega), refuse_bind (by omega), next_be _ (by omega) (by omega), ok_bind]
  dsimp only
  rw [next_be _ (by omega) (by omega), ok_bind]
  dsimp only
  rw [next_be _ (by omega) (by omega), ok_bind]
  dsimp only
  rw [next_be _ (by omega) (by omega), ok_bind]
  dsimp only
  rw [next_be _ (by omega) (by omega), ok_bind]
  dsimp only
  rw [next_be _ (by omega) (by omega), ok_bind]
  dsimp only
  rw [next_be _ (by omega) (by omega), ok_bind]
  dsimp only
  rw [next_be _ (by omega) (by omega), ok_bind]
  dsimp only
  rw [next_be _ (by omega) (by omega), ok_bind]
  dsimp only
  rw [next_be _ (by omega) (by omega), ok_bind]
  dsimp only
  rw [refuse_bind (by omega), refuse_bind (by omega), refuse_bind (by omega), refuse_bind (by omega),
    refuse_bind (by unfold adds; omega), refuse_bind (by
      intro ⟨a, b, c, h⟩
      rcases hs.size with h' | h' | h' | h'
      · rw [h'] at a; cases a
      · omega
      · omega
      · omega), refuse_bind (by omega), rc, ok_bind, ceildiv_eq (by omega) (by omega), ok_bind,
    ceildiv_eq (by omega) (by omega), ok_bind, refuse_bind (by
      intro h
      rcases h with h | h | h
      · omega
      · omega
      · rw [Nat.div_lt_iff_lt_mul pth] at h
        omega)]
  rw [headerUpdate_eq hru hix.1 hix.2 hiy.1 hiy.2 htx.1 hty.1 (by dsimp only; omega) (by dsimp only; omega) rfl rfl (by
      intro c hc
      dsimp only at hc
      obtain ⟨c0, h0, rfl⟩ := List.mem_map.1 hc
      obtain ⟨a, b, c, d⟩ := hw.comps c0 h0
      exact ⟨a, b, c, d, rfl⟩)]
  refine ⟨_, rfl, ⟨rfl, ⟨rfl, rfl, rfl, rfl⟩, ⟨rfl, rfl, rfl, rfl⟩, ?_, ?_, ?_, (fun h => nomatch h), ?_, ?_, rfl, hsz, hc, hq, hp, hp', ?_⟩⟩
  · simp [Function.comp_def]
  · simp
  · simp
  · dsimp only; rw [hd]
  · simp [Function.comp_def, levelShift]
  · intro j w r _ hr
    dsimp only at hr
    rw [List.getElem?_map] at hr
    cases hj : (List.map (fun c => (⟨c.prec, c.sgnd, c.dx, c.dy, u.reduce, 0, 0, 0, 0⟩ : Comp)) e.comps)[j]? with
    | none => rw [hj] at hr; cases hr
    | some c =>
      rw [hj] at hr
      cases hr
      exact ⟨by simp, by simp, rfl⟩

/-! ## `COD` -/

/-- The body of `COD`. -/
def codBody (e : Enc) (t : Tccp) : List UInt8 :=
  be 1 e.csty ++ (be 1 e.prg ++ (be 2 e.numlayers ++ (be 1 e.mct ++ spBytes t)))

theorem writeCod_eq {e : Enc} {t : Tccp} {ts : List Tccp} (ht : e.tccps = t :: ts) (h : t.prcs.length = 33) (hn : t.numres ≤ 33) :
    writeCod e = .ok (seg 0xFF52 (codBody e t)) ∧ (codBody e t).length = 5 + spcodSize t := by
  have hl : (codBody e t).length = 5 + spcodSize t := by
    unfold codBody
    simp only [List.length_append, be_len, spBytes_len h hn]
    omega
  refine ⟨?_, hl⟩
  unfold writeCod first seg segment
  rw [ht, hl]
  dsimp only
  rw [ok_bind]
  rw [show 9 + spcodSize t - 9 = spcodSize t by omega, writeSPCod_eq h hn, ok_bind]
  dsimp only
  rw [refuse_bind (by simp), refuse_bind (by simp), show 9 + spcodSize t - 2 = 5 + spcodSize t + 2 by omega]
  unfold codBody
  simp only [List.append_assoc]
  rfl

theorem mapR_eq {α β : Type} {f : α → R β} {P : α → β → Prop} : ∀ (l : List α), (∀ a ∈ l, ∃ b, f a = .ok b ∧ P a b) →
    ∃ l', mapR f l = .ok l' ∧ List.Forall₂ P l l'
  | [], _ => ⟨[], rfl, .nil⟩
  | a :: l, h => by
    obtain ⟨b, hb, hp⟩ := h a (by simp)
    obtain ⟨l', hl, hl'⟩ := mapR_eq l (fun x hx => h x (by simp [hx]))
    refine ⟨b :: l', ?_, .cons hp hl'⟩
    unfold mapR
    rw [hb, hl]
    rfl

theorem forall₂_get {α β : Type} {P : α → β → Prop} : ∀ {l : List α} {l' : List β}, List.Forall₂ P l l' → ∀ {j : Nat} {b : β},
    l'[j]? = some b → ∃ a, l[j]? = some a ∧ P a b
  | _, _, .nil, _, _, h => by simp at h
  | _, _, .cons (a := a) hp ht, 0, b, h => by
    simp at h; subst h
    exact ⟨a, rfl, hp⟩
  | _, _, .cons hp ht, j + 1, b, h => by
    simp at h
    obtain ⟨a, ha, hp'⟩ := forall₂_get ht h
    exact ⟨a, by simpa using ha, hp'⟩

theorem forall₂_len {α β : Type} {P : α → β → Prop} : ∀ {l : List α} {l' : List β}, List.Forall₂ P l l' → l.length = l'.length
  | _, _, .nil => rfl
  | _, _, .cons _ ht => by rw [List.length_cons, List.length_cons, forall₂_len ht]

theorem forall₂_map {α β γ : Type} {P : α → β → Prop} {f : α → γ} {g : β → γ} (hfg : ∀ a b, P a b → g b = f a) :
    ∀ {l : List α} {l' : List β}, List.Forall₂ P l l' → l'.map g = l.map f
  | _, _, .nil => rfl
  | _, _, .cons hp ht => by rw [List.map_cons, List.map_cons, hfg _ _ hp, forall₂_map hfg ht]

/-- What `COD` makes of a component. -/
structure AfterCod (w r : Tccp) : Prop where
  style : StyleSame w r
  roi : r.roishift = 0
  steps : r.steps.length = 97

theorem StyleSame.shared {e : Enc} (hs : SharedStyle e) (hw : Writable e) {a b r : Tccp} (ha : a ∈ e.tccps) (hb : b ∈ e.tccps)
    (h : StyleSame a r) : StyleSame b r := by
  obtain ⟨h1, h2, h3, h4, h5, h6⟩ := hs a ha b hb
  have hc : a.csty = b.csty := by rw [hw.prt a ha, hw.prt b hb]
  refine ⟨h.csty.trans hc, h.numres.trans h1, h.cblkw.trans h2, h.cblkh.trans h3, h.cblksty.trans h4, h.qmfbid.trans h5,
    fun i hi => ?_, h.prcs_len⟩
  rw [h.prcs i (by omega)]
  unfold precinctOf
  rw [hc]
  split
  · have e1 : (a.prcs.take a.numres)[i]? = a.prcs[i]? := by rw [List.getElem?_take, if_pos (by omega)]
    have e2 : (b.prcs.take b.numres)[i]? = b.prcs[i]? := by rw [List.getElem?_take, if_pos hi]
    rw [← e1, ← e2, h6]
  · rfl

theorem readCod_eq {u : User} {e : Enc} {d : Dec} {t : Tccp} {ts : List Tccp} (tail : List UInt8) (hw : Writable e)
    (hsh : SharedStyle e) (hs : Suits u e) (ht : e.tccps = t :: ts)
    (hd : Stage e false false (fun _ _ r => r.prcs.length = 33 ∧ r.steps.length = 97 ∧ r.roishift = 0) d) :
    ∃ d', readCod u (flag 0xFF52 d (codBody e t ++ tail)) (codBody e t ++ tail) (codBody e t).length = .ok d' ∧
      Stage e true false (fun _ w r => AfterCod w r) d' := by
  have hm : t ∈ e.tccps := by rw [ht]; simp
  have hst := hw.style t hm
  have hcs := hw.csty
  have hpg := hw.prg
  have hly := hw.layers
  have hmc := hw.mct
  have htl := hw.tccps
  rw [(writeCod_eq ht (hw.prcs_len t hm) hst.numres.2).2]
  have hall : ∀ r ∈ d.tcp.tccps, r.prcs.length = 33 ∧ r.steps.length = 97 ∧ r.roishift = 0 := by
    intro r hr
    obtain ⟨j, hj, hj'⟩ := List.getElem_of_mem hr
    have hl := hd.tlen
    exact hd.rel j (e.tccps[j]'(by omega)) r (List.getElem?_eq_getElem (by omega)) (by rw [← hj', List.getElem?_eq_getElem])
  unfold readCod codBody flag
  dsimp only
  simp only [List.append_assoc]
  rw [refuse_bind (by omega), next_be _ (by omega) (by omega), ok_bind]
  dsimp only
  rw [refuse_bind (by omega), next_be _ (by omega) (by omega), ok_bind]
  dsimp only
  rw [next_be _ (by omega) (by omega), ok_bind]
  dsimp only
  rw [refuse_bind (by omega), next_be _ (by omega) (by omega), ok_bind]
  dsimp only
  rw [refuse_bind (by omega)]
  obtain ⟨L, hL⟩ : ∃ L, L = d.tcp.tccps := ⟨_, rfl⟩
  have hLl : L.length = e.comps.length := by rw [hL]; exact hd.tlen
  rw [← hL] at hall ⊢
  cases L with
  | nil => simp at hLl; have := hw.comps_len; omega
  | cons r rs =>
    rw [List.map_cons]
    dsimp only
    have hr := hall r (by simp)
    have hcy := hw.prt t hm
    rw [show 5 + spcodSize t - 5 = spcodSize t by omega]
    obtain ⟨r', hr', s1, s2, s3, s4⟩ := readSPCod_eq (u := u) (w := t) (t := { r with csty := e.csty % 2 }) tail hst
      (hw.prcs_len t hm) hr.1 hcy.symm (hs.reduce t hm)
    rw [hr', ok_bind]
    dsimp only
    rw [refuse_bind (by simp)]
    obtain ⟨l', hl', hf⟩ := mapR_eq (f := copyStyle r') (P := fun a b => StyleSame t b ∧ b.roishift = a.roishift ∧
        b.dcShift = a.dcShift ∧ b.steps = a.steps) (rs.map fun t => { t with csty := e.csty % 2 }) (by
      intro a ha
      obtain ⟨a0, h0, rfl⟩ := List.mem_map.1 ha
      exact copyStyle_eq s1 hst.numres.2 (hall a0 (by simp [h0])).1 hcy.symm)
    rw [hl', ok_bind]
    have hlen : l'.length = rs.length := by have := forall₂_len hf; simp at this; omega
    refine ⟨_, rfl, ⟨hd.rsiz, hd.image, hd.tiles, hd.comps, hd.clen, ?_, ?_, hd.pocs, ?_, hd.siz, ?_, ?_, ?_, hd.ppm, hd.ppms, ?_⟩⟩
    · dsimp only; rw [List.length_cons, hlen]; simpa using hLl
    · intro _
      refine ⟨rfl, ?_, rfl, rfl⟩
      dsimp only
      rw [if_pos (by omega)]
    · dsimp only
      have hsft := hd.shift
      rw [← hL, List.map_cons] at hsft
      rw [List.map_cons, s3, ← hsft, forall₂_map (f := Tccp.dcShift) (fun a b h => h.2.2.1) hf, List.map_map]
      rfl
    · dsimp only; rw [hd.hasSiz]; rfl
    · dsimp only; rw [hd.hasCod]; rfl
    · dsimp only; rw [hd.hasQcd]; rfl
    · intro j w x hjw hjx
      have hwm : w ∈ e.tccps := List.mem_of_getElem? hjw
      cases j with
      | zero =>
        dsimp only at hjx
        simp at hjx
        subst hjx
        exact ⟨s1.shared hsh hw hm hwm, s2.trans hr.2.2, by rw [s4]; exact hr.2.1⟩
      | succ j =>
        dsimp only at hjx
        rw [List.getElem?_cons_succ] at hjx
        obtain ⟨a, ha, h1, h2, h3, h4⟩ := forall₂_get hf hjx
        obtain ⟨a0, h0, rfl⟩ := List.mem_map.1 (List.mem_of_getElem? ha)
        have := hall a0 (by simp [h0])
        exact ⟨h1.shared hsh hw hm hwm, h2.trans this.2.2, by rw [h4]; exact this.2.1⟩

/-! ## `QCD` and `QCC` -/

theorem writeQcd_eq {e : Enc} {t : Tccp} {ts : List Tccp} (ht : e.tccps = t :: ts) (hn : 1 ≤ t.numres ∧ t.numres ≤ 33)
    (hl : t.steps.length = 97) : writeQcd e = .ok (seg 0xFF5C (sqBytes t)) := by
  unfold writeQcd first seg segment
  rw [ht]
  dsimp only
  rw [ok_bind, writeSQcd_eq hn hl, ok_bind, sqBytes_len hn hl, Nat.add_comm (sqcdSize t) 2]
  rfl

/-- What `QCD` makes of a component: the quantization of `v`. -/
structure AfterQcd (v w r : Tccp) : Prop where
  style : StyleSame w r
  quant : QuantSame v r
  roi : r.roishift = 0

theorem readQcd_eq {e : Enc} {d : Dec} {t : Tccp} {ts : List Tccp} (tail : List UInt8) (hw : Writable e)
    (ht : e.tccps = t :: ts) (hd : Stage e true false (fun _ w r => AfterCod w r) d) :
    ∃ d', readQcd (flag 0xFF5C d (sqBytes t ++ tail)) (sqBytes t ++ tail) (sqBytes t).length = .ok d' ∧
      Stage e true true (fun _ w r => AfterQcd t w r) d' := by
  have hm : t ∈ e.tccps := by rw [ht]; simp
  have hst := hw.style t hm
  have hqt := hw.quant t hm
  rw [sqBytes_len hst.numres hqt.steps_len]
  unfold readQcd flag
  dsimp only
  obtain ⟨L, hL⟩ : ∃ L, L = d.tcp.tccps := ⟨_, rfl⟩
  have hLl : L.length = e.comps.length := by rw [hL]; exact hd.tlen
  rw [← hL]
  cases L with
  | nil => simp at hLl; have := hw.comps_len; omega
  | cons r rs =>
    dsimp only
    have hr := hd.rel 0 t r (by rw [ht]; rfl) (by rw [← hL]; rfl)
    obtain ⟨r', hr', s1, s2, s3, s4⟩ := readSQcd_eq (w := t) (t := r) tail hqt hst.numres hr.steps
    rw [hr', ok_bind]
    dsimp only
    rw [refuse_bind (by simp)]
    refine ⟨_, rfl, ⟨hd.rsiz, hd.image, hd.tiles, hd.comps, hd.clen, ?_, hd.head, hd.pocs, ?_, hd.siz, ?_, ?_, ?_, hd.ppm, hd.ppms, ?_⟩⟩
    · simpa using hLl
    · have hsft := hd.shift
      rw [← hL, List.map_cons] at hsft
      dsimp only
      rw [List.map_cons, s3, ← hsft, List.map_map]
      rfl
    · dsimp only; rw [hd.hasSiz]; rfl
    · dsimp only; rw [hd.hasCod]; rfl
    · dsimp only; rw [hd.hasQcd]; rfl
    · intro j w x hjw hjx
      cases j with
      | zero =>
        have hr0 := hd.rel 0 w r hjw (by rw [← hL]; rfl)
        dsimp only at hjx
        simp at hjx
        subst hjx
        exact ⟨s4 _ hr0.style, s1, s2.trans hr0.roi⟩
      | succ j =>
        dsimp only at hjx
        rw [List.getElem?_cons_succ, List.getElem?_map] at hjx
        cases hrj : rs[j]? with
        | none => rw [hrj] at hjx; cases hjx
        | some a =>
          rw [hrj] at hjx
          cases hjx
          have ha := hd.rel (j + 1) w a hjw (by rw [← hL, List.getElem?_cons_succ]; exact hrj)
          have hb := ha.style
          exact ⟨⟨hb.csty, hb.numres, hb.cblkw, hb.cblkh, hb.cblksty, hb.qmfbid, hb.prcs, hb.prcs_len⟩,
            ⟨s1.qntsty, s1.numgbits, s1.steps, s1.steps_len⟩, ha.roi⟩

/-- Equal quantization, in the sense of the comparison the encoder makes. -/
theorem QuantSame.of_same {a b r : Tccp} (hn : a.numres = b.numres) (hnr : 1 ≤ a.numres ∧ a.numres ≤ 33)
    (h : sameQuant a b = true) (hr : QuantSame a r) : QuantSame b r := by
  unfold sameQuant at h
  simp only [Bool.and_eq_true, Bool.or_eq_true, beq_iff_eq] at h
  obtain ⟨⟨⟨⟨h1, h2⟩, _⟩, h4⟩, h5⟩ := h
  refine ⟨hr.qntsty.trans h1, hr.numgbits.trans h2, fun i hi => ?_, hr.steps_len⟩
  rw [hr.steps i (by omega)]
  have hnb := numBands_le hnr
  have fst_eq : ∀ k < numBands a, (a.steps[k]?).map Prod.fst = (b.steps[k]?).map Prod.fst := by
    intro k hk
    have := congrArg (fun l => l[k]?) h4
    simpa [List.getElem?_map, List.getElem?_take, hk] using this
  unfold stepOf
  rw [← h1]
  by_cases h0 : a.qntsty = 0
  · rw [if_pos h0, if_pos h0]
    have := fst_eq i (by rw [numBands_eq hnr (by omega)]; omega)
    cases ha : a.steps[i]? <;> cases hb : b.steps[i]? <;> rw [ha, hb] at this <;> simp at this ⊢
    exact this
  · have h5' : (a.steps.take (numBands a)).map Prod.snd = (b.steps.take (numBands a)).map Prod.snd := by
      rcases h5 with h5 | h5
      · exact absurd h5 h0
      · exact h5
    have all : ∀ k < numBands a, a.steps[k]? = b.steps[k]? := by
      intro k hk
      have f1 := fst_eq k hk
      have f2 := congrArg (fun l => l[k]?) h5'
      simp only [List.getElem?_map, List.getElem?_take, if_pos hk] at f2
      cases ha : a.steps[k]? <;> cases hb : b.steps[k]? <;> rw [ha, hb] at f1 f2 <;> simp at f1 f2 ⊢
      exact Prod.ext f1 f2
    rw [if_neg h0, if_neg h0]
    by_cases hq : a.qntsty = 1
    · rw [if_pos hq, if_pos hq, all 0 (by omega)]
    · rw [if_neg hq, if_neg hq, all i (by rw [numBands_eq hnr hq]; omega)]

/-- The components read, up to number `k` with their own quantization. -/
def QccRel (t : Tccp) (k j : Nat) (w r : Tccp) : Prop := AfterQcd (if j < k then w else t) w r

theorem room_lt {n i : Nat} (h : i < n) (hn : n ≤ 16384) : i < 256 ^ room n ∧ 1 ≤ room n ∧ room n ≤ 4 := by
  unfold room
  split <;> omega

theorem setComp_stage {e : Enc} {cod qcd : Bool} {T T' : Nat → Tccp → Tccp → Prop} {d : Dec} {k : Nat} {r r' : Tccp}
    (hd : Stage e cod qcd T d) (hk : d.tcp.tccps[k]? = some r) (hs : r'.dcShift = r.dcShift)
    (h1 : ∀ w, e.tccps[k]? = some w → T k w r → T' k w r') (h2 : ∀ j w x, j ≠ k → T j w x → T' j w x) :
    Stage e cod qcd T' (setComp d k r') := by
  have hkl : k < d.tcp.tccps.length := (List.getElem?_eq_some_iff.1 hk).1
  refine ⟨hd.rsiz, hd.image, hd.tiles, hd.comps, hd.clen, ?_, hd.head, hd.pocs, ?_, hd.siz, hd.hasSiz, hd.hasCod, hd.hasQcd,
    hd.ppm, hd.ppms, ?_⟩
  · unfold setComp; dsimp only; rw [List.length_set]; exact hd.tlen
  · unfold setComp; dsimp only
    rw [← hd.shift]
    apply List.ext_getElem?
    intro j
    rw [List.getElem?_map, List.getElem?_map, List.getElem?_set]
    by_cases hj : k = j
    · subst hj
      rw [if_pos rfl, if_pos hkl, hk, Option.map_some, Option.map_some, hs]
    · rw [if_neg hj]
  · intro j w x hw hx
    unfold setComp at hx
    dsimp only at hx
    rw [List.getElem?_set] at hx
    by_cases hj : k = j
    · subst hj
      rw [if_pos rfl, if_pos hkl] at hx
      cases hx
      exact h1 w hw (hd.rel k w r hw hk)
    · rw [if_neg hj] at hx
      exact h2 j w x (fun h => hj h.symm) (hd.rel j w x hw hx)

/-- The body of `QCC`. -/
def qccBody (e : Enc) (i : Nat) (t : Tccp) : List UInt8 := be (room e.comps.length) i ++ sqBytes t

theorem writeQcc_eq {e : Enc} {i : Nat} {t : Tccp} (hn : 1 ≤ t.numres ∧ t.numres ≤ 33) (hl : t.steps.length = 97) :
    writeQcc e i t = .ok (seg 0xFF5D (qccBody e i t)) ∧ (qccBody e i t).length = room e.comps.length + sqcdSize t := by
  have hb : (qccBody e i t).length = room e.comps.length + sqcdSize t := by
    unfold qccBody; rw [List.length_append, be_len, sqBytes_len hn hl]
  refine ⟨?_, hb⟩
  unfold writeQcc seg segment
  rw [writeSQcd_eq hn hl, ok_bind, hb, show room e.comps.length + sqcdSize t + 2 = 2 + room e.comps.length + sqcdSize t by omega]
  unfold qccBody
  simp only [List.append_assoc]
  rfl

theorem readQcc_eq {e : Enc} {d : Dec} {t w : Tccp} {k : Nat} (tail : List UInt8) (hw : Writable e)
    (hk : e.tccps[k]? = some w) (hd : Stage e true true (QccRel t k) d) :
    ∃ d', readQcc d (qccBody e k w ++ tail) (qccBody e k w).length = .ok d' ∧ Stage e true true (QccRel t (k + 1)) d' := by
  have hwm : w ∈ e.tccps := List.mem_of_getElem? hk
  have hst := hw.style w hwm
  have hqt := hw.quant w hwm
  have hkl : k < e.tccps.length := (List.getElem?_eq_some_iff.1 hk).1
  have htl := hw.tccps
  obtain ⟨hr1, hr2⟩ := room_lt (show k < e.comps.length by omega) hw.comps_len.2
  rw [(writeQcc_eq hst.numres hqt.steps_len).2]
  unfold readQcc qccBody
  rw [hd.clen, List.append_assoc, refuse_bind (by omega), next_be _ hr2 hr1, ok_bind]
  dsimp only
  rw [refuse_bind (by omega)]
  obtain ⟨r, hr⟩ : ∃ r, d.tcp.tccps[k]? = some r := ⟨_, List.getElem?_eq_getElem (by rw [hd.tlen]; omega)⟩
  have hrel := hd.rel k w r hk hr
  unfold comp
  rw [hr]
  dsimp only
  rw [ok_bind, show room e.comps.length + sqcdSize w - room e.comps.length = sqcdSize w by omega]
  obtain ⟨r', hr', s1, s2, s3, s4⟩ := readSQcd_eq (w := w) (t := r) tail hqt hst.numres hrel.quant.steps_len
  rw [hr', ok_bind]
  dsimp only
  rw [refuse_bind (by simp)]
  refine ⟨_, rfl, setComp_stage hd hr s3 ?_ ?_⟩
  · intro w' hw' h
    rw [hk] at hw'
    cases hw'
    unfold QccRel
    rw [if_pos (by omega)]
    exact ⟨s4 _ h.style, s1, s2.trans h.roi⟩
  · intro j w' x hj h
    unfold QccRel at h ⊢
    by_cases hlt : j < k
    · rw [if_pos (by omega)]; rw [if_pos hlt] at h; exact h
    · rw [if_neg (by omega)]; rw [if_neg hlt] at h; exact h

theorem chunk_qccs {u : User} {e : Enc} {t : Tccp} (hw : Writable e) (hsh : SharedStyle e) (ht : e.tccps[0]? = some t) :
    ∀ (l : List Tccp) (k : Nat), (∀ j, l[j]? = e.tccps[k + j]?) →
    ∃ b n, writeQccs e k l = .ok b ∧ Chunk u (Stage e true true (QccRel t k)) b n (Stage e true true (QccRel t (k + l.length)))
  | [], k, _ => ⟨[], 0, rfl, Chunk.nil _ _⟩
  | w :: l, k, hl => by
    have hk : e.tccps[k]? = some w := by have := hl 0; simpa using this.symm
    have hwm : w ∈ e.tccps := List.mem_of_getElem? hk
    have htm : t ∈ e.tccps := List.mem_of_getElem? ht
    have hst := hw.style w hwm
    have hqt := hw.quant w hwm
    obtain ⟨b, n, hb, hc⟩ := chunk_qccs (u := u) hw hsh ht l (k + 1) (fun j => by
      have := hl (j + 1)
      rw [List.getElem?_cons_succ] at this
      rw [this]; congr 1; omega)
    have hf : first e = .ok t := by
      unfold first
      cases he : e.tccps with
      | nil => rw [he] at ht; simp at ht
      | cons a l' => rw [he] at ht; simp at ht; rw [ht]
    rw [List.length_cons, show k + (l.length + 1) = k + 1 + l.length by omega]
    unfold writeQccs
    rw [hf, ok_bind]
    by_cases hsame : sameQuant t w = true
    · rw [if_pos hsame, pure_bind', hb]
      refine ⟨b, n, rfl, hc.mono (fun d hd => hd.mono fun j w' r hj _ h => ?_) (fun _ h => h)⟩
      unfold QccRel at h ⊢
      by_cases hjk : j = k
      · subst hjk
        rw [hk] at hj; cases hj
        rw [if_neg (by omega)] at h
        rw [if_pos (by omega)]
        exact ⟨h.style, h.quant.of_same (hsh t htm w hwm).1 (hw.style t htm).numres hsame, h.roi⟩
      · by_cases hlt : j < k
        · rw [if_pos (by omega)]; rw [if_pos hlt] at h; exact h
        · rw [if_neg (by omega)]; rw [if_neg hlt] at h; exact h
    · obtain ⟨hq1, hq2⟩ := writeQcc_eq (e := e) (i := k) hst.numres hqt.steps_len
      rw [if_neg hsame, hq1, ok_bind, hb]
      refine ⟨_, 1 + n, rfl, Chunk.append ?_ hc⟩
      have hsz : sqcdSize w ≤ 1 + 2 * 97 := by
        have := numBands_le hst.numres
        unfold sqcdSize; split <;> omega
      have hrm : room e.comps.length ≤ 2 := by unfold room; split <;> omega
      refine chunk_seg (by omega) (by omega) (by decide) (by omega) (by omega) (fun d hd => by rw [hd.siz]; rfl) ?_
      intro d tail hd
      have hf := hd.flag (m := 0xFF5D) (b := qccBody e k w ++ tail) (by omega) (by omega) (by omega)
      obtain ⟨d', h1, h2⟩ := readQcc_eq tail hw hk hf
      exact ⟨d', h1, h2⟩

/-! ## `RGN`, `TLM`, `COM` -/

/-- The body of `RGN`. -/
def rgnBody (e : Enc) (i : Nat) (t : Tccp) : List UInt8 := be (room e.comps.length) i ++ (be 1 0 ++ be 1 t.roishift)

/-- The components read, up to number `k` with their region of interest. -/
def RgnRel (k j : Nat) (w r : Tccp) : Prop :=
  StyleSame w r ∧ QuantSame w r ∧ r.roishift = if j < k then w.roishift else 0

theorem readRgn_eq {e : Enc} {d : Dec} {w : Tccp} {k : Nat} (tail : List UInt8) (hw : Writable e)
    (hk : e.tccps[k]? = some w) (hd : Stage e true true (RgnRel k) d) :
    ∃ d', readRgn d (rgnBody e k w ++ tail) (rgnBody e k w).length = .ok d' ∧ Stage e true true (RgnRel (k + 1)) d' := by
  have hwm : w ∈ e.tccps := List.mem_of_getElem? hk
  have hkl : k < e.tccps.length := (List.getElem?_eq_some_iff.1 hk).1
  have htl := hw.tccps
  have hroi := hw.roi w hwm
  obtain ⟨hr1, hr2⟩ := room_lt (show k < e.comps.length by omega) hw.comps_len.2
  have hlen : (rgnBody e k w).length = 2 + room e.comps.length := by
    unfold rgnBody; simp only [List.length_append, be_len]; omega
  rw [hlen]
  unfold readRgn rgnBody
  simp only [List.append_assoc]
  rw [hd.clen, refuse_bind (by simp), next_be _ hr2 hr1, ok_bind]
  dsimp only
  rw [next_be _ (by omega) (by omega), ok_bind]
  dsimp only
  rw [refuse_bind (by omega), next_be _ (by omega) (by omega), ok_bind]
  dsimp only
  obtain ⟨r, hr⟩ : ∃ r, d.tcp.tccps[k]? = some r := ⟨_, List.getElem?_eq_getElem (by rw [hd.tlen]; omega)⟩
  unfold comp
  rw [hr]
  dsimp only
  rw [ok_bind]
  refine ⟨_, rfl, setComp_stage hd hr ?_ ?_ ?_⟩
  · rfl
  · intro w' hw' h
    rw [hk] at hw'
    cases hw'
    obtain ⟨a, b, _⟩ := h
    refine ⟨⟨a.csty, a.numres, a.cblkw, a.cblkh, a.cblksty, a.qmfbid, a.prcs, a.prcs_len⟩,
      ⟨b.qntsty, b.numgbits, b.steps, b.steps_len⟩, ?_⟩
    rw [if_pos (by omega)]
  · intro j w' x hj h
    obtain ⟨a, b, c⟩ := h
    refine ⟨a, b, ?_⟩
    by_cases hlt : j < k
    · rw [if_pos (by omega)]; rw [if_pos hlt] at c; exact c
    · rw [if_neg (by omega)]; rw [if_neg hlt] at c; exact c

theorem chunk_rgns {u : User} {e : Enc} (hw : Writable e) :
    ∀ (l : List Tccp) (k : Nat), (∀ j, l[j]? = e.tccps[k + j]?) →
    ∃ n, Chunk u (Stage e true true (RgnRel k)) (writeRgns e k l) n (Stage e true true (RgnRel (k + l.length)))
  | [], k, _ => ⟨0, Chunk.nil _ _⟩
  | w :: l, k, hl => by
    have hk : e.tccps[k]? = some w := by have := hl 0; simpa using this.symm
    obtain ⟨n, hc⟩ := chunk_rgns (u := u) hw l (k + 1) (fun j => by
      have := hl (j + 1)
      rw [List.getElem?_cons_succ] at this
      rw [this]; congr 1; omega)
    rw [List.length_cons, show k + (l.length + 1) = k + 1 + l.length by omega]
    unfold writeRgns
    by_cases h0 : w.roishift ≠ 0
    · rw [if_pos h0]
      refine ⟨1 + n, Chunk.append ?_ hc⟩
      have hlen : (rgnBody e k w).length = 2 + room e.comps.length := by
        unfold rgnBody; simp only [List.length_append, be_len]; omega
      have hrm : room e.comps.length ≤ 2 := by unfold room; split <;> omega
      have he : writeRgn e k w = seg 0xFF5E (rgnBody e k w) := by
        unfold writeRgn seg segment
        rw [hlen, show 2 + room e.comps.length + 2 = 4 + room e.comps.length by omega]
        unfold rgnBody
        simp only [List.append_assoc]
      rw [he]
      refine chunk_seg (by omega) (by omega) (by decide) (by omega) (by omega) (fun d hd => by rw [hd.siz]; rfl) ?_
      intro d tail hd
      have hf := hd.flag (m := 0xFF5E) (b := rgnBody e k w ++ tail) (by omega) (by omega) (by omega)
      obtain ⟨d', h1, h2⟩ := readRgn_eq tail hw hk hf
      exact ⟨d', h1, h2⟩
    · rw [if_neg h0, List.nil_append]
      refine ⟨n, hc.mono (fun d hd => hd.mono fun j w' r hj _ h => ?_) (fun _ h => h)⟩
      obtain ⟨a, b, c⟩ := h
      refine ⟨a, b, ?_⟩
      by_cases hjk : j = k
      · subst hjk
        rw [hk] at hj; cases hj
        rw [if_neg (by omega)] at c
        rw [if_pos (by omega), c]
        omega
      · by_cases hlt : j < k
        · rw [if_pos (by omega)]; rw [if_pos hlt] at c; exact c
        · rw [if_neg (by omega)]; rw [if_neg hlt] at c; exact c

theorem chunk_tlm {u : User} {e : Enc} {T : Nat → Tccp → Tccp → Prop} {n : Nat} (hn : n ≤ 10921) :
    ∃ b, writeTlm n = .ok b ∧ Chunk u (Stage e true true T) b 1 (Stage e true true T) := by
  unfold writeTlm
  rw [refuse_bind (by omega)]
  obtain ⟨per, hper⟩ : ∃ per, per = if n ≤ 255 then 5 else 6 := ⟨_, rfl⟩
  obtain ⟨b, hb⟩ : ∃ b, b = be 1 0 ++ (be 1 (if n ≤ 255 then 0x50 else 0x60) ++ List.replicate (per * n) (0 : UInt8)) := ⟨_, rfl⟩
  have hlen : b.length = 2 + per * n := by
    rw [hb]; simp only [List.length_append, be_len, List.length_replicate]; omega
  refine ⟨seg 0xFF55 b, ?_, ?_⟩
  · rw [← hper]
    unfold seg segment
    rw [hlen, show 2 + per * n + 2 = 4 + per * n by omega, hb]
    simp only [List.append_assoc]
    rfl
  · have hpn : per * n ≤ 65526 := by
      rw [hper]; split <;> omega
    refine chunk_seg (by omega) (by omega) (by decide) (by omega) (by omega) (fun d hd => by rw [hd.siz]; rfl) ?_
    intro d tail hd
    have hf := hd.flag (m := 0xFF55) (b := b ++ tail) (by omega) (by omega) (by omega)
    refine ⟨_, ?_, hf⟩
    show readTlm _ _ _ = _
    unfold readTlm
    rw [hlen, refuse_bind (by omega)]
    obtain ⟨buf, hbuf⟩ : ∃ buf, buf = b ++ tail := ⟨_, rfl⟩
    rw [← hbuf, show buf = be 1 0 ++ (be 1 (if n ≤ 255 then 0x50 else 0x60) ++ (List.replicate (per * n) (0 : UInt8) ++ tail)) by
      rw [hbuf, hb]; simp only [List.append_assoc]]
    rw [next_be _ (by omega) (by omega), ok_bind]
    dsimp only
    rw [next_be _ (by omega) (by split <;> omega), ok_bind]
    dsimp only
    rw [refuse_bind]
    · rfl
    · rw [hper, show ∀ a, 2 + a - 2 = a by omega]
      split <;> simp

theorem chunk_com {u : User} {e : Enc} {T : Nat → Tccp → Tccp → Prop} {c : List UInt8} (hc : c.length ≤ 65531) :
    Chunk u (Stage e true true T) (writeCom c) 1 (Stage e true true T) := by
  have hlen : (be 2 1 ++ c).length = 2 + c.length := by simp only [List.length_append, be_len]
  have he : writeCom c = seg 0xFF64 (be 2 1 ++ c) := by
    unfold writeCom seg segment
    rw [hlen, show 2 + c.length + 2 = c.length + 4 by omega]
    simp only [List.append_assoc]
  rw [he]
  refine chunk_seg (by omega) (by omega) (by decide) (by omega) (by omega) (fun d hd => by rw [hd.siz]; rfl) ?_
  intro d tail hd
  exact ⟨_, rfl, hd.flag (by omega) (by omega) (by omega)⟩

end Jp2.Hdr

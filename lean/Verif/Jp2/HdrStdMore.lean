import Verif.Jp2.HdrStdRead
/-!
# One more segment at the end of a header
-/
namespace Jp2.Hdr

theorem mergePpm_frame {x d : Dec} (h : mergePpm x = .ok d) :
    d.tcp = x.tcp ∧ d.comps = x.comps ∧ ∀ tcp comps b, mergePpm { x with tcp := tcp, comps := comps, buf := b } =
      .ok { d with tcp := tcp, comps := comps, buf := b } := by
  unfold mergePpm at h ⊢
  by_cases hp : x.ppm = false
  · rw [if_pos hp] at h
    injection h with h
    subst h
    refine ⟨rfl, rfl, fun tcp comps b => ?_⟩
    rw [if_pos hp]
    rfl
  · rw [if_neg hp] at h
    obtain ⟨r, h1, h⟩ := bind_ok h
    obtain ⟨_, h2, h⟩ := bind_ok h
    obtain ⟨_, h3, h⟩ := bind_ok h
    obtain ⟨out, h4, h⟩ := bind_ok h
    injection h with h
    subst h
    refine ⟨rfl, rfl, fun tcp comps b => ?_⟩
    rw [if_neg hp]
    dsimp only
    rw [h1, ok_bind, h2, ok_bind, h3, ok_bind, h4, ok_bind]
    rfl

/-- A segment at the end of a header that changes tile parameters and components only. -/
theorem header_append {u : User} (hu : u.reduce < 64) {segs : List (Nat × List UInt8)} {m : Nat} {body rest : List UInt8}
    (hsegs : ∀ s ∈ segs, s.1 < 65536 ∧ 0xFF00 ≤ s.1 ∧ known s.1 = true ∧ s.1 ≠ 0xFF90 ∧ s.2.length + 2 < 65536)
    (hm : m < 65536) (hm1 : 0xFF00 ≤ m) (hk : known m = true) (hne : m ≠ 0xFF90) (ha : allowed true m = true)
    (hne1 : m ≠ 0xFF51) (hne2 : m ≠ 0xFF52) (hne3 : m ≠ 0xFF5C) (hbl : body.length + 2 < 65536) {d : Dec} {rest' : List UInt8}
    (h : readHeader u (be 2 0xFF4F ++ ((segs.flatMap fun s => segment s.1 s.2) ++ (be 2 0xFF90 ++ rest))) = .ok (d, rest'))
    {Q : Tcp → List Comp → Prop}
    (hh : ∀ (dh : Dec) (tail : List UInt8), Inv u dh → dh.tcp = d.tcp → dh.comps = d.comps →
      ∃ tcp comps, handle u m dh (body ++ tail) body.length = .ok { dh with tcp := tcp, comps := comps } ∧ Q tcp comps) :
    ∃ tcp comps b, readHeader u (be 2 0xFF4F ++ ((segs.flatMap fun s => segment s.1 s.2) ++ (segment m body ++ (be 2 0xFF90 ++ rest)))) =
      .ok ({ d with tcp := tcp, comps := comps, buf := b }, rest) ∧ Q tcp comps := by
  have hl2 := be_len 2 0xFF90
  have hlm := be_len 2 m
  have hlb := be_len 2 (body.length + 2)
  obtain ⟨B, hB⟩ : ∃ B, B = segs.flatMap fun s => segment s.1 s.2 := ⟨_, rfl⟩
  have hBl : 4 * segs.length ≤ B.length := by rw [hB]; exact segs_len segs
  have e1 : (B ++ (be 2 0xFF90 ++ rest)).length = B.length + 2 + rest.length := by simp only [List.length_append]; omega
  have e2 : (B ++ (segment m body ++ (be 2 0xFF90 ++ rest))).length = B.length + 6 + body.length + rest.length := by
    unfold segment; simp only [List.length_append]; omega
  rw [← hB] at h ⊢
  rw [readHeader_resume (by omega), e1] at h
  rw [readHeader_resume (by omega), e2]
  have run := run_known hu segs {} ⟨by show 1000 ≤ (List.replicate 1000 (0 : UInt8)).length; rw [List.length_replicate],
    fun _ => ⟨rfl, rfl, rfl, rfl⟩, (fun h => nomatch h), (fun h => nomatch h)⟩ hsegs
  rw [← hB] at run
  rw [show B.length + 2 + rest.length - 2 + 1 = (B.length + rest.length + 1 - segs.length) + segs.length by omega] at h
  rw [show B.length + 6 + body.length + rest.length - 2 + 1 =
    ((B.length + 3 + body.length + rest.length + 1 - segs.length) + 1) + segs.length by omega]
  rcases run with ⟨d0, hd0, hrun⟩ | ⟨e, hrun⟩
  · rw [hrun] at h ⊢
    obtain ⟨b1, hb1⟩ := resume_sot u (B.length + rest.length + 1 - segs.length) d0 rest
    rw [hb1, ok_bind] at h
    unfold finish at h
    dsimp only at h
    obtain ⟨_, f1, h⟩ := bind_ok h
    obtain ⟨_, f2, h⟩ := bind_ok h
    obtain ⟨_, f3, h⟩ := bind_ok h
    obtain ⟨dm, f4, h⟩ := bind_ok h
    injection h with h
    obtain ⟨g1, g2⟩ := Prod.mk.inj h
    subst g1
    have hsz : d0.siz = true := by
      cases hz : d0.siz with
      | true => rfl
      | false => rw [(hd0.start hz).2.1] at f1; cases f1
    obtain ⟨m1, m2, m3⟩ := mergePpm_frame f4
    dsimp only at m1 m2
    rw [resume_seg hm hm1 hk hne hbl, refuse_bind (by rw [hsz, ha]; simp)]
    obtain ⟨bb, hbb⟩ : ∃ bb, bb = body ++ (be 2 (body.length + 2) ++ (be 2 m ++ d0.buf.drop 2).drop 2).drop body.length := ⟨_, rfl⟩
    have hflag : flag m d0 bb = { d0 with buf := bb } := by
      unfold flag
      rw [show (m == 0xFF51) = false by simpa using hne1, show (m == 0xFF52) = false by simpa using hne2,
        show (m == 0xFF5C) = false by simpa using hne3, Bool.or_false, Bool.or_false, Bool.or_false]
    have hst : St u { d0 with buf := bb } := hd0.withBuf (by
      have := hd0.buf
      rw [hbb]
      simp only [List.length_append, List.length_drop]
      omega)
    obtain ⟨tcp, comps, q1, q2⟩ := hh { d0 with buf := bb } _ (hst.inv hsz) m1.symm m2.symm
    rw [← hbb, hflag]
    rw [← hbb] at q1
    rw [q1, ok_bind]
    obtain ⟨b2, hb2⟩ := resume_sot u (B.length + 3 + body.length + rest.length + 1 - segs.length)
      { d0 with buf := bb, tcp := tcp, comps := comps } rest
    rw [hb2, ok_bind]
    refine ⟨tcp, comps, b2, ?_, q2⟩
    unfold finish
    dsimp only
    rw [f1, ok_bind, f2, ok_bind, f3, ok_bind]
    have := m3 tcp comps b2
    dsimp only at this
    rw [this, ok_bind]
    rfl
  · rw [hrun] at h
    cases h

/-! ## Handlers -/

theorem compNumber_len (n i : Nat) : (compNumber n i).length = room n := by rw [compNumber_eq, be_len]

theorem readSPCod_keeps {u : User} {t r : Tccp} {p : List UInt8} {size k : Nat} (h : readSPCod u t p size = .ok (r, k)) :
    r = { t with numres := r.numres, cblkw := r.cblkw, cblkh := r.cblkh, cblksty := r.cblksty, qmfbid := r.qmfbid, prcs := r.prcs } := by
  unfold readSPCod at h
  obtain ⟨_, _, h⟩ := bind_ok h
  obtain ⟨_, _, h⟩ := bind_ok h
  obtain ⟨_, _, h⟩ := bind_ok h
  obtain ⟨_, _, h⟩ := bind_ok h
  obtain ⟨_, _, h⟩ := bind_ok h
  obtain ⟨_, _, h⟩ := bind_ok h
  obtain ⟨_, _, h⟩ := bind_ok h
  obtain ⟨_, _, h⟩ := bind_ok h
  obtain ⟨_, _, h⟩ := bind_ok h
  obtain ⟨_, _, h⟩ := bind_ok h
  obtain ⟨_, _, h⟩ := bind_ok h
  split at h
  · obtain ⟨_, _, h⟩ := bind_ok h
    obtain ⟨_, _, h⟩ := bind_ok h
    obtain ⟨_, _, h⟩ := bind_ok h
    injection h with h
    obtain ⟨rfl, _⟩ := Prod.mk.inj h
    rfl
  · obtain ⟨_, _, h⟩ := bind_ok h
    injection h with h
    obtain ⟨rfl, _⟩ := Prod.mk.inj h
    rfl

theorem readSQcd_keeps {t r : Tccp} {p : List UInt8} {size k : Nat} (h : readSQcd t p size = .ok (r, k)) :
    r = { t with qntsty := r.qntsty, numgbits := r.numgbits, steps := r.steps } := by
  unfold readSQcd at h
  obtain ⟨_, _, h⟩ := bind_ok h
  obtain ⟨_, _, h⟩ := bind_ok h
  dsimp only at h
  split at h
  · obtain ⟨_, _, h⟩ := bind_ok h
    obtain ⟨_, _, h⟩ := bind_ok h
    obtain ⟨_, _, h⟩ := bind_ok h
    injection h with h
    obtain ⟨rfl, _⟩ := Prod.mk.inj h
    rfl
  · obtain ⟨_, _, h⟩ := bind_ok h
    obtain ⟨_, _, h⟩ := bind_ok h
    obtain ⟨_, _, h⟩ := bind_ok h
    injection h with h
    obtain ⟨rfl, _⟩ := Prod.mk.inj h
    rfl

/-- A component with a given style. -/
def Style.tccp (s : Style) : Tccp :=
  { csty := s.scoc, numres := s.levels + 1, cblkw := s.xcb, cblkh := s.ycb, cblksty := s.modes,
    qmfbid := if s.reversible then 1 else 0, prcs := s.precincts.getD [] ++ List.replicate (33 - (s.precincts.getD []).length) (15, 15) }

theorem Style.tccp_prcs {s : Style} (h : s.Valid) : s.tccp.prcs.length = 33 := by
  unfold Style.tccp
  dsimp only
  have : (s.precincts.getD []).length ≤ 33 := by
    cases hp : s.precincts with
    | none => simp
    | some l =>
      have := h.number l hp
      have := h.levels
      simp only [Option.getD_some]
      omega
  rw [List.length_append, List.length_replicate]
  omega

theorem Style.tccp_take {s : Style} (h : s.Valid) {l : List (Nat × Nat)} (hl : s.precincts = some l) :
    s.tccp.prcs.take (s.levels + 1) = l := by
  have := h.number l hl
  unfold Style.tccp
  dsimp only
  rw [hl, Option.getD_some, ← this, List.take_left']
  rfl

theorem Style.tccp_ok {s : Style} (h : s.Valid) : StyleOk {} s.tccp := by
  have hl := h.levels
  refine ⟨⟨by unfold Style.tccp; dsimp only; omega, by unfold Style.tccp; dsimp only; omega⟩, by unfold Style.tccp; dsimp only; omega,
    h.xcb, h.ycb, h.block, h.modes, by unfold Style.tccp; dsimp only; split <;> omega, ?_⟩
  intro r q hq hr
  have hr' : r < s.levels + 1 := hr
  cases hp : s.precincts with
  | none =>
    have hm := List.mem_of_getElem? hq
    unfold Style.tccp at hm
    rw [hp] at hm
    simp only [Option.getD_none, List.nil_append, List.mem_replicate] at hm
    rw [hm.2]
    simp
  | some l =>
    have ht := Style.tccp_take h hp
    have : l[r]? = some q := by
      rw [← ht, List.getElem?_take, if_pos hr']
      exact hq
    exact h.precincts l hp r q this

theorem Style.of_tccp {s : Style} (h : s.Valid) : styleOf s.tccp = s := by
  have e : (if s.tccp.csty % 2 = 1 then some (s.tccp.prcs.take s.tccp.numres) else none) = s.precincts := by
    show (if s.scoc % 2 = 1 then some (s.tccp.prcs.take (s.levels + 1)) else none) = s.precincts
    cases hp : s.precincts with
    | none => unfold Style.scoc; rw [hp]; rfl
    | some l => rw [Style.tccp_take h hp]; unfold Style.scoc; rw [hp]; rfl
  have e2 : ((if s.reversible = true then 1 else 0) == 1) = s.reversible := by cases s.reversible <;> rfl
  unfold styleOf
  rw [e]
  show (⟨s.levels + 1 - 1, s.xcb, s.ycb, s.modes, ((if s.reversible = true then 1 else 0) == 1), s.precincts⟩ : Style) = s
  rw [e2]
  rfl

theorem Style.tccp_precinct {s : Style} (h : s.Valid) {r : Nat} (hr : r ≤ s.levels) : precinctOf s.tccp r = s.precinct r := by
  unfold precinctOf Style.precinct
  show (if s.scoc % 2 = 1 then s.tccp.prcs[r]? else some (15, 15)) = _
  cases hp : s.precincts with
  | none => unfold Style.scoc; rw [hp]; rfl
  | some l =>
    unfold Style.scoc
    rw [hp]
    show s.tccp.prcs[r]? = l[r]?
    rw [← Style.tccp_take h hp, List.getElem?_take, if_pos (by omega)]

/-- `COC` gives component `i` its style and nothing else. -/
theorem readCoc_std {u : User} {d : Dec} {s : Style} {i : Nat} {t : Tccp} (tail : List UInt8) (h : Inv u d) (hs : s.Valid)
    (hu : u.reduce ≤ s.levels) (ht : d.tcp.tccps[i]? = some t) :
    ∃ ps : List (Nat × Nat), readCoc u d (cocBody d.comps.length i s ++ tail) (cocBody d.comps.length i s).length = .ok (setComp d i
        { t with csty := s.scoc, numres := s.levels + 1, cblkw := s.xcb, cblkh := s.ycb, cblksty := s.modes,
                 qmfbid := if s.reversible then 1 else 0, prcs := ps }) ∧ ∀ r ≤ s.levels, ps[r]? = s.precinct r := by
  have hil : i < d.comps.length := by rw [← h.tcp.len]; exact (List.getElem?_eq_some_iff.1 ht).1
  have hti := h.tcp.tccps t (List.mem_of_getElem? ht)
  obtain ⟨hr1, hr2⟩ := room_lt hil h.geom.comps_len.2
  have hsc : s.scoc < 256 := by unfold Style.scoc; split <;> omega
  have hlv := hs.levels
  have hbl : s.bytes.length = spcodSize s.tccp := by
    rw [← spBytes_len (Style.tccp_prcs hs) (by show s.levels + 1 ≤ 33; omega), spBytes_std (Style.tccp_ok hs), Style.of_tccp hs]
  have hlen : (cocBody d.comps.length i s).length = room d.comps.length + 1 + spcodSize s.tccp := by
    unfold cocBody
    rw [List.length_append, List.length_append, compNumber_len, be_len, hbl]
  unfold readCoc
  rw [hlen]
  unfold cocBody
  rw [compNumber_eq, List.append_assoc, List.append_assoc, refuse_bind (by omega), next_be _ hr2 hr1, ok_bind]
  dsimp only
  rw [refuse_bind (by omega), next_be _ (by omega) (by omega), ok_bind]
  dsimp only
  unfold comp
  rw [ht]
  dsimp only
  rw [ok_bind, show room d.comps.length + 1 + spcodSize s.tccp - (room d.comps.length + 1) = spcodSize s.tccp by omega]
  obtain ⟨r, e1, e2, e3, e4, e5⟩ := readSPCod_eq (u := u) (w := s.tccp) (t := { t with csty := s.scoc }) tail (Style.tccp_ok hs)
    (Style.tccp_prcs hs) hti.prcs_len rfl (by show u.reduce < s.levels + 1; omega)
  rw [spBytes_std (Style.tccp_ok hs), Style.of_tccp hs] at e1
  rw [e1, ok_bind]
  dsimp only
  rw [refuse_bind (by simp)]
  have hk := readSPCod_keeps e1
  refine ⟨r.prcs, ?_, fun k hk => (e2.prcs k (by show k < s.levels + 1; omega)).trans (Style.tccp_precinct hs hk)⟩
  rw [e2.numres, e2.cblkw, e2.cblkh, e2.cblksty, e2.qmfbid] at hk
  show Except.ok (setComp d i r) = _
  exact congrArg (fun x => Except.ok (setComp d i x)) hk

/-! ## Quantization -/

/-- The step sizes as the encoder keeps them. -/
def Steps.list : Steps → List (Nat × Nat)
  | .none l => l.map fun e => (e, 0)
  | .derived e m => [(e, m)]
  | .expounded l => l

/-- A component with a given quantization. -/
def Quant.tccp (levels : Nat) (q : Quant) : Tccp :=
  { numres := levels + 1, qntsty := q.steps.tag, numgbits := q.guard, steps := q.steps.list ++ List.replicate (97 - q.steps.list.length) (0, 0) }

theorem Steps.tag0 (l : List Nat) : (Steps.none l).tag = 0 := rfl
theorem Steps.tag1 (e m : Nat) : (Steps.derived e m).tag = 1 := rfl
theorem Steps.tag2 (l : List (Nat × Nat)) : (Steps.expounded l).tag = 2 := rfl

theorem Steps.list_len {L : Nat} {s : Steps} (hL : L ≤ 32) (h : s.Valid L) : s.list.length ≤ 97 ∧ (s.tag ≠ 1 → s.list.length = 3 * L + 1) := by
  cases s with
  | none l =>
    have : l.length = 3 * L + 1 := h.1
    unfold Steps.list
    simp only [List.length_map]
    omega
  | derived e m => exact ⟨by show 1 ≤ 97; omega, fun h => absurd rfl h⟩
  | expounded l =>
    have : l.length = 3 * L + 1 := h.1
    unfold Steps.list
    dsimp only
    omega

theorem Quant.tccp_ok {L : Nat} {q : Quant} (h : q.Valid L) : QuantOk (q.tccp L) := by
  obtain ⟨h1, h2, h3⟩ := h
  have hl := Steps.list_len h1 h3
  refine ⟨?_, h2, ?_, ?_⟩
  · show q.steps.tag ≤ 31
    unfold Steps.tag
    split <;> omega
  · show (q.steps.list ++ List.replicate (97 - q.steps.list.length) (0, 0)).length = 97
    rw [List.length_append, List.length_replicate]
    omega
  · intro s hs
    have hs' : s ∈ q.steps.list ++ List.replicate (97 - q.steps.list.length) (0, 0) := hs
    rcases List.mem_append.1 hs' with hs | hs
    · cases hq : q.steps with
      | none l =>
        rw [hq] at hs h3
        obtain ⟨e, he, rfl⟩ := List.mem_map.1 hs
        exact ⟨h3.2 e he, by omega⟩
      | derived e m =>
        rw [hq] at hs h3
        have : s = (e, m) := by simpa [Steps.list] using hs
        rw [this]
        exact h3
      | expounded l =>
        rw [hq] at hs h3
        exact h3.2 s hs
    · rw [(List.mem_replicate.1 hs).2]
      exact ⟨by omega, by omega⟩

theorem Quant.of_tccp {L : Nat} {q : Quant} (h : q.Valid L) : quantOf (q.tccp L) = q := by
  obtain ⟨h1, h2, h3⟩ := h
  have hl := Steps.list_len h1 h3
  unfold quantOf Quant.tccp
  dsimp only
  obtain ⟨g, s⟩ := q
  dsimp only at hl h3 ⊢
  rw [show 3 * (L + 1) - 2 = 3 * L + 1 by omega]
  cases s with
  | none l =>
    rw [Steps.tag0, if_pos rfl, ← hl.2 (by rw [Steps.tag0]; omega), List.take_left']
    · unfold Steps.list
      rw [List.map_map]
      exact congrArg _ (congrArg _ (List.map_id l))
    · rfl
  | derived e m => rfl
  | expounded l =>
    rw [Steps.tag2, if_neg (by omega), if_neg (by omega), ← hl.2 (by rw [Steps.tag2]; omega), List.take_left']
    · rfl
    · rfl

theorem Quant.tccp_step {L : Nat} {q : Quant} (h : q.Valid L) {b : Nat} (hb : b ≤ 3 * L) : stepOf (q.tccp L) b = q.steps.step L b := by
  obtain ⟨h1, h2, h3⟩ := h
  have hl := Steps.list_len h1 h3
  unfold stepOf Quant.tccp
  dsimp only
  obtain ⟨g, s⟩ := q
  dsimp only at hl h3 ⊢
  cases s with
  | none l =>
    rw [Steps.tag0, if_pos rfl, List.getElem?_append_left (by have := hl.2 (by rw [Steps.tag0]; omega); omega)]
    unfold Steps.list Steps.step
    dsimp only
    rw [List.getElem?_map, Option.map_map]
    rfl
  | derived e m =>
    rw [Steps.tag1, if_neg (by omega), if_pos rfl]
    unfold Steps.list Steps.step
    simp [hb]
  | expounded l =>
    rw [Steps.tag2, if_neg (by omega), if_neg (by omega), List.getElem?_append_left (by have := hl.2 (by rw [Steps.tag2]; omega); omega)]
    rfl

/-- `QCC` gives component `i` its quantization and nothing else. -/
theorem readQcc_std {u : User} {d : Dec} {q : Quant} {L i : Nat} {t : Tccp} (tail : List UInt8) (h : Inv u d) (hq : q.Valid L)
    (ht : d.tcp.tccps[i]? = some t) :
    ∃ ss : List (Nat × Nat), readQcc d (qccBodyStd d.comps.length i q ++ tail) (qccBodyStd d.comps.length i q).length = .ok (setComp d i
        { t with qntsty := q.steps.tag, numgbits := q.guard, steps := ss }) ∧ ∀ b ≤ 3 * L, ss[b]? = q.steps.step L b := by
  have hil : i < d.comps.length := by rw [← h.tcp.len]; exact (List.getElem?_eq_some_iff.1 ht).1
  have hti := h.tcp.tccps t (List.mem_of_getElem? ht)
  obtain ⟨hr1, hr2⟩ := room_lt hil h.geom.comps_len.2
  have hok := Quant.tccp_ok hq
  have hnr : 1 ≤ (q.tccp L).numres ∧ (q.tccp L).numres ≤ 33 := ⟨by show 1 ≤ L + 1; omega, by show L + 1 ≤ 33; have := hq.1; omega⟩
  have htag : (q.tccp L).qntsty ≤ 2 := by show q.steps.tag ≤ 2; unfold Steps.tag; split <;> omega
  have hbytes : sqBytes (q.tccp L) = q.bytes := by rw [sqBytes_std hnr htag hok.steps_len, Quant.of_tccp hq]
  have hbl : q.bytes.length = sqcdSize (q.tccp L) := by rw [← hbytes, sqBytes_len hnr hok.steps_len]
  have hlen : (qccBodyStd d.comps.length i q).length = room d.comps.length + sqcdSize (q.tccp L) := by
    unfold qccBodyStd
    rw [List.length_append, compNumber_len, hbl]
  unfold readQcc
  rw [hlen]
  unfold qccBodyStd
  rw [compNumber_eq, List.append_assoc, refuse_bind (by omega), next_be _ hr2 hr1, ok_bind]
  dsimp only
  rw [refuse_bind (by omega)]
  unfold comp
  rw [ht]
  dsimp only
  rw [ok_bind, show room d.comps.length + sqcdSize (q.tccp L) - room d.comps.length = sqcdSize (q.tccp L) by omega]
  obtain ⟨r, e1, e2, e3, e4, e5⟩ := readSQcd_eq (w := q.tccp L) (t := t) tail hok hnr hti.quant.steps_len
  rw [hbytes] at e1
  rw [e1, ok_bind]
  dsimp only
  rw [refuse_bind (by simp)]
  have hk := readSQcd_keeps e1
  refine ⟨r.steps, ?_, fun b hb => (e2.steps b (by show b < 3 * (L + 1) - 2; omega)).trans (Quant.tccp_step hq hb)⟩
  rw [e2.qntsty, e2.numgbits] at hk
  show Except.ok (setComp d i r) = _
  exact congrArg (fun x => Except.ok (setComp d i x)) hk

/-! ## The rest -/

/-- `RGN` gives component `i` its shift and nothing else. -/
theorem readRgn_std {u : User} {d : Dec} {v i : Nat} {t : Tccp} (tail : List UInt8) (h : Inv u d) (hv : v < 256)
    (ht : d.tcp.tccps[i]? = some t) :
    readRgn d (rgnBodyStd d.comps.length i v ++ tail) (rgnBodyStd d.comps.length i v).length = .ok (setComp d i { t with roishift := v }) := by
  have hil : i < d.comps.length := by rw [← h.tcp.len]; exact (List.getElem?_eq_some_iff.1 ht).1
  obtain ⟨hr1, hr2⟩ := room_lt hil h.geom.comps_len.2
  have hlen : (rgnBodyStd d.comps.length i v).length = room d.comps.length + 2 := by
    unfold rgnBodyStd
    rw [List.length_append, List.length_append, compNumber_len, be_len, be_len]
  unfold readRgn
  rw [hlen]
  unfold rgnBodyStd
  rw [compNumber_eq, List.append_assoc, List.append_assoc, refuse_bind (by omega), next_be _ hr2 hr1, ok_bind]
  dsimp only
  rw [next_be _ (by omega) (by omega), ok_bind]
  dsimp only
  rw [refuse_bind (by omega), next_be _ (by omega) (by omega), ok_bind]
  unfold comp
  rw [ht]
  rfl

theorem readPocs_std {n nl : Nat} (hn : n ≤ 16384) (hnl : nl ≤ 65535) : ∀ (l : List Change) (tail : List UInt8), (∀ c ∈ l, c.Valid n nl) →
    readPocs (room n) nl n l.length (l.flatMap (Change.bytes n) ++ tail) = .ok (l.map Change.poc)
  | [], _, _ => rfl
  | c :: l, tail, h => by
    have hc := h c (by simp)
    obtain ⟨c1, c2, c3, c4, c5, c6⟩ := hc
    obtain ⟨hr1, hr2⟩ := room_lt (show c.cs < n by omega) hn
    have hr3 : c.ce < 256 ^ room n := by
      have := c4.2
      unfold room
      by_cases h257 : n < 257
      · rw [if_pos h257] at this
        rw [if_pos (by omega)]
        omega
      · rw [if_neg h257] at this
        rw [if_neg (by omega)]
        omega
    have ih := readPocs_std hn hnl l tail (fun c hc => h c (by simp [hc]))
    rw [List.length_cons, List.flatMap_cons]
    obtain ⟨X, hX⟩ : ∃ X, X = l.flatMap (Change.bytes n) := ⟨_, rfl⟩
    rw [← hX] at ih ⊢
    unfold readPocs Change.bytes
    rw [compNumber_eq, compNumber_eq]
    simp only [List.append_assoc]
    rw [next_be _ (by omega) (by omega), ok_bind]
    dsimp only
    rw [next_be _ hr2 hr1, ok_bind]
    dsimp only
    rw [next_be _ (by omega) (by omega), ok_bind]
    dsimp only
    rw [next_be _ (by omega) (by omega), ok_bind]
    dsimp only
    rw [next_be _ hr2 hr3, ok_bind]
    dsimp only
    rw [next_be _ (by omega) (by omega), ok_bind]
    dsimp only
    rw [ih, ok_bind, Nat.min_eq_left c5.2, Nat.min_eq_left c4.1]
    rfl

/-- `POC` appends its changes. -/
theorem readPoc_std {u : User} {d : Dec} {l : List Change} (tail : List UInt8) (h : Inv u d) (hl : l ≠ [])
    (h32 : d.tcp.pocs.length + l.length < 32) (hv : ∀ c ∈ l, c.Valid d.comps.length d.tcp.numlayers) :
    readPoc d (l.flatMap (Change.bytes d.comps.length) ++ tail) (l.flatMap (Change.bytes d.comps.length)).length =
      .ok { d with tcp := { d.tcp with pocs := d.tcp.pocs ++ l.map Change.poc } } := by
  have hlen : (l.flatMap (Change.bytes d.comps.length)).length = (5 + 2 * room d.comps.length) * l.length := by
    clear hv h32 hl
    induction l with
    | nil => rfl
    | cons c l ih =>
      rw [List.flatMap_cons, List.length_append, ih, List.length_cons, Nat.mul_succ]
      unfold Change.bytes
      simp only [List.length_append, be_len, compNumber_len]
      omega
  have hpos : 0 < l.length := List.length_pos_iff.2 hl
  unfold readPoc
  dsimp only
  rw [hlen, Nat.mul_mod_right, Nat.mul_div_cancel_left _ (by omega), refuse_bind (by omega), refuse_bind (by omega),
    readPocs_std h.geom.comps_len.2 h.tcp.layers l tail hv, ok_bind]
  rfl

theorem readDepths_std : ∀ (cs : List Comp) (l : List (Bool × Nat)) (tail : List UInt8), l.length = cs.length →
    (∀ x ∈ l, 1 ≤ x.2 ∧ x.2 ≤ 31) →
    readDepths cs ((l.flatMap fun x => be 1 ((if x.1 then 128 else 0) + (x.2 - 1))) ++ tail) = .ok (withDepths cs l)
  | [], [], _, _, _ => rfl
  | [], _ :: _, _, h, _ => by simp at h
  | _ :: _, [], _, h, _ => by simp at h
  | c :: cs, x :: l, tail, h, hv => by
    have hx := hv x (by simp)
    have hb : (if x.1 then 128 else 0) + (x.2 - 1) < 256 := by split <;> omega
    rw [List.flatMap_cons, List.append_assoc]
    unfold readDepths
    rw [next_be _ (by omega) (by omega), ok_bind]
    dsimp only
    have e1 : ((if x.1 then 128 else 0) + (x.2 - 1)) % 128 = x.2 - 1 := by split <;> omega
    have e2 : ((if x.1 then 128 else 0) + (x.2 - 1)) / 128 % 2 = if x.1 then 1 else 0 := by split <;> omega
    rw [e1, e2, refuse_bind (by omega), readDepths_std cs l tail (by simpa using h) (fun y hy => hv y (by simp [hy])), ok_bind]
    unfold withDepths
    rw [List.zipWith_cons_cons, show x.2 - 1 + 1 = x.2 by omega]
    rfl

/-- `CBD` sets the precision and signedness of every component. -/
theorem readCbd_std {u : User} {d : Dec} {l : List (Bool × Nat)} (tail : List UInt8) (h : Inv u d) (hl : l.length = d.comps.length)
    (hv : ∀ x ∈ l, 1 ≤ x.2 ∧ x.2 ≤ 31) :
    readCbd d (cbdBody l ++ tail) (cbdBody l).length = .ok { d with comps := withDepths d.comps l } := by
  have := h.geom.comps_len.2
  unfold readCbd cbdBody
  rw [List.length_append, be_len, flatMap_be_len, List.append_assoc, refuse_bind (by omega), next_be _ (by omega) (by omega), ok_bind]
  dsimp only
  rw [refuse_bind (by omega), readDepths_std _ _ _ hl hv, ok_bind]
  rfl

/-- `header_append` in terms of streams. -/
theorem stream_append {u : User} (hu : u.reduce < 64) {segs : List (Nat × List UInt8)} {m : Nat} {body rest : List UInt8}
    (hsegs : Known segs) (hm : m = 0xFF53 ∨ m = 0xFF5D ∨ m = 0xFF5E ∨ m = 0xFF5F ∨ m = 0xFF78 ∨ m = 0xFF64 ∨ m = 0xFF55 ∨ m = 0xFF57 ∨ m = 0xFF63)
    (hbl : body.length + 2 < 65536) {d : Dec} {rest' : List UInt8} (h : readHeader u (stream segs rest) = .ok (d, rest'))
    {Q : Tcp → List Comp → Prop}
    (hh : ∀ (dh : Dec) (tail : List UInt8), Inv u dh → dh.tcp = d.tcp → dh.comps = d.comps →
      ∃ tcp comps, handle u m dh (body ++ tail) body.length = .ok { dh with tcp := tcp, comps := comps } ∧ Q tcp comps) :
    ∃ tcp comps b, readHeader u (stream (segs ++ [(m, body)]) rest) = .ok ({ d with tcp := tcp, comps := comps, buf := b }, rest) ∧
      Q tcp comps := by
  unfold stream at h ⊢
  rw [List.flatMap_append, List.flatMap_cons, List.flatMap_nil, List.append_nil, List.append_assoc]
  have hm' : m < 65536 ∧ 0xFF00 ≤ m ∧ known m = true ∧ m ≠ 0xFF90 ∧ allowed true m = true ∧ m ≠ 0xFF51 ∧ m ≠ 0xFF52 ∧ m ≠ 0xFF5C := by
    rcases hm with rfl | rfl | rfl | rfl | rfl | rfl | rfl | rfl | rfl <;> decide
  obtain ⟨a1, a2, a3, a4, a5, a6, a7, a8⟩ := hm'
  exact header_append hu hsegs a1 a2 a3 a4 a5 a6 a7 a8 hbl h hh

end Jp2.Hdr

import Verif.Jp2.TpWriteFile
/-!
# Writing tile-parts is safe
-/
namespace Jp2.Tp
open Jp2.Hdr (R be bind_ok be_len refuseIf Enc Writable SharedStyle Post)

theorem moreGroups_ok {k j n : Nat} (hj : j ≤ k) (h : n < 128 ^ j) : ∃ l, moreGroups k n = .ok l ∧ l.length ≤ j := by
  induction k generalizing j n with
  | zero =>
    obtain rfl : j = 0 := by omega
    obtain rfl : n = 0 := by simpa using h
    exact ⟨[], rfl, by simp⟩
  | succ k ih =>
    cases n with
    | zero => exact ⟨[], rfl, by simp⟩
    | succ n =>
      cases j with
      | zero => simp at h
      | succ j =>
        obtain ⟨l, h1, h2⟩ := ih (j := j) (n := (n + 1) / 128) (by omega) (by
          rw [Nat.pow_succ] at h
          exact Nat.div_lt_of_lt_mul (by omega))
        refine ⟨UInt8.ofNat ((n + 1) % 128 + 128) :: l, ?_, by simp only [List.length_cons]; omega⟩
        unfold moreGroups
        rw [h1]
        rfl

/-- The bytes a packet size takes, at most. -/
def width (s : Nat) : Nat := if s < 2 ^ 28 then 4 else 5

theorem groups_ok {s : Nat} (h : s < 2 ^ 32) : ∃ v, groups s = .ok v ∧ v.length ≤ width s := by
  unfold groups width
  by_cases h28 : s < 2 ^ 28
  · obtain ⟨l, h1, h2⟩ := moreGroups_ok (k := 4) (j := 3) (n := s / 128) (by omega) (by norm_num; omega)
    rw [h1, if_pos h28]
    exact ⟨_, rfl, by simp only [List.length_cons]; omega⟩
  · obtain ⟨l, h1, h2⟩ := moreGroups_ok (k := 4) (j := 4) (n := s / 128) (by omega) (by norm_num; omega)
    rw [h1, if_neg h28]
    exact ⟨_, rfl, by simp only [List.length_cons]; omega⟩

theorem packLoop_post (ss : List Nat) : ∀ (z l : Nat) (done body : List UInt8), (∀ s ∈ ss, s < 2 ^ 32) → l = 3 + body.length →
    Post (packLoop ss z l done body) fun m => m.length ≤ done.length + 5 + body.length + (ss.map width).sum +
      5 * ((body.length + (ss.map width).sum) / 65528) := by
  induction ss with
  | nil =>
    intro z l done body _ hl
    refine Post.ok ?_
    unfold pltSegment
    simp only [List.length_append, be_len, List.map_nil, List.sum_nil]
    omega
  | cons s ss ih =>
    intro z l done body hs hl
    obtain ⟨v, h1, h2⟩ := groups_ok (hs s (by simp))
    have h5 : width s ≤ 5 := by unfold width; split <;> omega
    unfold packLoop
    rw [h1, Hdr.ok_bind, List.map_cons, List.sum_cons]
    split
    · rename_i hc
      unfold refuseIf
      split
      · exact Post.refused
      · rw [Hdr.ok_bind]
        refine (ih _ _ _ _ (fun x hx => hs x (by simp [hx])) (by simp)).mono fun m hm => ?_
        unfold pltSegment at hm
        simp only [List.length_append, be_len, List.length_reverse] at hm
        omega
    · refine (ih _ _ _ _ (fun x hx => hs x (by simp [hx])) (by simp; omega)).mono fun m hm => ?_
      simp only [List.length_append, List.length_reverse] at hm
      omega

theorem width_sum (ss : List Nat) : (ss.map width).sum ≤ 5 * ss.length ∧ (ss.map width).sum ≤ 4 * ss.length + ss.sum / 2 ^ 28 := by
  induction ss with
  | nil => simp
  | cons s ss ih =>
    simp only [List.map_cons, List.sum_cons, List.length_cons]
    have : width s ≤ 5 ∧ width s ≤ 4 + s / 2 ^ 28 := by unfold width; split <;> omega
    omega

theorem mem_lt_sum {ss : List Nat} (h : ss.sum < 2 ^ 32) : ∀ s ∈ ss, s < 2 ^ 32 := fun s hs => by
  have := le_sum hs
  omega

theorem writePlt_post {ss : List Nat} {n : Nat} (hn : 1 ≤ n) (hl : ss.length ≤ n) (h : ss.sum < 2 ^ 32) :
    Post (writePlt ss) fun m => m.length ≤ 6 * ((n + 16381) / 16382) + 5 * n := by
  unfold writePlt
  refine (packLoop_post ss 0 3 [] [] (mem_lt_sum h) rfl).mono fun m hm => ?_
  have := width_sum ss
  simp only [List.length_nil, Nat.zero_add] at hm
  obtain ⟨d, hd⟩ : ∃ d, d = (ss.map width).sum := ⟨_, rfl⟩
  rw [← hd] at hm this
  have hg : ss.sum / 2 ^ 28 ≤ 15 := by omega
  by_cases h0 : d < 65528
  · rw [Nat.div_eq_of_lt h0] at hm
    omega
  · have h2 : 16382 * ((n + 16381) / 16382) ≥ n := by omega
    obtain ⟨i, hi⟩ : ∃ i, i = (n + 16381) / 16382 := ⟨_, rfl⟩
    obtain ⟨e, he⟩ : ∃ e, e = d / 65528 := ⟨_, rfl⟩
    have h3 : 65528 * e ≤ d := by omega
    rw [← hi] at h2 ⊢
    rw [← he] at hm
    omega

theorem pltPart_post {ss : List Nat} {n : Nat} {plt : Option Nat} (hn : 1 ≤ n) (hl : ss.length ≤ n) (h : ss.sum < 2 ^ 32)
    (hr : ∀ r, plt = some r → 6 * ((n + 16381) / 16382) + 5 * n ≤ r) : Post (pltPart plt ss) fun _ => True := by
  unfold pltPart
  cases plt with
  | none => exact Post.ok trivial
  | some r =>
    refine (writePlt_post hn hl h).bind fun m hm => ?_
    have := hr r rfl
    rw [if_neg (by omega)]
    exact Post.pure trivial

/-- A tile coder that does not panic, stays within its room, and gives no more packets than bytes have been set aside for. -/
structure CoderOk (c : Cfg) (code : Coder) : Prop where
  safe : ∀ tile pino tp cur room x, code tile pino tp cur room = .error x → x = .refused
  room : ∀ tile pino tp cur room o, code tile pino tp cur room = .ok o → o.data.length ≤ room
  packets : ∀ tile pino tp cur room o, code tile pino tp cur room = .ok o → ∀ r, c.plt = some r →
    o.packets.sum < 2 ^ 32 ∧ ∃ n, 1 ≤ n ∧ o.packets.length ≤ n ∧ 6 * ((n + 16381) / 16382) + 5 * n ≤ r

theorem CoderOk.post {c : Cfg} {code : Coder} (h : CoderOk c code) (tile pino tp cur room : Nat) :
    Post (code tile pino tp cur room) fun o => o.data.length ≤ room ∧ Post (pltPart c.plt o.packets) fun _ => True := by
  unfold Post
  have h1 := h.safe tile pino tp cur room
  have h2 := h.room tile pino tp cur room
  have h3 := h.packets tile pino tp cur room
  cases hc : code tile pino tp cur room with
  | error x => exact h1 x hc
  | ok o =>
    refine ⟨h2 o hc, ?_⟩
    cases hp : c.plt with
    | none => exact trivial
    | some r =>
      obtain ⟨a, n, b1, b2, b3⟩ := h3 o hc r hp
      exact pltPart_post b1 b2 a (fun r' hr' => by cases hr'; exact b3)

theorem writePart_post {c : Cfg} {code : Coder} (h : CoderOk c code) (total tile nb pino tp : Nat) (poc : List UInt8) (s : WState)
    (hp : poc.length ≤ s.avail - 12) : Post (writePart c code total tile nb pino tp poc s) fun _ => True := by
  unfold writePart writeSot
  unfold refuseIf
  split
  · exact Post.refused
  rw [Hdr.ok_bind, Hdr.pure_bind', if_neg (by omega)]
  unfold writeSod
  unfold refuseIf
  split
  · exact Post.refused
  rw [Hdr.ok_bind]
  split
  · exact Post.refused
  rw [Hdr.ok_bind]
  refine Post.bind (P := fun _ => True) ?_ fun _ _ => Post.pure trivial
  refine (h.post _ _ _ _ _).bind fun o ho => ?_
  rw [if_neg (by omega)]
  exact ho.2.bind fun _ _ => Post.pure trivial

theorem writeRun_post {c : Cfg} {code : Coder} (h : CoderOk c code) (total tile nb pino n : Nat) : ∀ (tp : Nat) (s : WState),
    Post (writeRun c code total tile nb pino n tp s) fun _ => True := by
  induction n with
  | zero => exact fun tp s => Post.ok trivial
  | succ n ih => exact fun tp s => (writePart_post h total tile nb pino tp [] s (by simp)).bind fun s _ => ih _ s

theorem writeRuns_post {c : Cfg} {code : Coder} (h : CoderOk c code) (total tile nb : Nat) (l : List Nat) : ∀ (pino : Nat) (s : WState),
    Post (writeRuns c code total tile nb l pino s) fun _ => True := by
  induction l with
  | nil => exact fun pino s => Post.ok trivial
  | cons n l ih => exact fun pino s => (writeRun_post h total tile nb pino n 0 s).bind fun s _ => ih _ s

theorem writeTile_post {c : Cfg} {e : Enc} {code : Coder} (h : CoderOk c code) (hs : 304 ≤ c.size) {t : WTile}
    {l : List Hdr.Change} {ns : List Nat} (ht : WTileOk c e t l ns) (h1 : numres0 e < 2 ^ 31) (h2 : e.comps.length < 2 ^ 31)
    (h3 : e.numlayers < 2 ^ 31) (total tile : Nat) (tlm : List UInt8) : Post (writeTile c e code total tile t tlm) fun _ => True := by
  unfold writeTile tileTotal
  rw [ht.counts, Hdr.ok_bind, Hdr.pure_bind']
  refine (writePart_post h total tile _ 0 0 _ _ ?_).bind fun s _ => ?_
  · have hl : t.par.pocs.length ≤ 32 := by rw [ht.pocs, List.length_map]; exact ht.many
    have hb : ∀ m : List Pi.Poc, (m.flatMap (writeChange e.comps.length)).length ≤ 9 * m.length := by
      intro m
      induction m with
      | nil => simp
      | cons y m ih =>
        rw [List.flatMap_cons, List.length_append, List.length_cons]
        have : (writeChange e.comps.length y).length ≤ 9 := by
          unfold writeChange Hdr.room
          simp only [List.length_append, be_len]
          split <;> omega
        omega
    have := hb t.par.pocs
    dsimp only
    split
    · unfold writePoc
      simp only [List.length_append, be_len]
      omega
    · simp
  · rw [clamped_eq ht h1 h2 h3, ht.counts, Hdr.ok_bind]
    obtain ⟨n, hn, _⟩ := ht.first
    cases ns with
    | nil => cases hn
    | cons n ns =>
      exact (writeRun_post h total tile _ 0 _ _ s).bind fun s _ => (writeRuns_post h total tile _ ns _ s).bind fun s _ => Post.pure trivial

theorem writeTiles_post {c : Cfg} {e : Enc} {code : Coder} (h : CoderOk c code) (hs : 304 ≤ c.size) (h1 : numres0 e < 2 ^ 31)
    (h2 : e.comps.length < 2 ^ 31) (h3 : e.numlayers < 2 ^ 31) {ts : List WTile} {xs : List (List Hdr.Change × List Nat)}
    (ht : List.Forall₂ (fun t x => WTileOk c e t x.1 x.2) ts xs) (total : Nat) : ∀ (i : Nat) (tlm : List UInt8),
    Post (writeTiles c e code total ts i tlm) fun _ => True := by
  induction ht with
  | nil => exact fun i tlm => Post.ok trivial
  | cons hp _ ih =>
    intro i tlm
    unfold writeTiles
    exact (writeTile_post h hs hp h1 h2 h3 total i tlm).bind fun x _ => (ih _ _).bind fun _ _ => Post.pure trivial

theorem cocs_tlm (e : Enc) (o p : Option Nat) (junk : List UInt8) : ∀ (l : List Hdr.Tccp) (i : Nat),
    Hdr.writeCocs { e with tlm := o } junk i l = Hdr.writeCocs { e with tlm := p } junk i l
  | [], _ => rfl
  | t :: l, i => by
    unfold Hdr.writeCocs
    rw [cocs_tlm e o p junk l (i + 1)]
    rfl

theorem qccs_tlm (e : Enc) (o p : Option Nat) : ∀ (l : List Hdr.Tccp) (i : Nat),
    Hdr.writeQccs { e with tlm := o } i l = Hdr.writeQccs { e with tlm := p } i l
  | [], _ => rfl
  | t :: l, i => by
    unfold Hdr.writeQccs
    rw [qccs_tlm e o p l (i + 1)]
    rfl

theorem writeHeader_post {e : Enc} (junk : List UInt8) (hw : Writable e) (hsh : SharedStyle e) (hq : ∀ t ∈ e.tccps, t.qntsty ≤ 2)
    (o : Option Nat) : Post (Hdr.writeHeader { e with tlm := o } junk) fun _ => True := by
  have h := Hdr.C52_header_is_standard { e with tlm := none } junk (writable_tlm hw (by simp) (fun _ => rfl)) hsh hq
  unfold Hdr.writeHeader at h ⊢
  obtain ⟨cod, a1, h⟩ := bind_ok h
  obtain ⟨qcd, a2, h⟩ := bind_ok h
  obtain ⟨cocs, a3, h⟩ := bind_ok h
  obtain ⟨qccs, a4, h⟩ := bind_ok h
  have b1 : Hdr.writeCod { e with tlm := o } = .ok cod := a1
  have b2 : Hdr.writeQcd { e with tlm := o } = .ok qcd := a2
  have b3 : Hdr.writeCocs { e with tlm := o } junk 1 e.tccps.tail = .ok cocs := by rw [← a3]; exact cocs_tlm ..
  have b4 : Hdr.writeQccs { e with tlm := o } 1 e.tccps.tail = .ok qccs := by rw [← a4]; exact qccs_tlm ..
  rw [b1, Hdr.ok_bind, b2, Hdr.ok_bind, b3, Hdr.ok_bind, b4, Hdr.ok_bind]
  refine Post.bind (P := fun _ => True) ?_ fun _ _ => Post.pure trivial
  cases o with
  | none => exact Post.ok trivial
  | some n =>
    unfold Hdr.writeTlmIf Hdr.writeTlm refuseIf
    dsimp only
    split
    · exact Post.refused
    · exact Post.ok trivial

theorem writeFile_post {c : Cfg} {e : Enc} {code : Coder} {ts : List WTile} {xs : List (List Hdr.Change × List Nat)}
    (junk old : List UInt8) (hw : Writable e) (hsh : SharedStyle e) (hq : ∀ t ∈ e.tccps, t.qntsty ≤ 2)
    (hn : ts.length ≤ 65535) (h : List.Forall₂ (fun t x => WTileOk c e t x.1 x.2) ts xs) (hc : CoderOk c code) (hs : 304 ≤ c.size) :
    Post (writeFile c e code ts junk old) fun _ => True := by
  have h1 : numres0 e < 2 ^ 31 := by have := numres0_le hw; omega
  have h2 : e.comps.length < 2 ^ 31 := by have := hw.comps_len.2; omega
  have h3 : e.numlayers < 2 ^ 31 := by have := hw.layers.2; omega
  unfold writeFile
  obtain ⟨htot, hmax⟩ := allTotal_is h hn
  rw [htot, Hdr.ok_bind]
  refine (writeHeader_post junk hw hsh hq _).bind fun hd _ => ?_
  have hp := writeTiles_post hc hs h1 h2 h3 h (xs.map fun x => x.2.sum).sum 0 []
  cases hb : writeTiles c e code (xs.map fun x => x.2.sum).sum ts 0 [] with
  | error x => rw [hb] at hp; exact hp
  | ok r =>
    obtain ⟨b, tlm⟩ := r
    rw [Hdr.ok_bind]
    dsimp only
    split
    · rename_i hct
      obtain ⟨ps, p1, p2, p3, p4⟩ := writeTiles_is h1 h2 h3 h hb
      rw [List.nil_append, if_pos hct] at p4
      have hl := (tlm_body (ps := ps) (total := (xs.map fun x => x.2.sum).sum) p1.shape.total.symm).1
      rw [← p4] at hl
      unfold updateTlm
      rw [if_neg (by rw [hl]; split <;> omega), tlmStart_is junk hw hsh hq, Hdr.ok_bind]
      exact Post.pure trivial
    · exact Post.pure trivial

end Jp2.Tp

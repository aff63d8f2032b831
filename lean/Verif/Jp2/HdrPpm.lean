import Verif.Jp2.HdrSafe3
/-!
# Packed packet headers: helper lemmas
-/
namespace Jp2.Hdr

theorem ppmSizes_post : ∀ (fuel : Nat) (data : List UInt8) (t : Nat), data.length < fuel →
    Post (ppmSizes fuel data t) (fun r => t ≤ r.1)
  | 0, _, _, h => by omega
  | fuel + 1, data, t, h => by
    unfold ppmSizes
    refine Post.bind (refuseIf_post _) fun _ h1 => ?_
    refine Post.bind (next_post (by omega) (by omega)) fun ⟨n, data'⟩ ⟨hn, hd⟩ => ?_
    dsimp only at hn hd ⊢
    refine Post.bind (refuseIf_post _) fun _ h2 => ?_
    refine Post.ite (fun h3 => ?_) fun h3 => ?_
    · refine Post.ite (fun h4 => ?_) fun h4 => ?_
      · exact Post.pure (by dsimp only; omega)
      · refine Post.mono (ppmSizes_post fuel _ _ (by rw [List.length_drop]; omega)) fun r hr => by omega
    · exact Post.pure (by dsimp only; omega)

theorem ppmPass1_post : ∀ (ms : List (Option (List UInt8))) (t rem : Nat), Post (ppmPass1 ms t rem) (fun r => t ≤ r.1)
  | [], t, rem => by unfold ppmPass1; exact Post.ok (Nat.le_refl t)
  | none :: ms, t, rem => by unfold ppmPass1; exact ppmPass1_post ms t rem
  | some data :: ms, t, rem => by
    unfold ppmPass1
    refine Post.ite (fun h1 => ?_) fun h1 => ?_
    · exact ppmPass1_post ms t _
    · refine Post.bind (ppmSizes_post _ _ t (by omega)) fun ⟨t', rem'⟩ ht => ?_
      dsimp only at ht ⊢
      exact Post.mono (ppmPass1_post ms t' rem') fun r hr => by omega

/-- What has been copied of the bytes `data`: whole series, and a last one of which `rem` bytes are missing. -/
def Open (data out : List UInt8) (rem : Nat) : Prop :=
  ∃ L : List (List UInt8), (∀ x ∈ L, x.length < 2 ^ 32) ∧
    ((rem = 0 ∧ data = L.flatMap series ∧ out = L.flatten) ∨
      ∃ part, part.length + rem < 2 ^ 32 ∧ data = L.flatMap series ++ Cio.toBe 4 (part.length + rem) ++ part ∧
        out = L.flatten ++ part)

theorem Open.close {data out : List UInt8} (h : Open data out 0) :
    ∃ L : List (List UInt8), (∀ x ∈ L, x.length < 2 ^ 32) ∧ data = L.flatMap series ∧ out = L.flatten := by
  obtain ⟨L, hL, ⟨_, hd, ho⟩ | ⟨part, hp, hd, ho⟩⟩ := h
  · exact ⟨L, hL, hd, ho⟩
  · refine ⟨L ++ [part], ?_, ?_, ?_⟩
    · intro x hx
      rcases List.mem_append.1 hx with e | e
      · exact hL x e
      · simp at e; subst e; omega
    · simpa [series] using hd
    · simpa using ho

theorem Open.more {data out src : List UInt8} {rem : Nat} (h : Open data out rem) (hs : src.length ≤ rem) :
    Open (data ++ src) (out ++ src) (rem - src.length) := by
  obtain ⟨L, hL, ⟨h0, hd, ho⟩ | ⟨part, hp, hd, ho⟩⟩ := h
  · have : src = [] := List.eq_nil_of_length_eq_zero (by omega)
    subst this
    exact ⟨L, hL, Or.inl ⟨by omega, by simpa using hd, by simpa using ho⟩⟩
  · refine ⟨L, hL, Or.inr ⟨part ++ src, ?_, ?_, ?_⟩⟩
    · simp; omega
    · rw [hd]
      have : (part ++ src).length + (rem - src.length) = part.length + rem := by simp; omega
      rw [this]; simp
    · rw [ho]; simp

theorem Open.start {data out head part : List UInt8} {rem : Nat} (h : Open data out 0) (hh : head.length = 4)
    (hn : Cio.fromBe head = part.length + rem) : Open (data ++ head ++ part) (out ++ part) rem := by
  obtain ⟨L, hL, hd, ho⟩ := h.close
  refine ⟨L, hL, Or.inr ⟨part, ?_, ?_, ?_⟩⟩
  · have := Cio.fromBe_lt head
    rw [hh] at this
    omega
  · rw [← hn, hd]
    have := Cio.toBe_fromBe head
    rw [hh] at this
    rw [this]
  · rw [ho]

theorem ppmCopy_of : ∀ (fuel : Nat) (data out : List UInt8) (t T rem cap : Nat),
    ppmSizes fuel data t = .ok (T, rem) → out.length = t → T ≤ cap →
    ∃ out', ppmCopy cap fuel data out = .ok (out', rem) ∧ out'.length + rem = T ∧
      ∀ pre, Open pre out 0 → Open (pre ++ data) out' rem
  | 0, data, out, t, T, rem, cap, h, _, _ => by simp [ppmSizes] at h
  | fuel + 1, data, out, t, T, rem, cap, h, ho, hc => by
    unfold ppmSizes at h
    unfold ppmCopy
    by_cases h1 : data.length < 4
    · simp [refuseIf, h1, bind, Except.bind] at h
    rw [next_eq (by omega) (by omega)] at h ⊢
    have hlen : (data.drop 4).length = data.length - 4 := by simp
    obtain ⟨n, hn⟩ : ∃ n, n = Cio.fromBe (data.take 4) := ⟨_, rfl⟩
    have hhead : (data.take 4).length = 4 := by simp; omega
    have hsplit : data.take 4 ++ data.drop 4 = data := List.take_append_drop 4 data
    simp only [refuseIf, if_neg h1, ← hn, bind, Except.bind] at h ⊢
    by_cases h2 : 2 ^ 32 - 1 - n < t
    · rw [if_pos h2] at h; cases h
    rw [if_neg h2] at h
    dsimp only at h ⊢
    generalize data.drop 4 = rest at h hlen hsplit ⊢
    generalize data.take 4 = head at hn hhead hsplit
    by_cases h3 : n ≤ rest.length
    · rw [if_pos h3] at h ⊢
      rw [show bytesAt n rest = .ok (rest.take n) from by unfold bytesAt; rw [if_pos h3]]
      have hmono : t + n ≤ T := by
        by_cases h4 : rest.length - n = 0
        · rw [if_pos h4] at h
          injection h with h; injection h with h _; omega
        · rw [if_neg h4] at h
          have key : ∀ (f : Nat) (d : List UInt8) (t0 : Nat) (r : Nat × Nat), ppmSizes f d t0 = .ok r → t0 ≤ r.1 := by
            intro f
            induction f with
            | zero => intro d t0 r hr; simp [ppmSizes] at hr
            | succ f ih =>
              intro d t0 r hr
              unfold ppmSizes at hr
              by_cases g1 : d.length < 4
              · simp [refuseIf, g1, bind, Except.bind] at hr
              rw [next_eq (by omega) (by omega)] at hr
              simp only [refuseIf, if_neg g1, bind, Except.bind] at hr
              split at hr
              · cases hr
              · split at hr
                · split at hr
                  · injection hr with hr; subst hr; dsimp only; omega
                  · have := ih _ _ _ hr; omega
                · injection hr with hr; subst hr; dsimp only; omega
          exact key _ _ _ _ h
      have hcp : copyOut cap out (rest.take n) = .ok (out ++ rest.take n) := by
        unfold copyOut; rw [if_pos (by simp; omega)]
      dsimp only
      rw [hcp]
      have htl : (rest.take n).length = n := by simp; omega
      by_cases h4 : rest.length - n = 0
      · rw [if_pos h4] at h
        injection h with h; injection h with hT hr
        subst hT hr
        dsimp only
        rw [if_pos h4]
        refine ⟨_, rfl, by simp; omega, ?_⟩
        intro pre hpre
        have := hpre.start (part := rest.take n) hhead (by rw [← hn, htl]; omega : Cio.fromBe head = (rest.take n).length + 0)
        rw [← hsplit, ← List.append_assoc]
        rw [List.take_of_length_le (by omega)] at this ⊢
        exact this
      · rw [if_neg h4] at h
        dsimp only
        rw [if_neg h4]
        obtain ⟨out', e1, e2, e3⟩ := ppmCopy_of fuel (rest.drop n) (out ++ rest.take n) (t + n) T rem cap h (by simp; omega) hc
        refine ⟨out', e1, e2, ?_⟩
        intro pre hpre
        have := e3 _ (hpre.start (part := rest.take n) hhead (by rw [← hn, htl]; omega : Cio.fromBe head = (rest.take n).length + 0))
        rw [← hsplit]
        have e : pre ++ (head ++ rest) = pre ++ head ++ rest.take n ++ rest.drop n := by
          simp
        rw [e]; exact this
    · rw [if_neg h3] at h ⊢
      injection h with h; injection h with hT hr
      subst hT hr
      have hcp : copyOut cap out rest = .ok (out ++ rest) := by
        unfold copyOut; rw [if_pos (by omega)]
      rw [hcp]
      refine ⟨_, rfl, by simp; omega, ?_⟩
      intro pre hpre
      have := hpre.start (part := rest) (rem := n - rest.length) hhead (by omega)
      rw [← hsplit, ← List.append_assoc]
      exact this

theorem ppmPass2_of : ∀ (ms : List (Option (List UInt8))) (out : List UInt8) (t rem T R cap : Nat),
    ppmPass1 ms t rem = .ok (T, R) → out.length + rem = t → T ≤ cap →
    ∃ out', ppmPass2 cap ms out rem = .ok out' ∧ out'.length + R = T ∧
      ∀ pre, Open pre out rem → Open (pre ++ (ms.filterMap id).flatten) out' R
  | [], out, t, rem, T, R, cap, h, ho, hc => by
    unfold ppmPass1 at h
    injection h with h; injection h with hT hr
    subst hT hr
    exact ⟨out, rfl, ho, by intro pre hp; simpa using hp⟩
  | none :: ms, out, t, rem, T, R, cap, h, ho, hc => by
    unfold ppmPass1 at h
    unfold ppmPass2
    simpa using ppmPass2_of ms out t rem T R cap h ho hc
  | some data :: ms, out, t, rem, T, R, cap, h, ho, hc => by
    have hmono : t ≤ T := by
      have := ppmPass1_post (some data :: ms) t rem
      rw [h] at this; exact this
    unfold ppmPass1 at h
    unfold ppmPass2
    by_cases h1 : data.length ≤ rem
    · rw [if_pos h1] at h ⊢
      have hcp : copyOut cap out data = .ok (out ++ data) := by
        unfold copyOut; rw [if_pos (by omega)]
      rw [hcp]
      obtain ⟨out', e1, e2, e3⟩ := ppmPass2_of ms (out ++ data) t (rem - data.length) T R cap h (by simp; omega) hc
      refine ⟨out', e1, e2, ?_⟩
      intro pre hp
      have := e3 _ (hp.more h1)
      simpa using this
    · rw [if_neg h1] at h ⊢
      rw [show bytesAt rem data = .ok (data.take rem) from by unfold bytesAt; rw [if_pos (by omega)]]
      have hcp : copyOut cap out (data.take rem) = .ok (out ++ data.take rem) := by
        unfold copyOut; rw [if_pos (by simp; omega)]
      have htl : (data.take rem).length = rem := by simp; omega
      cases hs : ppmSizes ((data.drop rem).length + 1) (data.drop rem) t with
      | error e => rw [hs] at h; cases h
      | ok r =>
        obtain ⟨t', rem'⟩ := r
        rw [hs] at h
        have h : ppmPass1 ms t' rem' = .ok (T, R) := h
        have hm2 : t' ≤ T := by
          have := ppmPass1_post ms t' rem'
          rw [h] at this; exact this
        obtain ⟨o1, f1, f2, f3⟩ := ppmCopy_of _ _ (out ++ data.take rem) t t' rem' cap hs (by simp; omega) (by omega)
        obtain ⟨out', e1, e2, e3⟩ := ppmPass2_of ms o1 t' rem' T R cap h f2 hc
        show ∃ out', (copyOut cap out (data.take rem) >>= fun out => ppmCopy cap ((data.drop rem).length + 1) (data.drop rem) out >>= fun r => ppmPass2 cap ms r.1 r.2) = Except.ok out' ∧ _
        rw [hcp]
        show ∃ out', (ppmCopy cap ((data.drop rem).length + 1) (data.drop rem) (out ++ data.take rem) >>= fun r => ppmPass2 cap ms r.1 r.2) = Except.ok out' ∧ _
        rw [f1]
        refine ⟨out', e1, e2, ?_⟩
        intro pre hp
        have g1 := hp.more (src := data.take rem) (by omega)
        rw [htl, Nat.sub_self] at g1
        have := e3 _ (f3 _ g1)
        have e : pre ++ (List.filterMap id (some data :: ms)).flatten =
            pre ++ data.take rem ++ data.drop rem ++ (ms.filterMap id).flatten := by
          simp
        rw [e]; exact this

/-- `mergePpm` never leaves its buffers, and what it makes of the segments. -/
theorem mergePpm_post (d : Dec) :
    Post (mergePpm d) (fun d' => (d.ppm = false ∧ d' = d) ∨ ∃ out, d' = { d with ppms := [], ppmData := out } ∧
      ∃ L : List (List UInt8), (∀ x ∈ L, x.length < 2 ^ 32) ∧ (d.ppms.filterMap id).flatten = L.flatMap series ∧
        out = L.flatten) := by
  unfold mergePpm
  refine Post.ite (fun h => Post.pure (Or.inl ⟨h, rfl⟩)) fun h => ?_
  cases h1 : ppmPass1 d.ppms 0 0 with
  | error e =>
    have := ppmPass1_post d.ppms 0 0
    rw [h1] at this
    exact this
  | ok r =>
    obtain ⟨T, R⟩ := r
    show Post (refuseIf _ >>= _) _
    refine Post.bind (refuseIf_post _) fun _ h2 => ?_
    have h2 : R = 0 := by omega
    subst h2
    refine Post.bind (refuseIf_post _) fun _ h3 => ?_
    obtain ⟨out, e1, _, e3⟩ := ppmPass2_of d.ppms [] 0 0 T 0 T h1 rfl (Nat.le_refl _)
    show Post (ppmPass2 T d.ppms [] 0 >>= _) _
    rw [e1]
    refine Post.pure (Or.inr ⟨out, rfl, ?_⟩)
    have : Open [] [] 0 := ⟨[], by simp, Or.inl ⟨rfl, rfl, rfl⟩⟩
    have := (e3 _ this).close
    simpa using this

/-! ## Every division of the series into segments is accepted -/

theorem flatten_single (l : List UInt8) : (l.map fun b => [b]).flatten = l := by
  induction l with
  | nil => rfl
  | cons a l ih => simp [ih]

theorem flatten_pieces (L : List (List UInt8)) : (L.flatMap pieces).flatten = L.flatMap series := by
  induction L with
  | nil => rfl
  | cons x L ih =>
    rw [List.flatMap_cons, List.flatten_append, ih, List.flatMap_cons]
    have : (pieces x).flatten = series x := by
      unfold pieces series
      rw [List.flatten_cons, flatten_single]
    rw [this]

theorem pieces_ne (L : List (List UInt8)) : ∀ q ∈ L.flatMap pieces, q ≠ [] := by
  intro q hq
  obtain ⟨x, _, hq⟩ := List.mem_flatMap.1 hq
  rcases List.mem_cons.1 hq with e | e
  · subst e
    intro hc
    have := Cio.toBe_length 4 x.length
    rw [hc] at this
    simp at this
  · obtain ⟨b, _, rfl⟩ := List.mem_map.1 e
    simp

/-- One segment from the start of a series: either everything is counted, or some bytes are missing. -/
theorem ppmSizes_cut : ∀ (fuel : Nat) (L : List (List UInt8)) (s rest : List (List UInt8)) (t : Nat),
    s ≠ [] → s ++ rest = L.flatMap pieces → s.flatten.length < fuel → t + L.flatten.length < 2 ^ 32 →
    ∃ (cur : List UInt8) (L' : List (List UInt8)), ppmSizes fuel s.flatten t = .ok (t + (L.flatten.length - L'.flatten.length), cur.length) ∧
      rest = (cur.map fun b => [b]) ++ L'.flatMap pieces ∧ L'.flatten.length ≤ L.flatten.length
  | 0, _, _, _, _, _, _, h, _ => by omega
  | fuel + 1, [], s, rest, t, hs, h, _, _ => by
    simp at h
    exact absurd h.1 hs
  | fuel + 1, x :: L, s, rest, t, hs, h, hf, ht => by
    obtain ⟨a, s, rfl⟩ := List.exists_cons_of_ne_nil hs
    rw [List.flatMap_cons, show pieces x = Cio.toBe 4 x.length :: x.map fun b => [b] from rfl, List.cons_append,
      List.cons_append] at h
    injection h with ha h
    subst ha
    have h4 := Cio.toBe_length 4 x.length
    simp only [List.flatten_cons, List.length_append] at hf ht ⊢
    have hv : Cio.fromBe (Cio.toBe 4 x.length) = x.length := by
      rw [Cio.fromBe_toBe]; exact Nat.mod_eq_of_lt (by omega)
    unfold ppmSizes
    rw [next_eq (by simp; omega) (by omega), List.take_left' h4, List.drop_left' h4, hv]
    have c1 : ¬ (Cio.toBe 4 x.length ++ s.flatten).length < 4 := by simp; omega
    have c2 : ¬ 2 ^ 32 - 1 - x.length < t := by omega
    simp only [refuseIf, if_neg c1, if_neg c2, bind, Except.bind, pure, Except.pure]
    rcases List.append_eq_append_iff.1 h with ⟨e, h1, h2⟩ | ⟨e, h1, h2⟩
    · -- the series is cut
      have hk : s.flatten.length ≤ x.length := by
        have := congrArg (fun l => l.flatten.length) h1
        simp only [List.flatten_append, flatten_single, List.length_append] at this
        omega
      have hs' : s = (x.take s.length).map fun b => [b] := by
        have := congrArg (List.take s.length) h1
        rw [List.take_left, ← List.map_take] at this
        exact this.symm
      have he' : e = (x.drop s.length).map fun b => [b] := by
        have := congrArg (List.drop s.length) h1
        rw [List.drop_left, ← List.map_drop] at this
        exact this.symm
      have hsl : s.flatten.length = s.length ∧ s.length ≤ x.length := by
        have h3 := congrArg List.length h1
        simp only [List.length_map, List.length_append] at h3
        have : s.flatten = x.take s.length := by
          conv => lhs; rw [hs']
          rw [flatten_single]
        rw [this]; simp; omega
      by_cases hz : x.length ≤ s.flatten.length
      · rw [if_pos hz, if_pos (by omega)]
        refine ⟨[], L, ?_, ?_, by omega⟩
        · simp
        · have : e = [] := by rw [he']; simp; omega
          rw [h2, this]; simp
      · rw [if_neg hz]
        refine ⟨x.drop s.length, L, ?_, ?_, by omega⟩
        · rw [List.length_drop, hsl.1]
          have : x.length + L.flatten.length - L.flatten.length = x.length := by omega
          rw [this]
        · rw [h2, he']
    · -- the series is complete
      have hsl : s.flatten = x ++ e.flatten := by rw [h1, List.flatten_append, flatten_single]
      rw [hsl]
      rw [if_pos (by simp)]
      by_cases hz : (x ++ e.flatten).length - x.length = 0
      · rw [if_pos hz]
        have he : e = [] := by
          by_contra hne
          obtain ⟨q, e', rfl⟩ := List.exists_cons_of_ne_nil hne
          have hq : q ≠ [] := pieces_ne L q (by rw [h2]; simp)
          have : q.length ≠ 0 := fun hc => hq (List.eq_nil_of_length_eq_zero hc)
          simp at hz
          exact hq hz.1
        subst he
        refine ⟨[], L, ?_, ?_, by omega⟩
        · simp
        · simpa using h2.symm
      · rw [if_neg hz, List.drop_left]
        have hne : e ≠ [] := by intro hc; subst hc; simp at hz
        rw [hsl, List.length_append] at hf
        obtain ⟨cur, L', g1, g2, g3⟩ := ppmSizes_cut fuel L e rest (t + x.length) hne h2.symm (by omega) (by omega)
        refine ⟨cur, L', ?_, g2, by omega⟩
        rw [g1]
        have : t + x.length + (L.flatten.length - L'.flatten.length) = t + (x.length + L.flatten.length - L'.flatten.length) := by
          omega
        rw [this]

theorem ppmPass1_cut : ∀ (ms : List (Option (List (List UInt8)))) (cur : List UInt8) (L : List (List UInt8)) (t : Nat),
    (∀ s ∈ ms.filterMap id, s ≠ []) → (ms.filterMap id).flatten = (cur.map fun b => [b]) ++ L.flatMap pieces →
    t + L.flatten.length < 2 ^ 32 →
    ppmPass1 (ms.map (Option.map List.flatten)) t cur.length = .ok (t + L.flatten.length, 0)
  | [], cur, L, t, _, h, _ => by
    simp at h
    obtain ⟨h1, h2⟩ := h
    subst h1
    cases L with
    | nil => rfl
    | cons x L => have := h2 x (by simp); simp [pieces] at this
  | none :: ms, cur, L, t, hn, h, ht => by
    show ppmPass1 (none :: ms.map (Option.map List.flatten)) t cur.length = _
    unfold ppmPass1
    exact ppmPass1_cut ms cur L t hn h ht
  | some s :: ms, cur, L, t, hn, h, ht => by
    show ppmPass1 (some s.flatten :: ms.map (Option.map List.flatten)) t cur.length = _
    unfold ppmPass1
    have hs : s ≠ [] := hn s (by simp)
    have hn' : ∀ s ∈ ms.filterMap id, s ≠ [] := fun x hx => hn x (by simpa using Or.inr (by simpa using hx))
    have h : s ++ (ms.filterMap id).flatten = (cur.map fun b => [b]) ++ L.flatMap pieces := by simpa using h
    rcases List.append_eq_append_iff.1 h with ⟨e, h1, h2⟩ | ⟨e, h1, h2⟩
    · have hs' : s.flatten = cur.take s.length := by
        have := congrArg (List.take s.length) h1
        rw [List.take_left, ← List.map_take] at this
        have h4 := congrArg List.flatten this
        rw [flatten_single] at h4
        exact h4.symm
      have he' : e = (cur.drop s.length).map fun b => [b] := by
        have := congrArg (List.drop s.length) h1
        rw [List.drop_left, ← List.map_drop] at this
        exact this.symm
      have h3 := congrArg List.length h1
      simp only [List.length_map, List.length_append] at h3
      have hl : s.flatten.length = s.length := by rw [hs']; simp; omega
      rw [if_pos (by omega), hl]
      have := ppmPass1_cut ms (cur.drop s.length) L t hn' (by rw [h2, he']) ht
      simpa using this
    · have hsl : s.flatten = cur ++ e.flatten := by rw [h1, List.flatten_append, flatten_single]
      by_cases he : e = []
      · subst he
        rw [hsl, if_pos (by simp)]
        have := ppmPass1_cut ms [] L t hn' (by simpa using h2.symm) ht
        simpa using this
      · have hpos : 0 < e.flatten.length := by
          obtain ⟨q, e', rfl⟩ := List.exists_cons_of_ne_nil he
          have hq : q ≠ [] := pieces_ne L q (by rw [h2]; simp)
          have : q.length ≠ 0 := fun hc => hq (List.eq_nil_of_length_eq_zero hc)
          simp; omega
        rw [hsl, if_neg (by rw [List.length_append]; omega), List.drop_left]
        obtain ⟨cur', L', g1, g2, g3⟩ := ppmSizes_cut (e.flatten.length + 1) L e _ t he h2.symm (by omega) ht
        rw [g1]
        show ppmPass1 (ms.map (Option.map List.flatten)) _ cur'.length = _
        rw [ppmPass1_cut ms cur' L' _ hn' g2 (by omega)]
        have : t + (L.flatten.length - L'.flatten.length) + L'.flatten.length = t + L.flatten.length := by omega
        rw [this]

theorem series_inj : ∀ (L M : List (List UInt8)), (∀ x ∈ L, x.length < 2 ^ 32) → (∀ x ∈ M, x.length < 2 ^ 32) →
    L.flatMap series = M.flatMap series → L = M
  | [], [], _, _, _ => rfl
  | [], y :: M, _, _, h => by
    have := congrArg List.length h
    have h4 := Cio.toBe_length 4 y.length
    simp only [List.flatMap_cons, List.flatMap_nil, series, List.length_append, List.length_nil] at this
    omega
  | x :: L, [], _, _, h => by
    have := congrArg List.length h
    have h4 := Cio.toBe_length 4 x.length
    simp only [List.flatMap_cons, List.flatMap_nil, series, List.length_append, List.length_nil] at this
    omega
  | x :: L, y :: M, hL, hM, h => by
    simp only [List.flatMap_cons, series, List.append_assoc] at h
    have hx := Cio.toBe_length 4 x.length
    have hy := Cio.toBe_length 4 y.length
    obtain ⟨h1, h2⟩ := List.append_inj h (by omega)
    have hxy : x.length = y.length := by
      have := congrArg Cio.fromBe h1
      rw [Cio.fromBe_toBe, Cio.fromBe_toBe, Nat.mod_eq_of_lt, Nat.mod_eq_of_lt] at this
      · exact this
      · exact hM y (by simp)
      · exact hL x (by simp)
    obtain ⟨h3, h4⟩ := List.append_inj h2 hxy
    rw [h3, series_inj L M (fun a ha => hL a (by simp [ha])) (fun a ha => hM a (by simp [ha])) h4]

theorem filterMap_map_flatten (ms : List (Option (List (List UInt8)))) :
    ((ms.map (Option.map List.flatten)).filterMap id).flatten = (ms.filterMap id).flatten.flatten := by
  induction ms with
  | nil => rfl
  | cons o ms ih =>
    cases o with
    | none => simpa using ih
    | some s =>
      show (s.flatten :: (ms.map (Option.map List.flatten)).filterMap id).flatten = (s :: ms.filterMap id).flatten.flatten
      rw [List.flatten_cons, List.flatten_cons, List.flatten_append, ih]

end Jp2.Hdr

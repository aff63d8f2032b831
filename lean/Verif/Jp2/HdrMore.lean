import Verif.Jp2.HdrRound3
/-!
# Packed packet headers in a header, unknown segments: helper lemmas
-/
namespace Jp2.Hdr

/-! ## Storing `PPM` segments -/

/-- The data of segment `z` is stored. -/
def store (ms : List (Option (List UInt8))) (s : Nat × List UInt8) : List (Option (List UInt8)) :=
  (ms ++ List.replicate (s.1 + 1 - ms.length) none).set s.1 (some s.2)

/-- What is stored for number `j`. -/
def slot (ms : List (Option (List UInt8))) (j : Nat) : Option (List UInt8) := (ms[j]?).getD none

theorem store_len (ms : List (Option (List UInt8))) (s : Nat × List UInt8) : (store ms s).length = max ms.length (s.1 + 1) := by
  unfold store
  rw [List.length_set, List.length_append, List.length_replicate]; omega

theorem slot_store (ms : List (Option (List UInt8))) (s : Nat × List UInt8) (j : Nat) :
    slot (store ms s) j = if s.1 = j then some s.2 else slot ms j := by
  unfold slot store
  rw [List.getElem?_set]
  by_cases h : s.1 = j
  · subst h
    rw [if_pos rfl, if_pos rfl, if_pos (by rw [List.length_append, List.length_replicate]; omega)]
    rfl
  · rw [if_neg h, if_neg h]
    by_cases hj : j < ms.length
    · rw [List.getElem?_append_left hj]
    · rw [List.getElem?_append_right (by omega), List.getElem?_replicate, List.getElem?_eq_none (l := ms) (by omega)]
      split <;> rfl

theorem slot_ext {a b : List (Option (List UInt8))} (hl : a.length = b.length) (h : ∀ j, slot a j = slot b j) : a = b := by
  apply List.ext_getElem hl
  intro j h1 h2
  have := h j
  unfold slot at this
  rw [List.getElem?_eq_getElem h1, List.getElem?_eq_getElem h2] at this
  exact this

theorem store_comm (ms : List (Option (List UInt8))) (a b : Nat × List UInt8) (h : a.1 ≠ b.1) :
    store (store ms a) b = store (store ms b) a := by
  apply slot_ext
  · rw [store_len, store_len, store_len, store_len]; omega
  · intro j
    rw [slot_store, slot_store, slot_store, slot_store]
    by_cases h1 : b.1 = j
    · rw [if_pos h1, if_neg (by omega), if_pos h1]
    · rw [if_neg h1, if_neg h1]

theorem nodup_fst {l : List (Nat × List UInt8)} (h : (l.map Prod.fst).Nodup) {a b : Nat × List UInt8} (ha : a ∈ l) (hb : b ∈ l)
    (hab : a.1 = b.1) : a = b := by
  induction l with
  | nil => cases ha
  | cons x l ih =>
    rw [List.map_cons, List.nodup_cons] at h
    rcases List.mem_cons.1 ha with e | e <;> rcases List.mem_cons.1 hb with f | f
    · rw [e, f]
    · exact absurd (List.mem_map.2 ⟨b, f, by rw [← hab, e]⟩) h.1
    · exact absurd (List.mem_map.2 ⟨a, e, by rw [hab, f]⟩) h.1
    · exact ih h.2 e f

theorem store_perm {a b : List (Nat × List UInt8)} (h : a.Perm b) (hn : (a.map Prod.fst).Nodup)
    (ms : List (Option (List UInt8))) : a.foldl store ms = b.foldl store ms := by
  refine h.foldl_eq' (fun x hx y hy z => ?_) ms
  by_cases hxy : x.1 = y.1
  · rw [nodup_fst hn hx hy hxy]
  · exact store_comm z x y hxy

theorem readPpm_eq {d : Dec} {s : Nat × List UInt8} (tail : List UInt8) (hz : s.1 < 256) (hs : s.2 ≠ [])
    (hf : slot d.ppms s.1 = none) :
    readPpm d (be 1 s.1 ++ s.2 ++ tail) (be 1 s.1 ++ s.2).length = .ok { d with ppm := true, ppms := store d.ppms s } := by
  have hl : 1 ≤ s.2.length := by
    cases h : s.2 with
    | nil => exact absurd h hs
    | cons a l => simp
  unfold readPpm
  rw [List.length_append, be_len, refuse_bind (by omega), List.append_assoc, next_be _ (by omega) (by omega), ok_bind]
  dsimp only
  have hg : (d.ppms ++ List.replicate (s.1 + 1 - d.ppms.length) none)[s.1]? = some none := by
    unfold slot at hf
    by_cases h : s.1 < d.ppms.length
    · rw [List.getElem?_append_left h, List.getElem?_eq_getElem h]
      rw [List.getElem?_eq_getElem h] at hf
      exact congrArg some hf
    · rw [List.getElem?_append_right (by omega), List.getElem?_replicate, if_pos (by omega)]
  rw [hg]
  dsimp only
  unfold bytesAt
  rw [if_pos (by rw [List.length_append]; omega), ok_bind, show 1 + s.2.length - 1 = s.2.length by omega, List.take_left]
  rfl

/-- A decoder that has met `PPM` segments behind the written header. -/
def PpmStage (e : Enc) (p : Bool) (ms : List (Option (List UInt8))) (d : Dec) : Prop :=
  ∃ d0, Stage e true true (RgnRel e.tccps.length) d0 ∧ ∃ b, d = { d0 with ppm := p, ppms := ms, buf := b }

theorem chunk_ppms {u : User} {e : Enc} : ∀ (arr : List (Nat × List UInt8)) (p : Bool) (ms : List (Option (List UInt8))),
    (∀ s ∈ arr, s.1 < 256 ∧ s.2 ≠ [] ∧ s.2.length ≤ 65532 ∧ slot ms s.1 = none) → (arr.map Prod.fst).Nodup →
    Chunk u (PpmStage e p ms) (arr.flatMap fun s => seg 0xFF60 (be 1 s.1 ++ s.2)) arr.length
      (PpmStage e (p || !arr.isEmpty) (arr.foldl store ms))
  | [], p, ms, _, _ => by rw [List.isEmpty_nil, Bool.not_true, Bool.or_false]; exact Chunk.nil _ _
  | s :: arr, p, ms, h, hn => by
    have h0 := h s (by simp)
    rw [List.map_cons, List.nodup_cons] at hn
    have ih := chunk_ppms (u := u) (e := e) arr true (store ms s) (fun x hx => by
      have h1 := h x (by simp [hx])
      refine ⟨h1.1, h1.2.1, h1.2.2.1, ?_⟩
      rw [slot_store, if_neg (fun hc => hn.1 (List.mem_map.2 ⟨x, hx, hc.symm⟩))]
      exact h1.2.2.2) hn.2
    rw [List.flatMap_cons, List.length_cons, Nat.add_comm arr.length 1, List.foldl_cons, List.isEmpty_cons, Bool.not_false, Bool.or_true]
    rw [Bool.true_or] at ih
    refine Chunk.append ?_ ih
    refine chunk_seg (by omega) (by omega) (by decide) (by omega)
      (by rw [List.length_append, be_len]; omega) ?_ ?_
    · rintro d ⟨d0, hd, b, rfl⟩
      dsimp only
      rw [hd.siz]; rfl
    · rintro d tail ⟨d0, hd, b, rfl⟩
      refine ⟨_, readPpm_eq tail h0.1 h0.2.1 h0.2.2.2, d0, hd, be 1 s.1 ++ s.2 ++ tail, ?_⟩
      unfold flag
      dsimp only
      rw [hd.hasSiz, hd.hasCod, hd.hasQcd]
      rfl

/-- In order of their numbers, the segments are stored one behind the other. -/
theorem store_sorted : ∀ (segs : List (Nat × List (List UInt8))) (ms : List (Option (List (List UInt8)))),
    segs.Pairwise (fun a b => a.1 < b.1) → (∀ s ∈ segs, ms.length ≤ s.1) →
    ∃ ms' : List (Option (List (List UInt8))), (segs.map fun s => (s.1, s.2.flatten)).foldl store (ms.map (Option.map List.flatten)) = ms'.map (Option.map List.flatten) ∧
      ms'.filterMap id = ms.filterMap id ++ segs.map Prod.snd
  | [], ms, _, _ => ⟨ms, rfl, by simp⟩
  | s :: segs, ms, hp, hl => by
    rw [List.pairwise_cons] at hp
    have h0 := hl s (by simp)
    obtain ⟨ms', h1, h2⟩ := store_sorted segs (ms ++ List.replicate (s.1 - ms.length) none ++ [some s.2]) hp.2 (fun x hx => by
      have := hp.1 x hx
      simp only [List.length_append, List.length_replicate, List.length_cons, List.length_nil]
      omega)
    refine ⟨ms', ?_, ?_⟩
    · rw [← h1, List.map_cons, List.foldl_cons]
      congr 1
      unfold store
      dsimp only
      rw [List.length_map, show s.1 + 1 - ms.length = (s.1 - ms.length) + 1 by omega, List.replicate_succ', ← List.append_assoc,
        List.set_append_right _ _ (by simp; omega)]
      simp [show s.1 - (ms.length + (s.1 - ms.length)) = 0 by omega]
    · rw [h2]
      simp [List.filterMap_append]

/-! ## The marker loop and its fuel -/

theorem load_short {n : Nat} {buf s : List UInt8} {r : List UInt8 × List UInt8} (h : load n buf s = .ok r) :
    r.2.length + n = s.length := by
  unfold load at h
  split at h
  · cases h
  · injection h with h
    subst h
    simp only [List.length_drop]
    omega

theorem bind_ok {α β : Type} {a : R α} {f : α → R β} {b : β} (h : (a >>= f) = .ok b) : ∃ x, a = .ok x ∧ f x = .ok b := by
  cases a with
  | error e => cases h
  | ok x => exact ⟨x, rfl, h⟩

theorem readSegment_short {u : User} {m : Nat} {d : Dec} {s : List UInt8} {r : Nat × Dec × List UInt8}
    (h : readSegment u m d s = .ok r) : r.2.2.length < s.length := by
  unfold readSegment at h
  dsimp only at h
  obtain ⟨_, _, h⟩ := bind_ok h
  obtain ⟨x1, h1, h⟩ := bind_ok h
  obtain ⟨x2, _, h⟩ := bind_ok h
  obtain ⟨_, _, h⟩ := bind_ok h
  obtain ⟨x3, h3, h⟩ := bind_ok h
  obtain ⟨x4, _, h⟩ := bind_ok h
  obtain ⟨x5, h5, h⟩ := bind_ok h
  obtain ⟨x6, _, h⟩ := bind_ok h
  injection h with h
  subst h
  have := load_short h1
  have := load_short h3
  have := load_short h5
  dsimp only
  omega

theorem readUnk_short : ∀ (fuel : Nat) {d : Dec} {s : List UInt8} {r : Nat × Dec × List UInt8},
    readUnk fuel d s = .ok r → r.2.2.length < s.length
  | 0, _, _, _, h => by cases h
  | fuel + 1, d, s, r, h => by
    unfold readUnk at h
    obtain ⟨x1, h1, h⟩ := bind_ok h
    have hs := load_short h1
    dsimp only at h
    obtain ⟨x2, _, h⟩ := bind_ok h
    split at h
    · have := readUnk_short fuel h; omega
    · obtain ⟨_, _, h⟩ := bind_ok h
      split at h
      · injection h with h
        subst h
        dsimp only
        omega
      · have := readUnk_short fuel h; omega

/-- Enough fuel is enough. -/
theorem readMarkers_fuel {u : User} : ∀ (f g m : Nat) (d : Dec) (s : List UInt8), s.length < f → s.length < g →
    readMarkers u f m d s = readMarkers u g m d s
  | 0, _, _, _, _, h, _ => by omega
  | _ + 1, 0, _, _, _, _, h => by omega
  | f + 1, g + 1, m, d, s, hf, hg => by
    rw [readMarkers, readMarkers]
    by_cases hm : m = 0xFF90
    · rw [if_pos hm, if_pos hm]
    rw [if_neg hm, if_neg hm]
    congr 1
    funext _
    have tl : ∀ (m : Nat) (d : Dec) (s' : List UInt8), s'.length ≤ s.length →
        (readSegment u m d s' >>= fun x => readMarkers u f x.1 x.2.1 x.2.2) =
        (readSegment u m d s' >>= fun x => readMarkers u g x.1 x.2.1 x.2.2) := by
      intro m d s' hs'
      cases hr : readSegment u m d s' with
      | error e => rfl
      | ok r =>
        have := readSegment_short hr
        exact readMarkers_fuel f g r.1 r.2.1 r.2.2 (by omega) (by omega)
    by_cases hk : known m = true
    · rw [if_pos hk, if_pos hk]
      exact tl m d s (Nat.le_refl _)
    · rw [if_neg hk, if_neg hk]
      cases hr : readUnk (s.length + 1) d s with
      | error e => rfl
      | ok r =>
        have := readUnk_short _ hr
        obtain ⟨m', d', s'⟩ := r
        dsimp only at this
        simp only [ok_bind]
        by_cases h2 : m' = 0xFF90
        · rw [if_pos h2, if_pos h2]
        · rw [if_neg h2, if_neg h2]
          exact tl _ _ _ (by omega)

/-! ## Unknown segments -/

/-- Skipping quiet words. -/
theorem readUnk_quiet : ∀ (q : List UInt8) (fuel : Nat) (d : Dec) (s : List UInt8), Quiet q → q.length < fuel →
    ∃ fuel' b, readUnk fuel d (q ++ s) = readUnk fuel' { d with buf := b } s ∧ b.drop 2 = d.buf.drop 2 ∧
      fuel ≤ fuel' + q.length
  | [], fuel, d, s, _, _ => ⟨fuel, d.buf, rfl, rfl, by simp⟩
  | [_], _, _, _, h, _ => h.elim
  | a :: c :: q, 0, _, _, _, h => by omega
  | a :: c :: q, fuel + 1, d, s, h, hf => by
    obtain ⟨ha, hq⟩ := h
    have hl : load 2 d.buf (a :: c :: q ++ s) = .ok ([a, c] ++ d.buf.drop 2, q ++ s) :=
      load_eq (a := [a, c]) (s := q ++ s) (n := 2) rfl
    have hn : next 2 ([a, c] ++ d.buf.drop 2) = .ok (Cio.fromBe [a, c], d.buf.drop 2) := by
      rw [next_eq (by simp) (by omega)]; rfl
    have hv : Cio.fromBe [a, c] < 0xFF00 := by
      have h1 : a.toNat ≠ 255 := fun hc => ha (UInt8.toNat_inj.1 hc)
      have h2 := a.toNat_lt
      have h3 := c.toNat_lt
      rw [Cio.fromBe_cons, Cio.fromBe_cons]
      simp [Cio.fromBe]
      omega
    simp only [List.length_cons] at hf
    obtain ⟨f', b, h1, h2, h3⟩ := readUnk_quiet q fuel { d with buf := [a, c] ++ d.buf.drop 2 } s hq (by omega)
    rw [readUnk, hl, ok_bind]
    dsimp only
    rw [hn, ok_bind]
    dsimp only
    rw [if_pos hv, h1]
    refine ⟨f', b, rfl, ?_, by simp only [List.length_cons]; omega⟩
    rw [h2]
    rfl

theorem quiet_append : ∀ (a b : List UInt8), Quiet a → Quiet b → Quiet (a ++ b)
  | [], _, _, hb => hb
  | [_], _, ha, _ => ha.elim
  | _ :: _ :: a, b, ha, hb => ⟨ha.1, quiet_append a b ha.2 hb⟩

theorem quiet_be {v : Nat} (h : v < 0xFF00) : Quiet (be 2 v) := by
  obtain ⟨l, hl⟩ : ∃ l, l = be 2 v := ⟨_, rfl⟩
  have h1 : l.length = 2 := by rw [hl, be_len]
  have h2 : Cio.fromBe l = v := by rw [hl, Cio.fromBe_toBe]; omega
  rw [← hl]
  match l, h1 with
  | [a, c], _ =>
    refine ⟨fun hc => ?_, trivial⟩
    subst hc
    rw [Cio.fromBe_cons, Cio.fromBe_cons] at h2
    simp [Cio.fromBe] at h2
    omega

/-- The marker loop behind an unknown segment. -/
theorem resume_unknown {u : User} {m m2 : Nat} {body post : List UInt8} {fuel : Nat} {d : Dec} (hm : m < 65536)
    (hm1 : 0xFF00 ≤ m) (hk : known m = false) (hb : Quiet body) (hbl : body.length + 2 < 0xFF00) (hm2 : m2 < 65536)
    (hk2 : known m2 = true) (h2 : 0xFF00 ≤ m2) (ha : allowed d.siz m2 = true) (hf : 1 ≤ fuel) :
    resume u fuel d (segment m body ++ (be 2 m2 ++ post)) = resume u fuel d (be 2 m2 ++ post) := by
  have hne : m ≠ 0xFF90 := by intro hc; rw [hc] at hk; exact absurd hk (by decide)
  have hl1 := be_len 2 m
  have hl2 := be_len 2 m2
  have hl3 := be_len 2 (body.length + 2)
  have hlen : (segment m body ++ (be 2 m2 ++ post)).length = 6 + body.length + post.length := by
    unfold segment; simp only [List.length_append]; omega
  obtain ⟨f, rfl⟩ : ∃ f, fuel = f + 1 := ⟨fuel - 1, by omega⟩
  unfold resume segment
  rw [load_eq hl2, ok_bind, List.append_assoc, List.append_assoc, load_eq hl1, ok_bind]
  dsimp only
  rw [next_be _ (by omega) (by omega), ok_bind, next_be _ (by omega) (by omega), ok_bind]
  dsimp only
  rw [readMarkers, readMarkers, if_neg hne, refuse_bind (by omega), if_neg (by rw [hk]; simp)]
  obtain ⟨q, hq⟩ : ∃ q, q = be 2 (body.length + 2) ++ body := ⟨_, rfl⟩
  have hql : q.length = 2 + body.length := by rw [hq, List.length_append, hl3]
  have hQ : Quiet q := by rw [hq]; exact quiet_append _ _ (quiet_be hbl) hb
  obtain ⟨d1, hd1⟩ : ∃ d1 : Dec, d1 = { d with buf := be 2 m ++ d.buf.drop 2 } := ⟨_, rfl⟩
  rw [← List.append_assoc (be 2 (body.length + 2)) body, ← hq, ← hd1]
  obtain ⟨f', b, h1, h3, h4⟩ := readUnk_quiet q ((q ++ (be 2 m2 ++ post)).length + 1) d1 (be 2 m2 ++ post) hQ
    (by simp only [List.length_append]; omega)
  rw [h1]
  have hf' : 1 ≤ f' := by
    simp only [List.length_append] at h4
    omega
  obtain ⟨g, rfl⟩ : ∃ g, f' = g + 1 := ⟨f' - 1, by omega⟩
  rw [readUnk, load_eq hl2, ok_bind]
  dsimp only
  rw [next_be _ (by omega) (by omega), ok_bind]
  dsimp only
  have hsz : d1.siz = d.siz := by rw [hd1]
  rw [if_neg (by omega), refuse_bind (by rw [hsz, ha]; simp), if_pos hk2, pure_bind']
  dsimp only
  have hbuf : b.drop 2 = d.buf.drop 2 := by
    rw [h3, hd1]
    dsimp only
    rw [List.drop_left' hl1]
  rw [hbuf, hd1]
  dsimp only
  by_cases h9 : m2 = 0xFF90
  · rw [if_pos h9, if_pos h9]
  · rw [if_neg h9, if_neg h9, refuse_bind (by omega), if_pos hk2]

theorem resume_fuel {u : User} {f g : Nat} {d : Dec} {s : List UInt8} (hf : s.length < f + 2) (hg : s.length < g + 2) :
    resume u f d s = resume u g d s := by
  unfold resume
  cases h : load 2 d.buf s with
  | error e => rfl
  | ok r =>
    have := load_short h
    obtain ⟨b, s'⟩ := r
    dsimp only at this
    simp only [ok_bind]
    cases next 2 b with
    | error e => rfl
    | ok r =>
      simp only [ok_bind]
      exact readMarkers_fuel f g _ _ _ (by omega) (by omega)

/-- What happens behind the marker loop. -/
def finish (r : Dec × List UInt8) : R (Dec × List UInt8) := do
  refuseIf (r.1.hasSiz = false)
  refuseIf (r.1.hasCod = false)
  refuseIf (r.1.hasQcd = false)
  let d ← mergePpm r.1
  return (d, r.2)

theorem readHeader_resume {u : User} {s : List UInt8} (h : 2 ≤ s.length) :
    readHeader u (be 2 0xFF4F ++ s) = (resume u (s.length - 2 + 1) {} s >>= finish) := by
  unfold readHeader resume
  have hl := be_len 2 0xFF4F
  rw [refuse_bind (by rw [List.length_append, hl]; omega), next_be _ (by omega) (by omega), ok_bind]
  dsimp only
  rw [refuse_bind (by simp)]
  unfold load
  rw [if_neg (by omega)]
  simp only [ok_bind]
  rw [List.length_drop]
  cases next 2 (s.take 2 ++ (List.replicate 1000 (0 : UInt8)).drop 2) with
  | error e => rfl
  | ok r => rfl

theorem segs_len (segs : List (Nat × List UInt8)) : 4 * segs.length ≤ (segs.flatMap fun s => segment s.1 s.2).length := by
  induction segs with
  | nil => simp
  | cons s l ih =>
    rw [List.flatMap_cons, List.length_append, List.length_cons]
    unfold segment at ih ⊢
    simp only [List.length_append, be_len] at ih ⊢
    omega

/-- Reading one known segment. -/
theorem resume_seg {u : User} {m : Nat} {body : List UInt8} {d : Dec} (hm : m < 65536) (hm1 : 0xFF00 ≤ m) (hk : known m = true)
    (hne : m ≠ 0xFF90) (hl : body.length + 2 < 65536) (fuel : Nat) (X : List UInt8) :
    resume u (fuel + 1) d (segment m body ++ X) = (do
      refuseIf (allowed d.siz m = false)
      let d' ← handle u m (flag m d (body ++ (be 2 (body.length + 2) ++ (be 2 m ++ d.buf.drop 2).drop 2).drop body.length))
        (body ++ (be 2 (body.length + 2) ++ (be 2 m ++ d.buf.drop 2).drop 2).drop body.length) body.length
      resume u fuel d' X) := by
  have hl1 := be_len 2 m
  have hl2 := be_len 2 (body.length + 2)
  obtain ⟨b, hb⟩ : ∃ b, b = body ++ (be 2 (body.length + 2) ++ (be 2 m ++ d.buf.drop 2).drop 2).drop body.length := ⟨_, rfl⟩
  rw [← hb]
  unfold resume segment
  rw [List.append_assoc, List.append_assoc, load_eq hl1, ok_bind]
  dsimp only
  rw [next_be _ (by omega) (by omega), ok_bind]
  dsimp only
  rw [readMarkers_known hne hm1 hk]
  unfold readSegment
  dsimp only
  by_cases ha : allowed d.siz m = false
  · have : refuseIf (allowed d.siz m = false) = .error .refused := by unfold refuseIf; rw [if_pos ha]
    rw [this]; rfl
  rw [refuse_bind ha, refuse_bind ha, load_eq hl2, ok_bind]
  dsimp only
  rw [next_be _ (by omega) (by omega), ok_bind]
  dsimp only
  rw [refuse_bind (by omega), load_eq (by omega), ok_bind]
  dsimp only
  rw [show body.length + 2 - 2 = body.length by omega, ← hb]
  unfold flag
  cases handle u m { d with
    hasSiz := d.hasSiz || m == 0xFF51, hasCod := d.hasCod || m == 0xFF52,
    hasQcd := d.hasQcd || m == 0xFF5C, buf := b } b body.length with
  | error e => rfl
  | ok d' =>
    simp only [ok_bind]
    cases load 2 d'.buf X with
    | error e => rfl
    | ok r =>
      obtain ⟨buf, s⟩ := r
      simp only [ok_bind]
      cases next 2 buf with
      | error e => rfl
      | ok r => rfl

/-- Known segments, read one after the other. -/
theorem run_known {u : User} (hu : u.reduce < 64) : ∀ (segs : List (Nat × List UInt8)) (d : Dec), St u d →
    (∀ s ∈ segs, s.1 < 65536 ∧ 0xFF00 ≤ s.1 ∧ known s.1 = true ∧ s.1 ≠ 0xFF90 ∧ s.2.length + 2 < 65536) →
    (∃ d', St u d' ∧ ∀ fuel X, resume u (fuel + segs.length) d ((segs.flatMap fun s => segment s.1 s.2) ++ X) = resume u fuel d' X) ∨
    ∃ e, ∀ fuel X, resume u (fuel + segs.length) d ((segs.flatMap fun s => segment s.1 s.2) ++ X) = .error e
  | [], d, hd, _ => Or.inl ⟨d, hd, fun _ _ => rfl⟩
  | s :: segs, d, hd, h => by
    obtain ⟨hm, hm1, hk, hne, hl⟩ := h s (by simp)
    obtain ⟨m, body⟩ := s
    dsimp only at hm hm1 hk hne hl
    have hl1 := be_len 2 m
    have hl2 := be_len 2 (body.length + 2)
    obtain ⟨b, hb⟩ : ∃ b, b = body ++ (be 2 (body.length + 2) ++ (be 2 m ++ d.buf.drop 2).drop 2).drop body.length := ⟨_, rfl⟩
    have key : ∀ fuel X, resume u (fuel + 1) d (segment m body ++ X) = (do
        refuseIf (allowed d.siz m = false)
        let d' ← handle u m (flag m d b) b body.length
        resume u fuel d' X) := by
      intro fuel X
      rw [hb]
      exact resume_seg hm hm1 hk hne hl fuel X
    have one : (∃ d', St u d' ∧ ∀ fuel X, resume u (fuel + 1) d (segment m body ++ X) = resume u fuel d' X) ∨
        ∃ e, ∀ fuel X, resume u (fuel + 1) d (segment m body ++ X) = .error e := by
      by_cases ha : allowed d.siz m = false
      · refine Or.inr ⟨.refused, fun fuel X => ?_⟩
        have : refuseIf (allowed d.siz m = false) = .error .refused := by unfold refuseIf; rw [if_pos ha]
        rw [key, this]; rfl
      cases hh : handle u m (flag m d b) b body.length with
      | error e =>
        refine Or.inr ⟨e, fun fuel X => ?_⟩
        rw [key, refuse_bind ha, hh]; rfl
      | ok d' =>
        refine Or.inl ⟨d', ?_, fun fuel X => ?_⟩
        · have hbl : 1000 ≤ b.length := by
            have := hd.buf
            rw [hb]
            simp only [List.length_append, List.length_drop]
            omega
          refine (handle_post (m := m) hu hd ha (b2 := b) (size := body.length) ?_ hbl).of_ok hh
          rw [hb, List.length_append]; omega
        · rw [key, refuse_bind ha, hh, ok_bind]
    rw [List.flatMap_cons, List.length_cons]
    rcases one with ⟨d', hd', e1⟩ | ⟨e, e1⟩
    · rcases run_known hu segs d' hd' (fun x hx => h x (by simp [hx])) with ⟨d2, hd2, e2⟩ | ⟨e, e2⟩
      · refine Or.inl ⟨d2, hd2, fun fuel X => ?_⟩
        rw [List.append_assoc, show fuel + (segs.length + 1) = (fuel + segs.length) + 1 by omega, e1, e2]
      · refine Or.inr ⟨e, fun fuel X => ?_⟩
        rw [List.append_assoc, show fuel + (segs.length + 1) = (fuel + segs.length) + 1 by omega, e1, e2]
    · refine Or.inr ⟨e, fun fuel X => ?_⟩
      rw [List.append_assoc, show fuel + (segs.length + 1) = (fuel + segs.length) + 1 by omega, e1]

end Jp2.Hdr

import Verif.Jp2.TpWriteFile
/-!
# Reading a codestream the encoder wrote
-/
namespace Jp2.Tp
open Jp2.Hdr (R be bind_ok be_len refuseIf Enc User Writable SharedStyle Suits SameHeader)

theorem PartsOf.gave {c : Cfg} {code : Coder} {tile n k : Nat} {f : List (Nat × List UInt8)} {xs : List (Nat × Nat)} {ps : List Part}
    (h : PartsOf c code tile n k f xs ps) : Gave code tile k xs (ps.flatMap Part.data) := by
  induction h with
  | nil => exact .nil
  | cons h1 h2 h3 h4 _ ih =>
    obtain ⟨room, o, plts, e1, e2, _⟩ := h4.coded
    rw [h1, h2] at e1
    rw [List.flatMap_cons, e2]
    exact .cons e1 ih

theorem TilesOf.block {c : Cfg} {e : Enc} {code : Coder} {i : Nat} {ts : List (List Hdr.Change × List Nat)} {ps : List Part}
    (h : TilesOf c e code i ts ps) (k : Nat) (x : List Hdr.Change × List Nat) (hk : ts[k]? = some x) :
    ∃ bs, PartsOf c code (i + k) x.2.sum 0 (pocSegs e x.1) (schedule x.2) bs ∧ dataOf ps (i + k) = bs.flatMap Part.data := by
  induction h generalizing k with
  | nil => cases hk
  | @cons i l ns ts ps qs hp hq ih =>
    have hd : ∀ j, dataOf (ps ++ qs) j = dataOf ps j ++ dataOf qs j := fun j => by
      unfold dataOf; rw [List.filter_append, List.flatMap_append]
    cases k with
    | zero =>
      simp at hk
      subst hk
      refine ⟨ps, hp, ?_⟩
      rw [hd]
      unfold dataOf
      rw [List.filter_eq_self.2 (fun p h => by simp [(hp.mem p h).1]), List.filter_eq_nil_iff.2 (fun p h => by
        have := (hq.shape.tile p h).1
        simp only [beq_iff_eq]
        omega)]
      simp
    | succ k =>
      simp at hk
      obtain ⟨bs, h1, h2⟩ := ih k hk
      rw [show i + (k + 1) = i + 1 + k by omega]
      refine ⟨bs, h1, ?_⟩
      rw [hd, h2]
      unfold dataOf
      rw [List.filter_eq_nil_iff.2 (fun p h => by
        have := (hp.mem p h).1
        simp only [beq_iff_eq]
        omega)]
      simp

theorem SegsTo.append {u : User} {h : Hdr.Dec} {a b d : Par} {l m : List (Nat × List UInt8)} (h1 : SegsTo u h a l b)
    (h2 : SegsTo u h b m d) : SegsTo u h a (l ++ m) d := by
  induction h1 with
  | nil => exact h2
  | cons s1 s2 _ ih => exact .cons s1 s2 (ih h2)

/-- What is known of tile `i` changed. -/
def upd (f : Nat → Par) (i : Nat) (a : Par) : Nat → Par := fun j => if j = i then a else f j

theorem PartsOf.runs {u : User} {h : Hdr.Dec} {want : Nat → Bool} {c : Cfg} {code : Coder} {tile n k : Nat}
    {first : List (Nat × List UInt8)} {xs : List (Nat × Nat)} {ps : List Part}
    (hp : PartsOf c code tile n k first xs ps) (hw : want tile = true) {f : Nat → Par} {b : Par}
    (hne : xs ≠ [] ∨ f tile = b) (hs : SegsTo u h (f tile) first b) (qs : List Part) (g : Nat → Par)
    (hr : Runs u h want (upd f tile b) qs g) : Runs u h want f (ps ++ qs) g := by
  induction hp generalizing f b with
  | nil =>
    rcases hne with hne | hne
    · exact absurd rfl hne
    · have : upd f tile b = f := by
        funext j
        unfold upd
        split
        · subst_vars; rfl
        · rfl
      rw [this] at hr
      simpa using hr
  | @cons k s x xs p ps h1 h2 h3 h4 h5 ih =>
    obtain ⟨room, o, plts, _, _, e3, e4, e5⟩ := h4.coded
    have hsteps : SegsTo u h (f p.tile) p.segs b := by
      rw [e3, h1]
      refine hs.append ?_
      by_cases hc : c.plt = none
      · rw [e4 hc]; exact .nil
      · exact (e5 hc).2.steps
    rw [List.cons_append]
    refine Runs.step (by rw [h1]; exact hw) hsteps ?_
    rw [h1]
    show Runs u h want (upd f tile b) _ _
    have hb : upd f tile b tile = b := by unfold upd; rw [if_pos rfl]
    refine ih (f := upd f tile b) (b := b) (Or.inr hb) (by rw [hb]; exact .nil) ?_
    have : upd (upd f tile b) tile b = upd f tile b := by
      funext j
      unfold upd
      split <;> rfl
    rw [this]
    exact hr

/-- What the decoder knows of a tile with the changes `l`. -/
def told (e : Enc) (h : Hdr.Dec) (l : List Hdr.Change) : Par :=
  { tcp := { h.tcp with pocs := if 3 ≤ e.rsiz ∧ e.rsiz ≤ 6 then [] else l.map Hdr.Change.poc } }

theorem pocSegs_to {u : User} {e : Enc} {h : Hdr.Dec} {l : List Hdr.Change} (hi : Hdr.Inv u h) (hp : h.tcp.pocs = [])
    (hc : h.comps.length = e.comps.length) (hly : h.tcp.numlayers = e.numlayers) (h32 : l.length < 32)
    (hv : ∀ y ∈ l, y.Valid e.comps.length e.numlayers) : SegsTo u h { tcp := h.tcp } (pocSegs e l) (told e h l) := by
  unfold pocSegs told
  have hnil : ({ h.tcp with pocs := [] } : Hdr.Tcp) = h.tcp := by rw [← hp]
  by_cases hr : 3 ≤ e.rsiz ∧ e.rsiz ≤ 6
  · rw [if_pos (Or.inr hr), if_pos hr, hnil]
    exact .nil
  · by_cases hl : l = []
    · subst hl
      rw [if_pos (Or.inl rfl), if_neg hr, List.map_nil, hnil]
      exact .nil
    · rw [if_neg (by simp only [not_or]; exact ⟨hl, hr⟩), if_neg hr]
      have := seg_poc (a := { tcp := h.tcp }) hi hi.tcp hl (by rw [hp, List.length_nil]; omega) (by rw [hc]; dsimp only; rw [hly]; exact hv)
      dsimp only at this
      rw [hp, List.nil_append, hc] at this
      refine .cons this ?_ .nil
      have hb : ∀ y : Hdr.Change, (y.bytes e.comps.length).length ≤ 9 := by
        intro y
        unfold Hdr.Change.bytes Hdr.compNumber
        split <;> simp only [List.length_append, be_len] <;> omega
      have : ∀ m : List Hdr.Change, (m.flatMap (Hdr.Change.bytes e.comps.length)).length ≤ 9 * m.length := by
        intro m
        induction m with
        | nil => simp
        | cons y m ih =>
          rw [List.flatMap_cons, List.length_append, List.length_cons]
          have := hb y
          omega
      have := this l
      dsimp only
      omega

theorem TilesOf.runs {u : User} {h : Hdr.Dec} {want : Nat → Bool} {c : Cfg} {e : Enc} {code : Coder} {i : Nat}
    {ts : List (List Hdr.Change × List Nat)} {ps : List Part} (ht : TilesOf c e code i ts ps) (hw : ∀ k, want k = true)
    (hns : ∀ x ∈ ts, 1 ≤ x.2.sum) (hs : ∀ x ∈ ts, SegsTo u h { tcp := h.tcp } (pocSegs e x.1) (told e h x.1)) {f : Nat → Par}
    (hf : ∀ k, i ≤ k → f k = { tcp := h.tcp }) :
    ∃ g, Runs u h want f ps g ∧ (∀ k x, ts[k]? = some x → g (i + k) = told e h x.1) ∧ ∀ k, k < i → g k = f k := by
  induction ht generalizing f with
  | nil => exact ⟨f, .nil, by simp, fun _ _ => rfl⟩
  | @cons i l ns ts ps qs hp hq ih =>
    obtain ⟨g, g1, g2, g3⟩ := ih (fun x hx => hns x (by simp [hx])) (fun x hx => hs x (by simp [hx])) (f := upd f i (told e h l))
      (fun k hk => by unfold upd; rw [if_neg (by omega)]; exact hf k (by omega))
    refine ⟨g, ?_, fun k x hk => ?_, fun k hk => ?_⟩
    · refine hp.runs (hw i) (Or.inl ?_) ?_ qs g g1
      · intro h0
        have := schedule_len ns
        rw [h0] at this
        have h2 := hns (l, ns) (by simp)
        dsimp only at h2
        simp at this
        omega
      · rw [hf i (by omega)]; exact hs (l, ns) (by simp)
    · cases k with
      | zero =>
        simp at hk
        subst hk
        rw [Nat.add_zero, g3 i (by omega)]
        unfold upd
        rw [if_pos rfl]
      | succ k =>
        simp at hk
        rw [show i + (k + 1) = i + 1 + k by omega]
        exact g2 k x hk
    · rw [g3 k (by omega)]
      unfold upd
      rw [if_neg (by omega)]

theorem partsBytes_start {p : Part} {ps : List Part} : ∃ r, partsBytes false (p :: ps) = be 2 0xFF90 ++ r := by
  unfold partsBytes Part.bytes
  simp only [List.append_assoc]
  exact ⟨_, rfl⟩

theorem first_data {c : Cfg} {code : Coder} {tile n : Nat} {f : List (Nat × List UInt8)} {ns : List Nat} {ps : List Part}
    (hp : PartsOf c code tile n 0 f (schedule ns) ps) (hns : ∃ k, ns.head? = some k ∧ 1 ≤ k)
    (h0 : ∀ tile room o, code tile 0 0 0 room = .ok o → o.data ≠ []) : ps.flatMap Part.data ≠ [] := by
  obtain ⟨k, hk, hk1⟩ := hns
  cases ns with
  | nil => cases hk
  | cons m ns =>
    simp at hk
    subst hk
    obtain ⟨k', rfl⟩ : ∃ k', m = k' + 1 := ⟨m - 1, by omega⟩
    have hsch : ∃ r, schedule ((k' + 1) :: ns) = (0, 0) :: r := by
      unfold schedule
      rw [List.zipIdx_cons, List.flatMap_cons, List.range_succ_eq_map, List.map_cons, List.cons_append]
      exact ⟨_, rfl⟩
    obtain ⟨r, hr⟩ := hsch
    rw [hr] at hp
    cases hp with
    | cons h1 h2 h3 h4 h5 =>
      obtain ⟨room, o, plts, e1, e2, _⟩ := h4.coded
      rw [h1, h2] at e1
      have := h0 _ _ _ e1
      rw [List.flatMap_cons, e2]
      simp [this]

theorem forall₂_get {α β : Type} {P : α → β → Prop} {l : List α} {m : List β} (h : List.Forall₂ P l m) :
    ∀ x ∈ m, ∃ a ∈ l, P a x := by
  induction h with
  | nil => simp
  | cons hp _ ih =>
    intro x hx
    rcases List.mem_cons.1 hx with rfl | hx
    · exact ⟨_, by simp, hp⟩
    · obtain ⟨a, ha, hb⟩ := ih x hx
      exact ⟨a, by simp [ha], hb⟩

theorem valid_of {c : Cfg} {e : Enc} {code : Coder} {ts : List WTile} {xs : List (List Hdr.Change × List Nat)} {ps : List Part}
    (h : List.Forall₂ (fun t x => WTileOk c e t x.1 x.2) ts xs) (hsize : c.size < 2 ^ 32)
    (h0 : ∀ tile room o, code tile 0 0 0 room = .ok o → o.data ≠ []) (hp : TilesOf c e code 0 xs ps) (hl : ∀ k, lenOf ps k ≤ c.size)
    (want : Nat → Bool) : Valid ts.length want false ps := by
  have sh := hp.shape
  have hlen := h.length_eq
  have hx : ∀ p ∈ ps, ∃ x, xs[p.tile]? = some x ∧ x ∈ xs := by
    intro p hpm
    have := sh.tile p hpm
    exact ⟨xs[p.tile]'(by omega), List.getElem?_eq_getElem (by omega), List.getElem_mem _⟩
  have hone : ∀ p ∈ ps, 1 ≤ cnt ps p.tile := fun p hpm => List.countP_pos_iff.2 ⟨p, hpm, by simp⟩
  refine ⟨fun p hpm => ?_, sh.order, fun p hpm => Or.inr (sh.count p hpm), fun p hpm => ?_, fun p hpm => ?_, fun p hpm _ => ?_,
    fun p hpm => ?_, by simp⟩
  · have := sh.tile p hpm; omega
  · obtain ⟨x, h1, h2⟩ := hx p hpm
    have := sh.many _ x h1
    rw [Nat.zero_add] at this
    rw [this]
    obtain ⟨t, _, ht⟩ := forall₂_get h x h2
    exact ht.few
  · have := lenOf_mem hpm
    have := hl p.tile
    omega
  · obtain ⟨x, h1, h2⟩ := hx p hpm
    obtain ⟨bs, b1, b2⟩ := hp.block _ x h1
    rw [Nat.zero_add] at b2
    rw [b2]
    obtain ⟨t, _, ht⟩ := forall₂_get h x h2
    exact first_data b1 ht.first h0
  · have := data_le ps p.tile
    have := hl p.tile
    have := hone p hpm
    omega

end Jp2.Tp

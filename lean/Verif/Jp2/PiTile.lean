import Verif.Jp2.PiAll
/-!
# From coding parameters to the packets of a tile
-/
namespace Jp2.Pi
open Spec

variable {t : Tile} {cs : List CompParams}

theorem uintMin_eq (a b : Nat) : Math.uintMin a b = min a b := by
  unfold Math.uintMin; split <;> omega

theorem uintMax_eq (a b : Nat) : Math.uintMax a b = max a b := by
  unfold Math.uintMax; split <;> omega

theorem uintAdds_eq (a b : Nat) (ha : a < 2 ^ 32) (hb : b < 2 ^ 32) :
    Math.uintAdds a b = min (a + b) (2 ^ 32 - 1) := by
  unfold Math.uintAdds
  split <;> omega

/-- Packets whose flag is clear, first occurrences only. -/
theorem sweep_eq (idx : Pkt → Nat) : ∀ (V : List Pkt) (inc : Nat → Bool),
    (∀ p ∈ V, ∀ q ∈ V, idx p = idx q → p = q) →
    (sweep idx inc V).1 = (V.filter fun p => !inc (idx p)).eraseDups := by
  intro V
  induction V with
  | nil => intro inc _; simp [sweep]
  | cons p ps ih =>
    intro inc hinj
    have hi : ∀ a ∈ ps, ∀ b ∈ ps, idx a = idx b → a = b :=
      fun a ha b hb => hinj a (List.mem_cons_of_mem _ ha) b (List.mem_cons_of_mem _ hb)
    rw [sweep]
    by_cases h : inc (idx p) = true
    · rw [if_pos h, ih inc hi, List.filter_cons, h]
      simp
    · have h' : inc (idx p) = false := by simpa using h
      rw [if_neg h, List.filter_cons, h']
      simp only [Bool.not_false, if_true]
      rw [List.eraseDups_cons, ih _ hi, List.filter_filter]
      congr 2
      refine List.filter_congr fun a ha => ?_
      by_cases e : a = p
      · subst e; simp
      · have e2 : idx a ≠ idx p := fun e3 => e (hinj a (List.mem_cons_of_mem _ ha) p (by simp) e3)
        simp [e, e2]

theorem eraseDups_nodup : ∀ (n : Nat) (l : List Pkt), l.length ≤ n → l.Nodup → l.eraseDups = l := by
  intro n
  induction n with
  | zero => intro l h _; have e : l = [] := List.length_eq_zero_iff.mp (by omega); rw [e]; rfl
  | succ n ih =>
    intro l h hn
    cases l with
    | nil => rfl
    | cons a as =>
      rw [List.eraseDups_cons]
      rw [List.nodup_cons] at hn
      have : as.filter (fun b => !b == a) = as := by
        rw [List.filter_eq_self]
        intro b hb
        simp only [Bool.not_eq_eq_eq_not, Bool.not_true, beq_eq_false_iff_ne]
        rintro rfl
        exact hn.1 hb
      rw [this, ih as (by simpa using h) hn.2]

/-- All iterators of a tile. -/
theorem drainAll_orders (m : Mode) (hf : TileFit t cs) (hnc : cs.length < 2 ^ 32 - 1) {L mp mr : Nat} (hL : L < 2 ^ 32)
    (hlt : ∀ c r, numPrec t cs c r < 2 ^ 32) (g : Geo t cs L mp mr) : ∀ (ps : List Poc) (inc : Nat → Bool),
    (∀ p ∈ ps, PocFit cs.length L p ∧ OrderOk t cs p.prg) →
    ∃ F, ∀ fuel, F ≤ fuel → drainAll m fuel (ps.map (fresh t cs L mp mr)) inc =
      some (sweep (pidx cs.length mp mr) inc (ps.flatMap fun p => order t cs p.bounds p.prg)) := by
  intro ps
  induction ps with
  | nil => intro inc _; exact ⟨0, fun fuel _ => rfl⟩
  | cons p ps ih =>
    intro inc h
    obtain ⟨h1, h2⟩ := h p (by simp)
    obtain ⟨F1, k1⟩ := drain_order m hf hnc hL hlt g p h1 h2 inc
    obtain ⟨F2, k2⟩ := ih (sweep (pidx cs.length mp mr) inc (order t cs p.bounds p.prg)).2
      fun q hq => h q (List.mem_cons_of_mem _ hq)
    refine ⟨max F1 F2, fun fuel hfu => ?_⟩
    obtain ⟨s', e1, e2⟩ := k1 fuel fuel (by omega) (by omega)
    rw [List.map_cons, drainAll, e1, Option.bind_some]
    simp only
    rw [e2, k2 fuel (by omega), List.flatMap_cons, sweep_append]
    rfl

theorem ParamsFit.tile {p : TileParams} {n : Nat} (h : ParamsFit p n) : TileFit (tileRect p n) p.comps := by
  have h1 := h.x1
  have h2 := h.y1
  refine ⟨h.x, h.y, ?_, ?_, h.comps⟩
  · unfold tileRect; exact le_trans (min_le_right _ _) h1
  · unfold tileRect; exact le_trans (min_le_right _ _) h2

theorem tileBounds_eq {p : TileParams} {n : Nat} (h : ParamsFit p n) : tileBounds p n =
    ((tileRect p n).tx0, (tileRect p n).ty0, (tileRect p n).tx1, (tileRect p n).ty1) := by
  have h1 := h.gx
  have h2 := h.gy
  have h3 := h.x1
  have h4 := h.y1
  have h5 := h.dx
  have h6 := h.dy
  unfold tileBounds tileRect
  simp only
  rw [Nat.mod_eq_of_lt h1, Nat.mod_eq_of_lt h2, uintAdds_eq _ _ h1 h5, uintAdds_eq _ _ h2 h6,
    uintMin_eq, uintMin_eq, uintMax_eq, uintMax_eq, Nat.add_mul, Nat.add_mul, Nat.one_mul, Nat.one_mul]
  simp only [Prod.mk.injEq, true_and]
  omega

/-- The iterators of a tile. -/
theorem createDecode_eq (m : Mode) {p : TileParams} {n : Nat} (h : ParamsFit p n)
    (hi : IndexFits (tileRect p n) p.comps p.numlayers) :
    ∃ mp mr, Geo (tileRect p n) p.comps p.numlayers mp mr ∧
      createDecode m p n = some (some ((if p.pocs.isEmpty then [pocWhole p p.comps.length mp mr]
        else p.pocs.map (pocOf p mp)).map (fresh (tileRect p n) p.comps p.numlayers mp mr))) := by
  have g := geo_of h.tile hi
  refine ⟨_, _, g, ?_⟩
  have hT := h.tile
  have hnl := h.nl
  unfold createDecode
  rw [tileBounds_eq h]
  simp only
  rw [mkComps_eq m (tileRect p n) hT.x hT.y hT.x1 hT.y1 p.comps hT.comps]
  obtain ⟨mp, hmp⟩ : ∃ mp, mp = maxPrec (p.comps.map (specComp (tileRect p n))) := ⟨_, rfl⟩
  obtain ⟨mr, hmr⟩ : ∃ mr, mr = maxRes (p.comps.map (specComp (tileRect p n))) := ⟨_, rfl⟩
  simp only [Option.bind_eq_bind, Option.bind_some, List.length_map]
  rw [← hmp, ← hmr] at g ⊢
  have hs := g.size
  have hp := g.pos
  obtain ⟨A, hA⟩ : ∃ A, A = mr * (p.comps.length * mp) := ⟨_, rfl⟩
  have hR : p.comps.length * mp < 2 ^ 32 := by
    have a1 : p.comps.length * mp ≤ mr * (p.comps.length * mp) :=
      Nat.le_mul_of_pos_left _ (Nat.pos_of_ne_zero (by rintro e; rw [e] at hp; simp at hp))
    have a2 : mr * (p.comps.length * mp) ≤ (p.numlayers + 1) * (mr * (p.comps.length * mp)) :=
      Nat.le_mul_of_pos_left _ (by omega)
    omega
  have hA2 : A ≤ (p.numlayers + 1) * A := Nat.le_mul_of_pos_left _ (by omega)
  rw [← hA] at hs hp
  rw [Nat.mod_eq_of_lt hR, ← hA]
  have e1 : A % 2 ^ 32 = A := Nat.mod_eq_of_lt (by omega)
  have e2 : (p.numlayers + 1) % 2 ^ 32 = p.numlayers + 1 := Nat.mod_eq_of_lt (by omega)
  rw [e1, e2, Nat.mod_eq_of_lt hs]
  have c1 : A ≤ (2 ^ 32 - 1) / (p.numlayers + 1) := by
    rw [Nat.le_div_iff_mul_le (by omega), Nat.mul_comm]
    omega
  have c2 : ¬ (p.numlayers + 1) * A = 0 := by
    have := Nat.mul_pos (show 0 < p.numlayers + 1 by omega) hp
    omega
  rw [if_pos c1, if_neg c2]
  cases hb : p.pocs.isEmpty with
  | true =>
    simp only [if_true, pure, List.map_cons, List.map_nil, fresh]
    rw [hA]
  | false =>
    simp only [if_false, Bool.false_eq_true, pure, List.map_map]
    congr 2
    refine List.map_congr_left fun q _ => ?_
    simp only [Function.comp, fresh]
    rw [hA]

/-- Clipping a range at the end of the interesting part. -/
theorem upto_clip {α : Type} (a b c : Nat) (f : Nat → List α) (hf : ∀ r, b ≤ r → f r = []) (hf' : ∀ r, c ≤ r → f r = []) :
    (upto a b).flatMap f = (upto a c).flatMap f := by
  have key : ∀ k b, (∀ r, b ≤ r → f r = []) → (upto a (b + k)).flatMap f = (upto a b).flatMap f := by
    intro k
    induction k with
    | zero => intro b _; rfl
    | succ k ih =>
      intro b hb
      rw [show b + (k + 1) = b + 1 + k by omega, ih (b + 1) fun r hr => hb r (by omega)]
      by_cases h : a ≤ b
      · unfold upto
        rw [show b + 1 - a = (b - a) + 1 by omega, List.range'_concat, List.flatMap_append]
        simp only [List.flatMap_cons, List.flatMap_nil, List.append_nil, Nat.one_mul]
        rw [hb (a + (b - a)) (by omega), List.append_nil]
      · rw [upto_nil _ _ (by omega), upto_nil _ _ (by omega)]
  rcases Nat.le_total b c with h | h
  · have := key (c - b) b hf
    rw [show b + (c - b) = c by omega] at this
    exact this.symm
  · have := key (b - c) c hf'
    rw [show c + (b - c) = b by omega] at this
    exact this

/-- Resolutions that do not exist have no packets. -/
theorem order_clip {L mp mr : Nat} (g : Geo t cs L mp mr) (l0 l1 r0 c0 c1 : Nat) (prg : Int) :
    order t cs ⟨l0, l1, r0, mr, c0, c1⟩ prg = order t cs ⟨l0, l1, r0, 33, c0, c1⟩ prg := by
  have hz : ∀ r, mr ≤ r → ∀ c, numPrec t cs c r = 0 := by
    intro r hr c
    by_contra hc
    have := g.hmr c r hc
    omega
  have hz33 : ∀ r, 33 ≤ r → ∀ c, numPrec t cs c r = 0 := fun r hr c => hz r (by have := g.mr33; omega) c
  have hpa : ∀ c r x y, numPrec t cs c r = 0 → precAt t cs c r x y = [] := by
    intro c r x y h0
    unfold precAt
    unfold numPrec at h0
    cases e : axes t cs c r with
    | none => rfl
    | some q =>
      obtain ⟨ax, ay⟩ := q
      rw [e] at h0
      simp only at h0 ⊢
      rw [if_neg (by intro hc; exact hc.1 h0)]
  unfold order
  split_ifs
  · unfold lrcp
    refine flatMap_congr' _ _ _ fun l _ => upto_clip _ _ _ _ ?_ ?_ <;> intro r hr <;>
      refine flatMap_nil' _ _ fun c _ => ?_
    · rw [hz r hr]; rfl
    · rw [hz33 r hr]; rfl
  · unfold rlcp
    refine upto_clip _ _ _ _ ?_ ?_ <;> intro r hr <;> refine flatMap_nil' _ _ fun l _ => ?_ <;>
      refine flatMap_nil' _ _ fun c _ => ?_
    · rw [hz r hr]; rfl
    · rw [hz33 r hr]; rfl
  · unfold rpcl
    refine upto_clip _ _ _ _ ?_ ?_ <;> intro r hr <;> refine flatMap_nil' _ _ fun y _ => ?_ <;>
      refine flatMap_nil' _ _ fun x _ => ?_ <;> refine flatMap_nil' _ _ fun c _ => ?_
    · rw [hpa _ _ _ _ (hz r hr c)]; rfl
    · rw [hpa _ _ _ _ (hz33 r hr c)]; rfl
  · unfold pcrl
    refine flatMap_congr' _ _ _ fun y _ => flatMap_congr' _ _ _ fun x _ => flatMap_congr' _ _ _ fun c _ =>
      upto_clip _ _ _ _ ?_ ?_ <;> intro r hr
    · rw [hpa _ _ _ _ (hz r hr c)]; rfl
    · rw [hpa _ _ _ _ (hz33 r hr c)]; rfl
  · unfold cprl
    refine flatMap_congr' _ _ _ fun c _ => flatMap_congr' _ _ _ fun y _ => flatMap_congr' _ _ _ fun x _ =>
      upto_clip _ _ _ _ ?_ ?_ <;> intro r hr
    · rw [hpa _ _ _ _ (hz r hr c)]; rfl
    · rw [hpa _ _ _ _ (hz33 r hr c)]; rfl
  · rfl

/-- The packet loop of a tile: first occurrences of the concatenated progressions. -/
theorem decodePackets_eq (m : Mode) {p : TileParams} {n : Nat} (h : ParamsFit p n)
    (hi : IndexFits (tileRect p n) p.comps p.numlayers)
    (hq : ∀ q ∈ p.pocs, q.resno1 < 2 ^ 32 ∧ q.compno0 < p.comps.length ∧ q.compno1 ≤ p.comps.length)
    (ho : ∀ v ∈ volumes p, OrderOk (tileRect p n) p.comps v.2) :
    ∃ F, ∀ fuel, F ≤ fuel → decodePackets m fuel p n =
      some (some ((volumes p).flatMap fun v => order (tileRect p n) p.comps v.1 v.2).eraseDups) := by
  obtain ⟨mp, mr, g, hc⟩ := createDecode_eq m h hi
  have hnl := h.nl
  have hnc := h.nc
  have hpos : 0 < p.comps.length := by
    have := g.pos
    by_contra hc
    rw [show p.comps.length = 0 by omega] at this
    simp at this
  obtain ⟨ps, hps⟩ : ∃ ps, ps = (if p.pocs.isEmpty then [pocWhole p p.comps.length mp mr]
        else p.pocs.map (pocOf p mp)) := ⟨_, rfl⟩
  rw [← hps] at hc
  have hfit : ∀ q ∈ ps, PocFit p.comps.length p.numlayers q ∧ OrderOk (tileRect p n) p.comps q.prg := by
    intro q hm
    rw [hps] at hm
    unfold volumes at ho
    by_cases hb : p.pocs.isEmpty = true
    · rw [if_pos hb, List.mem_singleton] at hm
      rw [if_pos hb] at ho
      have := ho _ (List.mem_singleton.mpr rfl)
      have := g.mr33
      rw [hm]
      refine ⟨⟨rfl, le_refl _, rfl, ?_, hpos, le_refl _⟩, by assumption⟩
      show mr < 2 ^ 32
      omega
    · rw [if_neg hb, List.mem_map] at hm
      rw [if_neg hb] at ho
      obtain ⟨q0, hq0, rfl⟩ := hm
      obtain ⟨a1, a2, a3⟩ := hq q0 hq0
      refine ⟨⟨rfl, ?_, rfl, a1, a2, a3⟩, ho _ (List.mem_map.mpr ⟨q0, hq0, rfl⟩)⟩
      show Math.uintMin q0.layno1 p.numlayers ≤ p.numlayers
      rw [uintMin_eq]; omega
  have hV : (ps.flatMap fun q => order (tileRect p n) p.comps q.bounds q.prg) =
      (volumes p).flatMap fun v => order (tileRect p n) p.comps v.1 v.2 := by
    rw [hps]
    unfold volumes
    by_cases hb : p.pocs.isEmpty = true
    · rw [if_pos hb, if_pos hb]
      simp only [List.flatMap_cons, List.flatMap_nil, List.append_nil]
      exact order_clip g _ _ _ _ _ _
    · rw [if_neg hb, if_neg hb, List.flatMap_map, List.flatMap_map]
      refine flatMap_congr' _ _ _ fun q _ => ?_
      show order _ _ ⟨0, Math.uintMin q.layno1 p.numlayers, q.resno0, q.resno1, q.compno0, q.compno1⟩ q.prg = _
      rw [uintMin_eq]
      rfl
  obtain ⟨F, hF⟩ := drainAll_orders m h.tile (by omega) (L := p.numlayers) (by omega) (fun c r => hi.lt c r) g ps
    (fun _ => false) hfit
  refine ⟨F, fun fuel hfu => ?_⟩
  unfold decodePackets
  rw [hc, Option.bind_some]
  simp only
  rw [hF fuel hfu, Option.map_some, sweep_eq, hV]
  · rw [List.filter_eq_self.mpr (by simp)]
  · intro a ha b hb e
    rw [List.mem_flatMap] at ha hb
    obtain ⟨qa, qa1, qa2⟩ := ha
    obtain ⟨qb, qb1, qb2⟩ := hb
    have ka := isPacket_of_mem h.tile qa2
    have kb := isPacket_of_mem h.tile qb2
    have fa := (hfit qa qa1).1.lay1
    have fb := (hfit qb qb1).1.lay1
    unfold IsPacket Poc.bounds at ka kb
    obtain ⟨_, a2, _, _, _, _, a7⟩ := ka
    obtain ⟨_, b2, _, _, _, _, b7⟩ := kb
    simp only at a2 b2
    exact pidx_inj g (by omega) a7 (by omega) b7 e

end Jp2.Pi

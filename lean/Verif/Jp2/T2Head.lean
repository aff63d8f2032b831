import Verif.Jp2.T2Seg
/-!
# Packet headers: the segments of one block
-/
namespace Jp2.T2
open Jp2.Bio Jp2.Tgt
open T1 (segsOf)

/-- The segments new passes go to, as the packet header announces them. -/
def pend (sty : Nat) : Seg → List (Nat × Nat) → List Seg
  | _, [] => []
  | cur, g :: G => { cur with numnewpasses := g.2, newlen := g.1 } :: pend sty { maxpasses := nextCap sty cur.maxpasses } G

theorem nextCap_le (sty mp : Nat) : nextCap sty mp ≤ 109 := by
  unfold nextCap; repeat' split
  all_goals omega
theorem firstCap_le (sty : Nat) : firstCap sty ≤ 109 := by
  unfold firstCap; repeat' split
  all_goals omega

theorem getElem?_mid {α : Type} (a : List α) (x : α) (b : List α) : (a ++ x :: b)[a.length]? = some x := by
  rw [List.getElem?_append_right (by omega)]; simp

theorem set_mid {α : Type} (a : List α) (x y : α) (b : List α) : (a ++ x :: b).set a.length y = a ++ y :: b := by
  rw [List.set_append_right _ _ (by omega)]; simp

theorem initSeg_aux (pre junk : List Seg) (sty : Nat) (first : Bool) (m : Nat)
    (hm : ∀ junk' : List Seg, (if sty &&& 4 ≠ 0 then some 1
      else if sty &&& 1 ≠ 0 then
        if first then some 10
        else if pre.length = 0 then none
        else ((pre ++ junk')[pre.length - 1]?).map fun p => if p.maxpasses = 1 ∨ p.maxpasses = 10 then 2 else 1
      else some 109) = some m) :
    ∃ junk', initSeg (pre ++ junk) pre.length sty first = some (pre ++ { maxpasses := m } :: junk') := by
  have key : ∀ x (rest : List Seg), initSeg (pre ++ x :: rest) pre.length sty first = some (pre ++ { maxpasses := m } :: rest) := by
    intro x rest
    unfold initSeg
    dsimp only
    rw [if_neg (by simp), if_neg (by simp), hm, Option.map_some, set_mid]
  cases junk with
  | nil =>
    refine ⟨List.replicate 9 {}, ?_⟩
    rw [← key {} (List.replicate 9 {}), List.append_nil]
    have e : ({} : Seg) :: List.replicate 9 {} = List.replicate 10 {} := rfl
    rw [e]
    unfold initSeg
    dsimp only
    rw [if_pos (c := pre.length < pre.length + 1) (by omega), if_neg (c := (pre ++ List.replicate 10 ({} : Seg)).length < pre.length + 1) (by simp)]
  | cons x rest => exact ⟨rest, key x rest⟩

theorem initSeg_first (segs : List Seg) (sty : Nat) :
    ∃ junk', initSeg segs 0 sty true = some ({ maxpasses := firstCap sty } :: junk') := by
  obtain ⟨j, h⟩ := initSeg_aux [] segs sty true (firstCap sty) (by
    intro _; unfold firstCap
    split
    · rfl
    · split <;> rfl)
  exact ⟨j, h⟩

theorem initSeg_next (pre junk : List Seg) (cur : Seg) (sty : Nat) :
    ∃ junk', initSeg (pre ++ cur :: junk) (pre.length + 1) sty false =
      some (pre ++ cur :: { maxpasses := nextCap sty cur.maxpasses } :: junk') := by
  obtain ⟨j, h⟩ := initSeg_aux (pre ++ [cur]) junk sty false (nextCap sty cur.maxpasses) (by
    intro junk'; unfold nextCap
    have e : (pre ++ [cur] ++ junk')[(pre ++ [cur]).length - 1]? = some cur := by
      rw [List.append_assoc, List.length_append, List.length_singleton, Nat.add_sub_cancel]
      exact getElem?_mid pre cur junk'
    rw [e]
    split
    · rfl
    · split
      · simp
      · rfl)
  refine ⟨j, ?_⟩
  rw [List.append_assoc, List.append_assoc, List.length_append, List.length_singleton] at h
  exact h

theorem caps_sum_pos {sty mp kk : Nat} {g : Nat × Nat} {G : List (Nat × Nat)} (h : Caps sty mp kk (g :: G)) :
    G.length ≤ (G.map Prod.snd).sum := by
  obtain ⟨_, _, _, h4⟩ := h
  generalize nextCap sty mp = mp' at h4
  generalize 0 = z at h4
  clear * - h4
  induction G generalizing mp' z with
  | nil => simp
  | cons g G ih =>
    obtain ⟨h1, h2, h3, h4⟩ := h4
    have := ih _ _ h4
    simp only [List.length_cons, List.map_cons, List.sum_cons]; omega

theorem segLoop_eq (sty nlb : Nat) (h40 : sty &&& 0x40 = 0) (h0 : 0 < nlb) (G : List (Nat × Nat)) (hne : G ≠ []) :
    ∀ (cur : Seg) (pre junk : List Seg) (fuel : Nat), cur.maxpasses ≤ 109 → Caps sty cur.maxpasses cur.numpasses G →
      (∀ g ∈ G, nlb + g.2.log2 ≤ 32 ∧ g.1 < 2 ^ (nlb + g.2.log2)) → (G.map Prod.snd).sum < 2 ^ 31 → G.length ≤ fuel →
      ∃ junk', ∀ s, DecSafe s → Starts s (lenBits nlb G) →
        ∃ s', segLoop sty nlb fuel s (pre ++ cur :: junk) pre.length ((G.map Prod.snd).sum : Nat) =
          .ok (s', pre ++ (pend sty cur G ++ junk')) ∧ Adv s s' (lenBits nlb G).length := by
  induction G with
  | nil => exact absurd rfl hne
  | cons g G ih =>
    intro cur pre junk fuel hmp hc hb hsum hfuel
    obtain ⟨hc1, hc2, hc3, hc4⟩ := hc
    obtain ⟨f, rfl⟩ : ∃ f, fuel = f + 1 := ⟨fuel - 1, by rw [List.length_cons] at hfuel; omega⟩
    obtain ⟨hb1, hb2⟩ := hb g (by simp)
    rw [List.map_cons, List.sum_cons] at hsum ⊢
    -- the part common to both cases
    have step : ∀ s, DecSafe s → Starts s (bitsOf (nlb + g.2.log2) g.1) →
        ∃ s', read s (nlb + g.2.log2) = some (g.1, s') ∧ Adv s s' (bitsOf (nlb + g.2.log2) g.1).length := by
      intro s hs hst
      obtain ⟨t, a1, a2, a3, a4⟩ := Item.get_spec s hs (.field g.1 (nlb + g.2.log2)) ⟨by omega, hb1, hb2⟩ hst
      exact ⟨t, a1, a2, a3, a4⟩
    have htake : takePasses sty pre.length cur ((g.2 + (G.map Prod.snd).sum : Nat) : Int) = g.2 := by
      unfold takePasses
      rw [if_neg (by omega)]
      have e1 : (2 ^ 32 + cur.maxpasses - cur.numpasses) % 2 ^ 32 = cur.maxpasses - cur.numpasses := by omega
      rw [e1]
      unfold asI32
      rw [if_pos (by omega)]
      cases G with
      | nil => simp only [List.map_nil, List.sum_nil]; omega
      | cons g' G => have := hc3 (by simp); omega
    have hmu : ((g.2 : Int) % 2 ^ 32).toNat = g.2 := by omega
    have hchk : chk (((g.2 + (G.map Prod.snd).sum : Nat) : Int) - g.2) = some (((G.map Prod.snd).sum : Nat) : Int) := by
      unfold chk
      rw [if_pos (by omega)]
      congr 1; omega
    have hlb : lenBits nlb (g :: G) = bitsOf (nlb + g.2.log2) g.1 ++ lenBits nlb G := by
      unfold lenBits; rw [List.flatMap_cons]
    rw [hlb]
    cases G with
    | nil =>
      refine ⟨junk, fun s hs hst => ?_⟩
      obtain ⟨s', e1, e2⟩ := step s hs hst.left
      refine ⟨s', ?_, by simpa [lenBits] using e2⟩
      rw [segLoop, getElem?_mid, ofOpt_some, ok_bind]
      dsimp only
      rw [htake, hmu, uintFl _ hc1 (by omega)]
      simp only [ofOpt_some, ok_bind]
      rw [Nat.mod_eq_of_lt (by omega), if_neg (by omega), e1]
      simp only [ofOpt_some, ok_bind]
      rw [hchk, ofOpt_some, ok_bind]
      rw [if_neg (by simp), set_mid]
      rfl
    | cons g' G =>
      obtain ⟨junk1, hj⟩ := initSeg_next pre junk { cur with numnewpasses := g.2, newlen := g.1 } sty
      obtain ⟨junk', hr⟩ := ih (by simp) { maxpasses := nextCap sty cur.maxpasses }
        (pre ++ [{ cur with numnewpasses := g.2, newlen := g.1 }]) junk1 f (nextCap_le _ _) hc4
        (fun x hx => hb x (by simp [hx])) (by omega) (by simpa using hfuel)
      refine ⟨junk', fun s hs hst => ?_⟩
      obtain ⟨s1, e1, e2⟩ := step s hs hst.left
      obtain ⟨s2, f1, f2⟩ := hr s1 e2.1 (Adv.starts hst e2)
      refine ⟨s2, ?_, by rw [List.length_append]; exact e2.trans f2⟩
      rw [segLoop, getElem?_mid, ofOpt_some, ok_bind]
      dsimp only
      rw [htake, hmu, uintFl _ hc1 (by omega)]
      simp only [ofOpt_some, ok_bind]
      rw [Nat.mod_eq_of_lt (by omega), if_neg (by omega), e1]
      simp only [ofOpt_some, ok_bind]
      rw [hchk, ofOpt_some, ok_bind]
      have hpos : (0 : Int) < ((((g' :: G).map Prod.snd).sum : Nat) : Int) := by
        have := hc4.1
        rw [List.map_cons, List.sum_cons]; omega
      rw [if_pos hpos, set_mid, hj]
      simp only [ofOpt_some, ok_bind]
      rw [List.append_assoc, List.length_append, List.length_singleton] at f1
      rw [List.append_assoc] at f1
      exact f1

/-! ## The lengths of one block -/

theorem log2_le (n B : Nat) (h : n < 2 ^ (B + 1)) : n.log2 ≤ B := by
  rcases Nat.eq_zero_or_pos n with rfl | h0
  · simp
  · have := (Nat.log2_lt (by omega)).mpr h; omega

/-- The number of passes, the growth of the length indicator and the lengths: what the encoder writes and what the decoder makes
of it. -/
theorem lengths_eq (sty nlb : Nat) (h40 : sty &&& 0x40 = 0) (h3 : 3 ≤ nlb) (h25 : nlb ≤ 25) (ps : List T1.Pass) (hne : ps ≠ [])
    (h164 : ps.length ≤ 164) (hsize : size ps < 2 ^ 25) (cur : Seg) (pre junk : List Seg) (hmp : cur.maxpasses ≤ 109)
    (hc : Caps sty cur.maxpasses cur.numpasses (segsOf 0 0 ps)) :
    ∃ bits nlb' junk', nlb ≤ nlb' ∧ nlb' ≤ 25 ∧
      (∀ s, encLengths s nlb ps.length ps = (putBits s bits).map fun s => (s, nlb')) ∧
      ∀ s, DecSafe s → Starts s bits → ∃ s1 s2 s3 inc, getnumpasses s = some (ps.length, s1) ∧ getcommacode s1 = some (inc, s2) ∧
        (nlb + inc) % 2 ^ 32 = nlb' ∧
        segLoop sty nlb' 165 s2 (pre ++ cur :: junk) pre.length (ps.length : Nat) = .ok (s3, pre ++ (pend sty cur (segsOf 0 0 ps) ++ junk')) ∧
        Adv s s3 bits.length := by
  have hlen := List.length_pos_of_ne_nil hne
  obtain ⟨G, hG⟩ : ∃ G, G = segsOf 0 0 ps := ⟨_, rfl⟩
  have hsum := segsOf_sum ps 0 0 (fun _ => rfl)
  rw [Nat.zero_add, Nat.zero_add, ← hG] at hsum
  have hG1 : ∀ g ∈ G, g.1 < 2 ^ 25 := fun g hg => by
    have := sum_mem_le (G.map Prod.fst) g.1 (List.mem_map_of_mem hg)
    omega
  have hG2 : ∀ g ∈ G, g.2 ≤ 164 := fun g hg => by
    have := sum_mem_le (G.map Prod.snd) g.2 (List.mem_map_of_mem hg)
    omega
  have hl1 : ∀ g ∈ G, g.1.log2 ≤ 24 := fun g hg => log2_le _ _ (hG1 g hg)
  have hl2 : ∀ g ∈ G, g.2.log2 ≤ 7 := fun g hg => log2_le _ _ (by have := hG2 g hg; omega)
  have hinc : incrementLoop nlb 0 0 0 ps = some (incr nlb 0 G) := by
    rw [hG]
    exact incrementLoop_eq nlb ps 0 0 0 (Or.inl hne) (by omega) (by omega)
  obtain ⟨i1, i2, i3⟩ := incr_spec nlb (by omega) G 0
  have i3 := i3 25 (by omega) (fun g hg => by have := hl1 g hg; omega)
  generalize incr nlb 0 G = inc at *
  obtain ⟨e, rfl⟩ : ∃ e : Nat, inc = (e : Int) := ⟨inc.toNat, by omega⟩
  have hle : ∀ g ∈ G, nlb + e + g.2.log2 ≤ 32 ∧ g.1 < 2 ^ (nlb + e + g.2.log2) := fun g hg => by
    refine ⟨by have := hl2 g hg; omega, ?_⟩
    have h1 := i2 g hg
    have h2 : g.1 < 2 ^ (g.1.log2 + 1) := Nat.lt_log2_self
    exact Nat.lt_of_lt_of_le h2 (Nat.pow_le_pow_right (by omega) (by omega))
  rw [← hG] at hc ⊢
  have hGne : G ≠ [] := by rw [hG]; exact segsOf_ne ps hne 0 0
  obtain ⟨junk', hj⟩ := segLoop_eq sty (nlb + e) h40 (by omega) G hGne cur pre junk 165 hmp hc hle (by omega) (by
    obtain ⟨g, G', rfl⟩ := List.exists_cons_of_ne_nil hGne
    have := caps_sum_pos hc
    have := hc.1
    have h2 := hsum.2
    rw [List.map_cons, List.sum_cons] at h2
    rw [List.length_cons]; omega)
  refine ⟨passBits ps.length ++ ((Item.comma e).bits ++ lenBits (nlb + e) G), nlb + e, junk', by omega, by omega, fun s => ?_, fun s hs hst => ?_⟩
  · unfold encLengths
    have hp := Item.put_eq s (.passes ps.length) ⟨by omega, h164⟩
    simp only [Item.put, Item.bits] at hp
    rw [hp, putBits_append]
    cases putBits s (passBits ps.length) with
    | none => rfl
    | some s1 =>
      rw [Option.bind_some, hinc, Option.bind_some, Option.bind_some]
      have hp := Item.put_eq s1 (.comma e) (by show e < 2 ^ 32; omega)
      simp only [Item.put] at hp
      rw [Int.toNat_natCast, hp, putBits_append]
      cases putBits s1 (Item.comma e).bits with
      | none => rfl
      | some s2 =>
        rw [Option.bind_some, Option.bind_some]
        rw [Nat.mod_eq_of_lt (by omega)]
        dsimp only
        rw [lengthsLoop_eq (nlb + e) ps 0 0 s2 (Or.inl hne) (by omega) (by omega) (by omega)
          (fun g hg => (hle g (by rw [hG]; exact hg)).1), ← hG]
  · obtain ⟨s1, a1, a2, a3, a4⟩ := Item.get_spec s hs (.passes ps.length) ⟨by omega, h164⟩ hst.left
    have hst1 : Starts s1 _ := hst.right (a := passBits ps.length) a4
    obtain ⟨s2, b1, b2, b3, b4⟩ := Item.get_spec s1 a2 (.comma e) (by show e < 2 ^ 32; omega) hst1.left
    have hst2 := hst1.right b4
    obtain ⟨s3, c1, c2⟩ := hj s2 b2 hst2
    rw [hsum.2] at c1
    refine ⟨s1, s2, s3, e, a1, b1, Nat.mod_eq_of_lt (by omega), c1, ?_⟩
    rw [List.length_append, List.length_append]
    exact Adv.trans ⟨a2, a3, a4⟩ (Adv.trans ⟨b2, b3, b4⟩ c2)

/-! ## Tag tree steps -/

/-- The decoder's tree next to the encoder's. -/
def mir (t : Mem Node) : Mem Node := fun i => (t i).map decView

theorem query_step {n : Nat} {M thr : Int} {val : Nat → Int} {t : Mem Node} {leaf : Nat} (hst : St n M val t) (hl : leaf < n)
    (hv : thr ≤ 999 ∨ val leaf < 999) (hM : thr ≤ M) :
    ∃ bits t', St n M val t' ∧ (∀ s, encode s t leaf thr = (putBits s bits).map fun s => (s, t')) ∧
      ∀ s, DecSafe s → Starts s bits → ∃ s', decode s (mir t) leaf thr = some (decide (val leaf < thr), s', mir t') ∧
        Adv s s' bits.length := by
  obtain ⟨nd, v1, v2⟩ := hst.vals leaf hl
  have henc := encode_eq M M thr t leaf hst.inv hst.mono (by omega) (by omega) hst.nonneg (hst.reach leaf hl)
  have hd := decode_eq M M thr t (mir t) leaf hst.inv hst.mono (by omega) (by omega) hst.nonneg (hst.reach leaf hl)
    (fun _ => rfl) nd v1 (by rw [v2]; exact hv)
  have hany := henc ⟨[], 0, 0, 0⟩
  have hst1 := hst.same (M' := M) (by omega) hany.2.1 hany.2.2
  refine ⟨_, _, hst1, fun s => (henc s).1, fun s hs hb => ?_⟩
  obtain ⟨s1, d1, e1, e2, e3⟩ := hd s hs hb
  have : d1 = mir _ := funext e2
  subst this
  exact ⟨s1, by rw [e1, v2], e3⟩

theorem full_step {n : Nat} {val : Nat → Int} {t : Mem Node} {leaf : Nat} (hst : St n 999 val t) (hl : leaf < n)
    (hv : val leaf < 999) :
    ∃ bits t', St n 999 val t' ∧ (∀ s, encode s t leaf 999 = (putBits s bits).map fun s => (s, t')) ∧
      ∀ s, DecSafe s → Starts s bits → ∃ s', firstTrue 1001 0 s (mir t) leaf = some (val leaf + 1, s', mir t') ∧
        Adv s s' bits.length := by
  obtain ⟨nd, v1, v2⟩ := hst.vals leaf hl
  have hlow0 := hst.inv.low0 leaf nd v1
  have hlowv := hst.inv.lowv leaf nd v1
  have henc := encode_eq 999 999 999 t leaf hst.inv hst.mono (by omega) (by omega) hst.nonneg (hst.reach leaf hl)
  have hab := query_above 999 999 (nd.value + 1) t leaf hst.inv hst.mono (hst.reach leaf hl) nd v1 (by omega) (by omega)
  have hd := fun s hs hb => firstTrue_spec 999 (nd.value + 1).toNat 0 t (mir t) leaf hst.inv hst.mono hst.up (hst.reach leaf hl)
    (fun _ => rfl) nd v1 (by omega) (by omega) hst.nonneg s hs hb 1001 (by omega)
  rw [← hab] at hd
  have hany := henc ⟨[], 0, 0, 0⟩
  have hst1 := hst.same (M' := 999) (by omega) hany.2.1 hany.2.2
  refine ⟨_, _, hst1, fun s => (henc s).1, fun s hs hb => ?_⟩
  obtain ⟨s1, d1, e1, e2, e3⟩ := hd s hs hb
  have : d1 = mir _ := funext e2
  subst this
  exact ⟨s1, by rw [e1, v2], e3⟩

theorem set_step {n : Nat} {M v : Int} {val : Nat → Int} {t : Mem Node} {leaf : Nat} (hst : St n M val t) (hl : leaf < n)
    (hv : M ≤ v) :
    ∃ t', setvalue t leaf v = some t' ∧ St n M (setVal val leaf v) t' ∧ mir t' = mir t := by
  obtain ⟨t1, g1, g2, g3, g4, g5, g6⟩ := setvalue_spec M v t leaf hst.inv hst.mono hv (hst.reach leaf hl)
  refine ⟨t1, g1, ⟨g2, hst.nonneg, g3, hst.up.congr g4.parents, ?_, ?_, ?_⟩, ?_⟩
  · intro k hk
    obtain ⟨r, l, e⟩ := hst.reach k hk
    exact ⟨r, l, by rw [climb_congr t t1 g4.parents]; exact e⟩
  · exact fun k hk => leafs_congr g4.parents k (hst.leafs k hk)
  · intro k hk
    obtain ⟨nd, e1, e2⟩ := hst.vals k hk
    unfold setVal
    by_cases e : k = leaf
    · subst e
      rw [if_pos rfl, ← e2]; exact g5 nd e1
    · rw [if_neg e, g6 k e (hst.leafs k hk)]; exact ⟨nd, e1, e2⟩
  · have := Rel.lowered hst.inv hv g4 (d := mir t) (fun _ => rfl)
    exact (funext this).symm

end Jp2.T2

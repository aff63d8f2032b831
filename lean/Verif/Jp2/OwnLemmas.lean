import Verif.Jp2.OwnSpec
import Mathlib.Tactic.ByContra
/-! # Helpers for C80 -/
namespace Jp2.Own

/-- The live allocations are exactly these, each once. -/
structure Holds (h : Heap) (ps : List Nat) : Prop where
  perm : h.live.Perm ps
  nodup : h.live.Nodup
  lt : ∀ p ∈ h.live, p < h.next

theorem Holds.of {h : Heap} {ps qs : List Nat} (H : Holds h ps) (hp : ps.Perm qs) : Holds h qs := ⟨H.perm.trans hp, H.nodup, H.lt⟩

theorem Holds.free {h : Heap} {p : Nat} {ps : List Nat} (H : Holds h (p :: ps)) : ∃ h', free p h = some h' ∧ Holds h' ps := by
  have hm : p ∈ h.live := H.perm.mem_iff.mpr (List.mem_cons_self ..)
  refine ⟨{ h with live := h.live.erase p }, if_pos hm, ?_, H.nodup.erase p, fun q hq => H.lt q (List.mem_of_mem_erase hq)⟩
  have := H.perm.erase p
  rwa [List.erase_cons_head] at this

theorem Holds.alloc {h : Heap} {ps : List Nat} (H : Holds h ps) (size : Nat) :
    (size = 0 ∧ alloc size h = (none, h)) ∨ ∃ p h', alloc size h = (some p, h') ∧ Holds h' (p :: ps) := by
  unfold Own.alloc
  by_cases h0 : size = 0
  · exact Or.inl ⟨h0, if_pos h0⟩
  · refine Or.inr ⟨h.next, ⟨h.next :: h.live, h.next + 1⟩, if_neg h0, H.perm.cons _, ?_, ?_⟩
    · exact List.nodup_cons.mpr ⟨fun hc => Nat.lt_irrefl _ (H.lt _ hc), H.nodup⟩
    · intro p hp
      rcases List.mem_cons.mp hp with rfl | hp
      · exact Nat.lt_succ_self _
      · exact Nat.lt_succ_of_lt (H.lt p hp)

/-- `f` keeps account: it never goes wrong, and what it loses are the allocations `L`, none if `ok`. -/
def Spec (ok : Img → Prop) (f : Img → Heap → Option (Img × Heap)) : Prop :=
  ∀ im h R, Holds h (owned im ++ R) → ∃ im' h' L, f im h = some (im', h') ∧ Holds h' (owned im' ++ (L ++ R)) ∧ (ok im → L = [])

theorem clearData_ok (c : Comp) (h : Heap) (R : List Nat) (H : Holds h (c.data.toList ++ R)) :
    ∃ h', clearData c h = some ({ c with data := none }, h') ∧ Holds h' R := by
  unfold clearData
  cases hc : c.data with
  | none =>
    rw [hc] at H
    exact ⟨h, by simp only; rw [← hc], H⟩
  | some p =>
    rw [hc] at H
    obtain ⟨h', e, H'⟩ := H.free
    exact ⟨h', by simp only; rw [e]; rfl, H'⟩

theorem allocData_ok (c : Comp) (h : Heap) (R : List Nat) (H : Holds h (c.data.toList ++ R)) :
    ∃ b c' h', allocData c h = some (b, c', h') ∧ Holds h' (c'.data.toList ++ R) := by
  obtain ⟨h', e, H'⟩ := clearData_ok c h R H
  unfold allocData
  rw [e, Option.map_some]
  simp only
  by_cases hs : 2 ^ 64 ≤ c.w * c.h * 4
  · rw [if_pos hs]; exact ⟨_, _, _, rfl, H'⟩
  · rw [if_neg hs]
    rcases H'.alloc (c.w * c.h * 4) with ⟨_, e2⟩ | ⟨p, h2, e2, H2⟩
    · rw [e2]; exact ⟨_, _, _, rfl, H'⟩
    · rw [e2]; exact ⟨_, _, _, rfl, H2⟩

theorem freeDatas_ok (cs : List Comp) (h : Heap) (R : List Nat) (H : Holds h (datas cs ++ R)) : ∃ h', freeDatas cs h = some h' ∧ Holds h' R := by
  induction cs generalizing h with
  | nil => exact ⟨h, rfl, H⟩
  | cons c cs ih =>
    unfold freeDatas
    unfold datas at H
    rw [List.flatMap_cons] at H
    cases hc : c.data with
    | none =>
      rw [hc] at H
      exact ih h H
    | some p =>
      rw [hc] at H
      obtain ⟨h', e, H'⟩ := H.free
      obtain ⟨h2, e2, H2⟩ := ih h' H'
      exact ⟨h2, by simp only; rw [e]; exact e2, H2⟩

theorem clearComps_ok (im : Img) (h : Heap) (R : List Nat) (H : Holds h (owned im ++ R)) :
    ∃ h', clearComps im h = some ({ im with comps := none }, h') ∧ Holds h' (ownedIcc im ++ R) := by
  unfold clearComps
  unfold owned ownedComps at H
  rw [List.append_assoc] at H
  cases hc : im.comps with
  | none =>
    rw [hc] at H
    exact ⟨h, by simp only; rw [← hc], H⟩
  | some q =>
    obtain ⟨p, cs⟩ := q
    rw [hc] at H
    simp only at H
    obtain ⟨h1, e1, H1⟩ := freeDatas_ok cs h (p :: (ownedIcc im ++ R)) (H.of (by
      rw [List.cons_append]
      exact List.perm_middle.symm))
    obtain ⟨h2, e2, H2⟩ := H1.free
    exact ⟨h2, by simp only; rw [e1, Option.bind_some, e2]; rfl, H2⟩

theorem clearIcc_ok (im : Img) (h : Heap) (R : List Nat) (H : Holds h (ownedIcc im ++ R)) :
    ∃ h', clearIcc im h = some ({ im with icc := none }, h') ∧ Holds h' R := by
  unfold clearIcc
  unfold ownedIcc at H
  cases hc : im.icc with
  | none =>
    rw [hc] at H
    exact ⟨h, by simp only; rw [← hc], H⟩
  | some q =>
    obtain ⟨p, l⟩ := q
    rw [hc] at H
    obtain ⟨h', e, H'⟩ := H.free
    exact ⟨h', by simp only; rw [e]; rfl, H'⟩

theorem drop_ok (im : Img) (h : Heap) (R : List Nat) (H : Holds h (owned im ++ R)) : ∃ h', drop im h = some h' ∧ Holds h' R := by
  obtain ⟨h1, e1, H1⟩ := clearComps_ok im h R H
  obtain ⟨h2, e2, H2⟩ := clearIcc_ok { im with comps := none } h1 R H1
  exact ⟨h2, by unfold drop; rw [e1, Option.bind_some]; simp only; rw [e2]; rfl, H2⟩

theorem allocComps_ok (cs : List Comp) (hcs : datas cs = []) (im : Img) (h : Heap) (R : List Nat) (H : Holds h (owned im ++ R)) :
    ∃ im' h', allocComps cs im h = some (im', h') ∧ Holds h' (owned im' ++ R) ∧ im'.icc = im.icc ∧ (im'.comps = none ∨ ∃ p, im'.comps = some (p, cs)) := by
  obtain ⟨h1, e1, H1⟩ := clearComps_ok im h R H
  unfold allocComps
  rw [e1, Option.map_some]
  simp only
  rcases H1.alloc cs.length with ⟨_, e2⟩ | ⟨p, h2, e2, H2⟩
  · rw [e2]
    exact ⟨_, _, rfl, H1, rfl, Or.inl rfl⟩
  · rw [e2]
    refine ⟨_, _, rfl, ?_, rfl, Or.inr ⟨p, rfl⟩⟩
    unfold owned ownedComps
    simp only [hcs]
    exact H2

theorem clearComps_spec : Spec (fun _ => True) clearComps := fun im h R H => by
  obtain ⟨h1, e1, H1⟩ := clearComps_ok im h R H
  exact ⟨_, h1, [], e1, H1, fun _ => rfl⟩

theorem clearIcc_spec : Spec (fun _ => True) clearIcc := fun im h R H => by
  unfold owned at H
  rw [List.append_assoc] at H
  obtain ⟨h1, e1, H1⟩ := clearIcc_ok im h (ownedComps im ++ R) (H.of (by
    rw [← List.append_assoc, ← List.append_assoc]
    exact List.perm_append_comm.append_right _))
  refine ⟨_, h1, [], e1, ?_, fun _ => rfl⟩
  unfold owned
  rw [show ownedIcc { im with icc := none } = [] from rfl, List.append_nil]
  exact H1

theorem copyIcc_spec (len : Nat) : Spec (fun im => len = 0 ∨ im.icc = none) (copyIcc len) := fun im h R H => by
  unfold copyIcc
  by_cases h0 : len = 0
  · rw [if_pos h0]
    obtain ⟨im', h', L, e, H', k⟩ := clearIcc_spec im h R H
    exact ⟨im', h', L, e, H', fun _ => k trivial⟩
  · rw [if_neg h0]
    rcases H.alloc len with ⟨e0, _⟩ | ⟨p, h2, e2, H2⟩
    · exact absurd e0 h0
    · rw [e2]
      refine ⟨_, _, ownedIcc im, rfl, H2.of ?_, fun hk => ?_⟩
      · unfold owned
        rw [show ownedIcc { im with icc := some (p, len) } = [p] from rfl, show ownedComps { im with icc := some (p, len) } = ownedComps im from rfl]
        rw [List.append_assoc, List.append_assoc, List.singleton_append]
        exact List.perm_middle.symm
      · rcases hk with hk | hk
        · exact absurd hk h0
        · unfold ownedIcc; rw [hk]; rfl

theorem allocComps_spec (cs : List Comp) (hcs : datas cs = []) : Spec (fun _ => True) (allocComps cs) := fun im h R H => by
  obtain ⟨im', h', e, H', _⟩ := allocComps_ok cs hcs im h R H
  exact ⟨im', h', [], e, H', fun _ => rfl⟩

theorem datas_null (cs : List Comp) : datas (cs.map fun c => { c with data := none }) = [] := by
  unfold datas
  induction cs with
  | nil => rfl
  | cons c cs ih => rw [List.map_cons, List.flatMap_cons, ih]; rfl

theorem copyHeader_spec (src : Img) : Spec (fun im => src.icc = none ∨ im.icc = none) (copyHeader src) := fun im h R H => by
  obtain ⟨im1, h1, e1, H1, k1, _⟩ := allocComps_ok (headers src) (by unfold headers; split; rfl; exact datas_null _) im h R H
  unfold copyHeader
  rw [e1, Option.bind_some]
  simp only
  split
  · exact ⟨im1, h1, [], rfl, H1, fun _ => rfl⟩
  · cases hs : src.icc with
    | none => exact ⟨im1, h1, [], rfl, H1, fun _ => rfl⟩
    | some q =>
      obtain ⟨im2, h2, L, e2, H2, k2⟩ := copyIcc_spec q.2 im1 h1 R H1
      refine ⟨im2, h2, L, e2, H2, fun hk => k2 (Or.inr ?_)⟩
      rcases hk with hk | hk
      · cases hk
      · rw [k1, hk]

theorem datas_split (cs : List Comp) (j : Nat) (c : Comp) (hj : cs[j]? = some c) :
    ∃ Q, (datas cs).Perm (c.data.toList ++ Q) ∧ ∀ c', (datas (cs.set j c')).Perm (c'.data.toList ++ Q) := by
  induction cs generalizing j with
  | nil => simp at hj
  | cons a cs ih =>
    cases j with
    | zero =>
      rw [List.getElem?_cons_zero] at hj
      injection hj with hj
      subst hj
      exact ⟨datas cs, List.Perm.refl _, fun c' => List.Perm.refl _⟩
    | succ j =>
      rw [List.getElem?_cons_succ] at hj
      obtain ⟨Q, h1, h2⟩ := ih j hj
      have hm : ∀ x y : List Nat, (a.data.toList ++ (x ++ y)).Perm (x ++ (a.data.toList ++ y)) := fun x y => by
        rw [← List.append_assoc, ← List.append_assoc]
        exact List.perm_append_comm.append_right _
      refine ⟨a.data.toList ++ Q, (h1.append_left _).trans (hm _ _), fun c' => ?_⟩
      rw [List.set_cons_succ]
      exact ((h2 c').append_left _).trans (hm _ _)

theorem onComp_spec (j : Nat) {f : Comp → Heap → Option (Comp × Heap)}
    (hf : ∀ c h R, Holds h (c.data.toList ++ R) → ∃ c' h', f c h = some (c', h') ∧ Holds h' (c'.data.toList ++ R)) :
    Spec (fun _ => True) (onComp j f) := fun im h R H => by
  unfold onComp
  cases hc : im.comps with
  | none => exact ⟨im, h, [], rfl, H, fun _ => rfl⟩
  | some q =>
    obtain ⟨p, cs⟩ := q
    simp only
    cases hj : cs[j]? with
    | none => exact ⟨im, h, [], rfl, H, fun _ => rfl⟩
    | some c =>
      obtain ⟨Q, q1, q2⟩ := datas_split cs j c hj
      have hm : ∀ x : List Nat, (p :: (x ++ Q) ++ ownedIcc im ++ R).Perm (x ++ (p :: (Q ++ ownedIcc im ++ R))) := fun x => by
        rw [List.cons_append, List.cons_append, List.append_assoc, List.append_assoc, List.append_assoc]
        exact List.perm_middle.symm
      unfold owned ownedComps at H
      rw [hc] at H
      simp only at H
      obtain ⟨c', h', e, H'⟩ := hf c h (p :: (Q ++ ownedIcc im ++ R)) (H.of ((((q1.cons p).append_right _).append_right _).trans (hm _)))
      refine ⟨{ im with comps := some (p, cs.set j c') }, h', [], by simp only; rw [e]; rfl, H'.of ?_, fun _ => rfl⟩
      exact ((hm _).symm).trans ((((q2 c').symm.cons p).append_right _).append_right _)

theorem imgs_split (imgs : List Img) (i : Nat) (im : Img) (hi : imgs[i]? = some im) :
    ∃ Q, (imgs.flatMap owned).Perm (owned im ++ Q) ∧ (∀ im', ((imgs.set i im').flatMap owned).Perm (owned im' ++ Q)) ∧
      ((imgs.eraseIdx i).flatMap owned).Perm Q := by
  induction imgs generalizing i with
  | nil => simp at hi
  | cons a l ih =>
    cases i with
    | zero =>
      rw [List.getElem?_cons_zero] at hi
      injection hi with hi
      subst hi
      exact ⟨l.flatMap owned, List.Perm.refl _, fun im' => List.Perm.refl _, List.Perm.refl _⟩
    | succ i =>
      rw [List.getElem?_cons_succ] at hi
      obtain ⟨Q, h1, h2, h3⟩ := ih i hi
      have hm : ∀ x y : List Nat, (owned a ++ (x ++ y)).Perm (x ++ (owned a ++ y)) := fun x y => by
        rw [← List.append_assoc, ← List.append_assoc]
        exact List.perm_append_comm.append_right _
      refine ⟨owned a ++ Q, (h1.append_left _).trans (hm _ _), fun im' => ?_, h3.append_left _⟩
      rw [List.set_cons_succ]
      exact ((h2 im').append_left _).trans (hm _ _)

/-- The account of a world: everything that is live belongs to exactly one image, or is lost. -/
def Good (w : World) (L : List Nat) : Prop := Holds w.heap (w.imgs.flatMap owned ++ L)

theorem onImg_ok {ok : Img → Prop} {f : Img → Heap → Option (Img × Heap)} (hf : Spec ok f) (i : Nat) (w : World) (L : List Nat) (H : Good w L) :
    ∃ w' L', onImg i f w = some w' ∧ Good w' L' ∧ ((∀ im, w.imgs[i]? = some im → ok im) → L' = L) := by
  unfold onImg
  cases hi : w.imgs[i]? with
  | none => exact ⟨w, L, rfl, H, fun _ => rfl⟩
  | some im =>
    obtain ⟨Q, q1, q2, _⟩ := imgs_split w.imgs i im hi
    obtain ⟨im', h', L', e, H', k⟩ := hf im w.heap (Q ++ L) (H.of (by rw [← List.append_assoc]; exact q1.append_right _))
    refine ⟨⟨w.imgs.set i im', h'⟩, L' ++ L, by simp only; rw [e]; rfl, H'.of ?_, fun hk => by rw [k (hk im rfl)]; rfl⟩
    refine List.Perm.trans ?_ ((q2 im').symm.append_right _)
    rw [List.append_assoc]
    refine List.Perm.append_left _ ?_
    rw [← List.append_assoc, ← List.append_assoc]
    exact List.perm_append_comm.append_right _

theorem fillData_ok (cs : List Comp) (h : Heap) (R : List Nat) (H : Holds h (datas cs ++ R)) :
    ∃ b cs' h', fillData cs h = some (b, cs', h') ∧ Holds h' (datas cs' ++ R) := by
  induction cs generalizing h R with
  | nil => exact ⟨_, _, _, rfl, H⟩
  | cons c cs ih =>
    have hd : ∀ c cs, datas (c :: cs) = c.data.toList ++ datas cs := fun c cs => by unfold datas; rw [List.flatMap_cons]
    rw [hd, List.append_assoc] at H
    obtain ⟨b, c', h1, e1, H1⟩ := allocData_ok c h _ H
    unfold fillData
    rw [e1, Option.bind_some]
    simp only
    cases b with
    | false => exact ⟨_, _, _, rfl, by rw [hd, List.append_assoc]; exact H1⟩
    | true =>
      have hm : ∀ x y : List Nat, (c'.data.toList ++ (x ++ y)).Perm (x ++ (c'.data.toList ++ y)) := fun x y => by
        rw [← List.append_assoc, ← List.append_assoc]
        exact List.perm_append_comm.append_right _
      obtain ⟨b2, cs', h2, e2, H2⟩ := ih h1 (c'.data.toList ++ R) (H1.of (hm _ _))
      refine ⟨b2, c' :: cs', h2, by rw [if_pos rfl, e2]; rfl, H2.of ?_⟩
      rw [hd, List.append_assoc]
      exact (hm _ _).symm

theorem datas_new (ps : List (Nat × Nat)) : datas (ps.map fun q => (⟨q.1, q.2, none⟩ : Comp)) = [] := by
  unfold datas
  induction ps with
  | nil => rfl
  | cons c cs ih => rw [List.map_cons, List.flatMap_cons, ih]; rfl

theorem create_ok (ps : List (Nat × Nat)) (h : Heap) (R : List Nat) (H : Holds h R) :
    ∃ r h', create ps h = some (r, h') ∧ Holds h' (r.toList.flatMap owned ++ R) := by
  obtain ⟨im, h1, e1, H1, k1, k2⟩ := allocComps_ok _ (datas_new ps) ⟨none, none⟩ h R H
  unfold create
  rw [e1, Option.bind_some]
  simp only
  obtain ⟨cm, ic⟩ := im
  simp only at k1 k2
  subst k1
  rcases k2 with k2 | ⟨p, k2⟩
  · subst k2
    exact ⟨none, h1, rfl, H1⟩
  · subst k2
    simp only
    obtain ⟨b, cs', h2, e2, H2⟩ := fillData_ok _ h1 (p :: R) (H1.of (by
      unfold owned ownedComps ownedIcc
      simp only [Option.map_none, Option.toList_none, List.append_nil]
      rw [List.cons_append]
      exact List.perm_middle.symm))
    have H3 : Holds h2 (owned ⟨some (p, cs'), none⟩ ++ R) := H2.of (by
      unfold owned ownedComps ownedIcc
      simp only [Option.map_none, Option.toList_none, List.append_nil]
      rw [List.cons_append]
      exact List.perm_middle)
    rw [e2, Option.bind_some]
    simp only
    cases b with
    | true => exact ⟨some _, h2, rfl, by rw [Option.toList_some, List.flatMap_singleton]; exact H3⟩
    | false =>
      obtain ⟨h4, e4, H4⟩ := drop_ok _ h2 R H3
      exact ⟨none, h4, by rw [if_neg (by decide), e4]; rfl, H4⟩

theorem tileCreate_ok (ps : List (Nat × Nat)) (h : Heap) (R : List Nat) (H : Holds h R) :
    ∃ r h', tileCreate ps h = some (r, h') ∧ Holds h' (r.toList.flatMap owned ++ R) := by
  obtain ⟨im, h1, e1, H1, k1, k2⟩ := allocComps_ok _ (datas_new ps) ⟨none, none⟩ h R H
  unfold tileCreate
  rw [e1, Option.map_some]
  simp only
  obtain ⟨cm, ic⟩ := im
  simp only at k1 k2
  subst k1
  rcases k2 with k2 | ⟨p, k2⟩
  · subst k2
    exact ⟨none, h1, rfl, H1⟩
  · subst k2
    exact ⟨some _, h1, rfl, by rw [Option.toList_some, List.flatMap_singleton]; exact H1⟩

theorem clone_ok (im : Img) (hd : samples im = []) (h : Heap) (R : List Nat) (H : Holds h R) :
    ∃ im' h', clone im h = some (im', h') ∧ Holds h' (owned im' ++ R) := by
  unfold clone
  have key : ∃ new h1, cloneComps im h = some (new, h1) ∧ Holds h1 (owned new ++ R) ∧ new.icc = none := by
    unfold cloneComps
    cases hc : im.comps with
    | none => exact ⟨_, _, rfl, H, rfl⟩
    | some q =>
      obtain ⟨p, cs⟩ := q
      unfold samples at hd
      rw [hc] at hd
      obtain ⟨im1, h1, e1, H1, k1, _⟩ := allocComps_ok cs hd ⟨none, none⟩ h R H
      exact ⟨im1, h1, e1, H1, k1⟩
  obtain ⟨new, h1, e1, H1, k1⟩ := key
  rw [e1, Option.bind_some]
  simp only
  cases hi : im.icc with
  | none => exact ⟨new, h1, rfl, H1⟩
  | some q =>
    obtain ⟨im2, h2, L, e2, H2, k2⟩ := copyIcc_spec q.2 new h1 R H1
    rw [k2 (Or.inr k1)] at H2
    exact ⟨im2, h2, e2, H2⟩

theorem add_good {w : World} {L : List Nat} {r : Option Img} {h : Heap} (H : Holds h (r.toList.flatMap owned ++ (w.imgs.flatMap owned ++ L))) :
    Good (add (r, h) w.imgs) L := by
  unfold Good add
  refine H.of ?_
  rw [List.flatMap_append, ← List.append_assoc]
  exact List.perm_append_comm.append_right _

theorem step_ok (o : Op) (w : World) (L : List Nat) (H : Good w L) (hc : ¬ ClonesSamples o w) :
    ∃ w' L', step o w = some w' ∧ Good w' L' ∧ (¬ Overwrites o w → L' = L) := by
  have nolose : ∀ {f : Img → Heap → Option (Img × Heap)} (i : Nat), Spec (fun _ => True) f → (P : Prop) →
      ∃ w' L', onImg i f w = some w' ∧ Good w' L' ∧ (P → L' = L) := fun i hf P => by
    obtain ⟨w', L', e, G, k⟩ := onImg_ok hf i w L H
    exact ⟨w', L', e, G, fun _ => k fun _ _ => trivial⟩
  cases o with
  | new =>
    refine ⟨_, L, rfl, ?_, fun _ => rfl⟩
    exact add_good (r := some ⟨none, none⟩) H
  | create ps =>
    obtain ⟨r, h', e, H'⟩ := create_ok ps w.heap _ H
    exact ⟨_, L, by unfold step; simp only; rw [e]; rfl, add_good H', fun _ => rfl⟩
  | tileCreate ps =>
    obtain ⟨r, h', e, H'⟩ := tileCreate_ok ps w.heap _ H
    exact ⟨_, L, by unfold step; simp only; rw [e]; rfl, add_good H', fun _ => rfl⟩
  | destroy i =>
    unfold step
    simp only
    cases hi : w.imgs[i]? with
    | none => exact ⟨w, L, rfl, H, fun _ => rfl⟩
    | some im =>
      obtain ⟨Q, q1, _, q3⟩ := imgs_split w.imgs i im hi
      obtain ⟨h', e, H'⟩ := drop_ok im w.heap (Q ++ L) (H.of (by rw [← List.append_assoc]; exact q1.append_right _))
      exact ⟨⟨w.imgs.eraseIdx i, h'⟩, L, by simp only; rw [e]; rfl, H'.of (q3.symm.append_right _), fun _ => rfl⟩
  | clearComps i => exact nolose i clearComps_spec _
  | allocComps i n =>
    refine nolose i (allocComps_spec _ ?_) _
    unfold datas
    rw [List.flatMap_eq_nil_iff]
    intro c hc
    rw [List.eq_of_mem_replicate hc]; rfl
  | clearData i j =>
    refine nolose i (onComp_spec j fun c h R H => ?_) _
    obtain ⟨h', e, H'⟩ := clearData_ok c h R H
    exact ⟨_, h', e, H'⟩
  | allocData i j =>
    refine nolose i (onComp_spec j fun c h R H => ?_) _
    obtain ⟨b, c', h', e, H'⟩ := allocData_ok c h R H
    exact ⟨c', h', by rw [e]; rfl, H'⟩
  | clearIcc i => exact nolose i clearIcc_spec _
  | copyIcc i len =>
    obtain ⟨w', L', e, G, k⟩ := onImg_ok (copyIcc_spec len) i w L H
    refine ⟨w', L', e, G, fun ho => k fun im hi => ?_⟩
    by_contra hn
    rw [not_or] at hn
    exact ho ⟨hn.1, im, hi, hn.2⟩
  | take i =>
    unfold step
    simp only
    cases hi : w.imgs[i]? with
    | none => exact ⟨w, L, rfl, H, fun _ => rfl⟩
    | some im =>
      obtain ⟨Q, q1, q2, _⟩ := imgs_split w.imgs i im hi
      refine ⟨_, L, rfl, H.of ?_, fun _ => rfl⟩
      refine List.Perm.append_right _ ?_
      simp only
      rw [List.flatMap_append, List.flatMap_singleton]
      refine q1.trans (List.Perm.trans ?_ ((q2 _).symm.append_right _))
      unfold takeComps owned
      rw [show ownedComps ⟨none, im.icc⟩ = [] from rfl, show ownedIcc ⟨im.comps, none⟩ = [] from rfl, List.nil_append, List.append_nil,
        show ownedIcc ⟨none, im.icc⟩ = ownedIcc im from rfl, show ownedComps ⟨im.comps, none⟩ = ownedComps im from rfl, List.append_assoc]
      exact List.perm_append_comm
  | copyHeader s d =>
    unfold step
    simp only
    by_cases hsd : s = d
    · rw [if_pos hsd]; exact ⟨w, L, rfl, H, fun _ => rfl⟩
    · rw [if_neg hsd]
      cases hs : w.imgs[s]? with
      | none => exact ⟨w, L, rfl, H, fun _ => rfl⟩
      | some src =>
        obtain ⟨w', L', e, G, k⟩ := onImg_ok (copyHeader_spec src) d w L H
        refine ⟨w', L', e, G, fun ho => k fun im hi => ?_⟩
        by_contra hn
        rw [not_or] at hn
        exact ho ⟨hsd, src, im, hs, hi, hn.1, hn.2⟩
  | clone i =>
    unfold step
    simp only
    cases hi : w.imgs[i]? with
    | none => exact ⟨w, L, rfl, H, fun _ => rfl⟩
    | some im =>
      have hd : samples im = [] := by
        by_contra hn
        exact hc ⟨im, hi, hn⟩
      obtain ⟨im', h', e, H'⟩ := clone_ok im hd w.heap _ H
      refine ⟨_, L, by simp only; rw [e]; rfl, ?_, fun _ => rfl⟩
      exact add_good (r := some im') (by rw [Option.toList_some, List.flatMap_singleton]; exact H')

theorem run_ok (ops : List Op) (w : World) (L : List Nat) (H : Good w L) (hc : Never ClonesSamples ops w) :
    ∃ w' L', run ops w = some w' ∧ Good w' L' ∧ (Never Overwrites ops w → L' = L) := by
  induction ops generalizing w L with
  | nil => exact ⟨w, L, rfl, H, fun _ => rfl⟩
  | cons o ops ih =>
    obtain ⟨w1, L1, e1, G1, k1⟩ := step_ok o w L H hc.1
    obtain ⟨w2, L2, e2, G2, k2⟩ := ih w1 L1 G1 (hc.2 w1 e1)
    exact ⟨w2, L2, by unfold run; rw [e1]; exact e2, G2, fun hn => (k2 (hn.2 w1 e1)).trans (k1 hn.1)⟩

theorem start_good : Good start [] := ⟨List.Perm.refl _, List.nodup_nil, fun _ h => absurd h List.not_mem_nil⟩

theorem allocData_new (w ht : Nat) (h : Heap) : ∃ b d h', allocData ⟨w, ht, none⟩ h = some (b, ⟨w, ht, d⟩, h') ∧
    (b = true ↔ 0 < w * ht * 4 ∧ w * ht * 4 < 2 ^ 64) ∧ (b = true → d.isSome = true) := by
  unfold allocData clearData
  simp only [Option.map_some]
  by_cases hs : 2 ^ 64 ≤ w * ht * 4
  · rw [if_pos hs]
    exact ⟨_, _, _, rfl, ⟨fun hb => (nomatch hb), fun hb => absurd hs (by omega)⟩, fun hb => (nomatch hb)⟩
  · rw [if_neg hs]
    unfold alloc
    by_cases h0 : w * ht * 4 = 0
    · rw [if_pos h0]
      exact ⟨_, _, _, rfl, ⟨fun hb => (nomatch hb), fun hb => by omega⟩, fun hb => (nomatch hb)⟩
    · rw [if_neg h0]
      exact ⟨_, _, _, rfl, ⟨fun _ => by omega, fun _ => rfl⟩, fun _ => rfl⟩

theorem fillData_new (ps : List (Nat × Nat)) (h : Heap) : ∃ b cs h', fillData (ps.map fun q => ⟨q.1, q.2, none⟩) h = some (b, cs, h') ∧
    (b = true ↔ ∀ q ∈ ps, 0 < q.1 * q.2 * 4 ∧ q.1 * q.2 * 4 < 2 ^ 64) ∧
    (b = true → cs.map (fun c => (c.w, c.h)) = ps ∧ ∀ c ∈ cs, c.data.isSome = true) := by
  induction ps generalizing h with
  | nil => exact ⟨_, _, _, rfl, ⟨fun _ _ hq => absurd hq List.not_mem_nil, fun _ => rfl⟩, fun _ => ⟨rfl, fun _ hc => absurd hc List.not_mem_nil⟩⟩
  | cons q ps ih =>
    obtain ⟨b, d, h1, e1, k1, k2⟩ := allocData_new q.1 q.2 h
    rw [List.map_cons]
    unfold fillData
    rw [e1, Option.bind_some]
    simp only
    cases b with
    | false =>
      refine ⟨false, _, _, rfl, ⟨fun hb => (nomatch hb), fun hb => ?_⟩, fun hb => (nomatch hb)⟩
      exact k1.mpr (hb q (List.mem_cons_self ..))
    | true =>
      obtain ⟨b2, cs, h2, e2, m1, m2⟩ := ih h1
      refine ⟨b2, ⟨q.1, q.2, d⟩ :: cs, h2, by rw [if_pos rfl, e2]; rfl, ?_, fun hb => ?_⟩
      · rw [m1, List.forall_mem_cons]
        exact ⟨fun hx => ⟨k1.mp rfl, hx⟩, fun hx => hx.2⟩
      · obtain ⟨n1, n2⟩ := m2 hb
        refine ⟨by rw [List.map_cons, n1], List.forall_mem_cons.mpr ⟨k2 rfl, n2⟩⟩

theorem create_some (ps : List (Nat × Nat)) (h h' : Heap) (r : Option Img) (e : create ps h = some (r, h')) :
    (r.isSome = true ↔ ps ≠ [] ∧ ∀ q ∈ ps, 0 < q.1 * q.2 * 4 ∧ q.1 * q.2 * 4 < 2 ^ 64) ∧
    (∀ im, r = some im → im.icc = none ∧ ∃ p cs, im.comps = some (p, cs) ∧ cs.map (fun c => (c.w, c.h)) = ps ∧ ∀ c ∈ cs, c.data.isSome = true) := by
  unfold create allocComps clearComps alloc at e
  simp only [Option.map_some, List.length_map] at e
  by_cases h0 : ps.length = 0
  · rw [if_pos h0, Option.bind_some] at e
    simp only [Option.some.injEq, Prod.mk.injEq] at e
    obtain ⟨rfl, -⟩ := e
    exact ⟨⟨fun hb => (nomatch hb), fun hb => absurd (List.length_eq_zero_iff.mp h0) hb.1⟩, fun im hi => (nomatch hi)⟩
  · rw [if_neg h0, Option.bind_some] at e
    simp only at e
    obtain ⟨b, cs, h2, e2, m1, m2⟩ := fillData_new ps ⟨h.next :: h.live, h.next + 1⟩
    rw [e2, Option.bind_some] at e
    simp only at e
    have hne : ps ≠ [] := fun hc => h0 (List.length_eq_zero_iff.mpr hc)
    cases b with
    | true =>
      rw [if_pos rfl] at e
      injection e with e
      injection e with e _
      subst e
      refine ⟨⟨fun _ => ⟨hne, m1.mp rfl⟩, fun _ => rfl⟩, fun im hi => ?_⟩
      injection hi with hi
      subst hi
      exact ⟨rfl, _, _, rfl, (m2 rfl).1, (m2 rfl).2⟩
    | false =>
      rw [if_neg (by decide)] at e
      rw [Option.map_eq_some_iff] at e
      obtain ⟨h3, _, e⟩ := e
      injection e with e _
      subst e
      exact ⟨⟨fun hb => (nomatch hb), fun hb => m1.mpr hb.2⟩, fun im hi => (nomatch hi)⟩

end Jp2.Own

import Verif.Jp2.OwnLemmas
/-!
# C80: images own their memory

Histories are lists of operations on any number of images, run from a program without images; `none` is undefined behaviour: something is freed
that is not live. `owned im` is every allocation an image points to.
-/
namespace Jp2.Own

/-- Every history without a clone of an image that has samples frees only what is live, and at its end everything the images
point to is live and belongs to one image only. -/
theorem C80_no_double_free (ops : List Op) (hc : Never ClonesSamples ops start) :
    ∃ w, run ops start = some w ∧ (∀ im ∈ w.imgs, ∀ p ∈ owned im, p ∈ w.heap.live) ∧ (w.imgs.flatMap owned).Nodup := by
  obtain ⟨w, L, e, G, _⟩ := run_ok ops start [] start_good hc
  refine ⟨w, e, fun im hm p hp => G.perm.mem_iff.mpr (List.mem_append_left _ (List.mem_flatMap.mpr ⟨im, hm, hp⟩)), ?_⟩
  exact (List.nodup_append.mp (G.perm.nodup_iff.mp G.nodup)).1

/-- A history to which it applies: create, take the components, clone what is left, allocate, copy the header, destroy. -/
def aHistory : List Op :=
  [.create [(2, 3), (1, 1)], .copyIcc 0 5, .take 0, .clone 0, .clearData 1 0, .allocData 1 0, .new, .copyHeader 1 3, .allocComps 2 2, .clearIcc 0,
    .clearComps 1, .tileCreate [(4, 4)], .allocData 4 0, .create [(2, 2), (0, 1)], .destroy 0, .destroy 0]

/-- A check of `Never`, for the examples. -/
def neverB (p : Op → World → Bool) : List Op → World → Bool
  | [], _ => true
  | o :: l, w => !p o w && match step o w with
    | none => true
    | some w' => neverB p l w'

theorem neverB_never {P : Op → World → Prop} {p : Op → World → Bool} (hp : ∀ o w, P o w → p o w = true) (ops : List Op) (w : World)
    (h : neverB p ops w = true) : Never P ops w := by
  induction ops generalizing w with
  | nil => trivial
  | cons o l ih =>
    unfold neverB at h
    rw [Bool.and_eq_true] at h
    refine ⟨fun hc => ?_, fun w' hw => ih w' ?_⟩
    · rw [hp o w hc] at h
      exact absurd h.1 (by decide)
    · have := h.2
      rw [hw] at this
      exact this

def clonesB (o : Op) (w : World) : Bool :=
  match o with
  | .clone i => match w.imgs[i]? with | none => false | some im => !(samples im).isEmpty
  | _ => false

theorem aHistory_clones : Never ClonesSamples aHistory start := by
  refine neverB_never (p := clonesB) (fun o w h => ?_) _ _ (by decide +kernel)
  cases o <;> try exact absurd h id
  obtain ⟨im, hi, hs⟩ := h
  unfold clonesB
  simp only [hi]
  cases hl : samples im with
  | nil => exact absurd hl hs
  | cons => rfl

def overB (o : Op) (w : World) : Bool :=
  match o with
  | .copyIcc i _ => match w.imgs[i]? with | none => false | some im => im.icc.isSome
  | .copyHeader s _ => match w.imgs[s]? with | none => false | some im => im.icc.isSome
  | _ => false

theorem aHistory_over : Never Overwrites aHistory start := by
  refine neverB_never (p := overB) (fun o w h => ?_) _ _ (by decide +kernel)
  cases o <;> try exact absurd h id
  · obtain ⟨_, im, hi, hs⟩ := h
    unfold overB
    simp only [hi]
    exact Option.isSome_iff_ne_none.mpr hs
  · obtain ⟨_, im, dst, hi, _, hs, _⟩ := h
    unfold overB
    simp only [hi]
    exact Option.isSome_iff_ne_none.mpr hs

example : ∃ w, run aHistory start = some w ∧ w.imgs.length = 3 ∧ w.heap.live ≠ [] := by
  refine ⟨(run aHistory start).getD start, ?_⟩
  decide +kernel

/-- If moreover no image is given a profile over one it has, nothing is lost: what is live is what the images point to. -/
theorem C80_nothing_lost (ops : List Op) (hc : Never ClonesSamples ops start) (ho : Never Overwrites ops start) :
    ∃ w, run ops start = some w ∧ w.heap.live.Perm (w.imgs.flatMap owned) ∧ (w.imgs = [] → w.heap.live = []) := by
  obtain ⟨w, L, e, G, k⟩ := run_ok ops start [] start_good hc
  have hp := G.perm
  rw [k ho, List.append_nil] at hp
  exact ⟨w, e, hp, fun h0 => by rw [h0] at hp; exact List.perm_nil.mp hp⟩

/-- Moving the components leaves the profile with the image and everything else with the new one; nothing is freed or allocated. -/
theorem C80_take_moves (w : World) (i : Nat) (im : Img) (hi : w.imgs[i]? = some im) :
    ∃ a b, step (.take i) w = some ⟨w.imgs.set i a ++ [b], w.heap⟩ ∧ owned a = ownedIcc im ∧ owned b = ownedComps im := by
  refine ⟨(takeComps im).2, (takeComps im).1, by unfold step; simp only [hi], rfl, ?_⟩
  exact List.append_nil _

/-- Creating an image gives one exactly if there are components and each has samples, and not more than the memory can hold; every component then has
its size and its own buffer. If it fails, what it had allocated until then is given back. -/
theorem C80_create (ps : List (Nat × Nat)) (h : Heap) (hn : h.live.Nodup) (hl : ∀ p ∈ h.live, p < h.next) :
    ∃ r h', create ps h = some (r, h') ∧ h'.live.Perm (r.toList.flatMap owned ++ h.live) ∧
      (r.isSome = true ↔ ps ≠ [] ∧ ∀ q ∈ ps, 0 < q.1 * q.2 * 4 ∧ q.1 * q.2 * 4 < 2 ^ 64) ∧
      (∀ im, r = some im → im.icc = none ∧ ∃ p cs, im.comps = some (p, cs) ∧ cs.map (fun c => (c.w, c.h)) = ps ∧
        ∀ c ∈ cs, c.data.isSome = true) := by
  obtain ⟨r, h', e, H⟩ := create_ok ps h h.live ⟨List.Perm.refl _, hn, hl⟩
  obtain ⟨k1, k2⟩ := create_some ps h h' r e
  exact ⟨r, h', e, H.perm, k1, k2⟩

/-- Where it holds: the second component has no samples, and the array and the buffer of the first are given back. -/
example : create [(2, 2), (0, 3)] ⟨[7], 8⟩ = some (none, ⟨[7], 10⟩) := by decide +kernel

/-- A clone of an image that has samples shares their buffers with it: when both are destroyed, they are freed twice. -/
theorem C80_clone_double_free : run [.create [(2, 3)], .clone 0, .destroy 0, .destroy 0] start = none := by decide +kernel

/-- A profile over a profile is lost: it is never freed. -/
theorem C80_profile_lost : ∃ w, run [.new, .copyIcc 0 3, .copyIcc 0 4, .destroy 0] start = some w ∧ w.imgs = [] ∧ w.heap.live ≠ [] :=
  ⟨⟨[], ⟨[0], 2⟩⟩, rfl, rfl, by decide⟩

/-- A header copied over an image that has a profile loses it, too. -/
theorem C80_header_lost : ∃ w, run [.create [(1, 1)], .copyIcc 0 3, .new, .copyIcc 1 3, .copyHeader 0 1, .destroy 0, .destroy 0] start = some w ∧
    w.imgs = [] ∧ w.heap.live ≠ [] :=
  ⟨⟨[], ⟨[3], 6⟩⟩, by decide +kernel, rfl, by decide⟩

end Jp2.Own

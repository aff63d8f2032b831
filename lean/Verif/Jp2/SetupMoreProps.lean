import Verif.Jp2.SetupProfile
/-!
# C68: refusals, safety, progression order changes, profiles
-/
namespace Jp2.Setup
open Jp2.Hdr (R Fail refuseIf Comp Tccp Post bind_ok ok_bind)

/-- **C68.** A number of resolutions or a code-block size that is out of range is refused, whatever else is asked for. -/
theorem C68_bad_values_refused (p : Params) (im : Image)
    (h : ¬ (1 ≤ p.numres ∧ p.numres ≤ 33) ∨ ¬ ∃ a b : Nat, p.cblockw = 2 ^ a ∧ p.cblockh = 2 ^ b ∧ 2 ≤ a ∧ 2 ≤ b ∧ a + b ≤ 12) :
    setup p im = .error .refused := by
  have hp := checkRanges_post p
  unfold setup
  cases hc : checkRanges p with
  | ok x =>
    have := hp.of_ok hc
    rcases h with h | h
    · exact absurd this.1 h
    · exact absurd this.2 h
  | error e =>
    rw [hc] at hp
    have : e = .refused := hp
    rw [this]
    rfl

example : setup { numres := 34 } ⟨0, 0, 8, 8, []⟩ = .error .refused ∧ setup { cblockw := 128 } ⟨0, 0, 8, 8, []⟩ = .error .refused :=
  ⟨C68_bad_values_refused _ _ (Or.inl (by decide)), C68_bad_values_refused _ _ (Or.inr (by
    rintro ⟨a, b, h1, h2, h3, h4, h5⟩
    have e1 : a = 7 := Nat.pow_right_injective (le_refl 2) (by have : (128 : Int) = 2 ^ a := h1; have : 128 = 2 ^ a := by exact_mod_cast this
                                                               dsimp only; omega)
    have e2 : b = 6 := Nat.pow_right_injective (le_refl 2) (by have : (64 : Int) = 2 ^ b := h2; have : 64 = 2 ^ b := by exact_mod_cast this
                                                               dsimp only; omega)
    omega))⟩

/-- **C68.** As long as a few things are minded (the number of layers, the lengths of arrays, precinct sizes given where they are asked for, a
tile origin within the image), the encoder is set up or refuses; it is not stopped by an arithmetic or index error, neither then nor in the
checks at the start of compression. This holds for all profiles. -/
theorem C68_safe (p : Params) (im : Image) (hs : Sane p im) :
    (∀ f, setup p im = .error f → f = .refused) ∧ ∀ c f, setup p im = .ok c → validate c = .error f → f = .refused := by
  have hp := setup_post hs
  refine ⟨?_, ?_⟩
  · intro f hf
    rw [hf] at hp
    exact hp
  · intro c f hc hf
    have hne := hp.of_ok hc
    unfold validate at hf
    cases ht : c.enc.tccps with
    | nil => exact absurd ht hne
    | cons t l =>
      rw [ht] at hf
      have : Post (do
          refuseIf (t.numres = 0 ∨ 32 < t.numres)
          refuseIf (c.enc.tdx < 2 ^ (t.numres - 1))
          refuseIf (c.enc.tdy < 2 ^ (t.numres - 1))) fun _ => True :=
        Post.bind (Hdr.refuseIf_post _) fun _ _ => Post.bind (Hdr.refuseIf_post _) fun _ _ => (Hdr.refuseIf_post _).mono fun _ _ => trivial
      dsimp only at hf
      rw [hf] at this
      exact this

/-- An image of 2048 by 1080 samples in three components of 12 bits. -/
def cinemaImage : Image := ⟨0, 0, 2048, 1080, List.replicate 3 { prec := 12, sgnd := 0, dx := 1, dy := 1, w := 2048, h := 1080 }⟩

theorem cinema_sane (r : Nat) : Sane { rsiz := r } cinemaImage where
  layers := ⟨by norm_num, by norm_num⟩
  arrays := ⟨rfl, rfl, rfl⟩
  sizes := by
    rintro s (h | h) <;>
    · rw [List.eq_of_mem_replicate h]
      norm_num
  changes := by simp
  image := by decide
  tiles := by intro h; cases h
  comps := by decide
  prec := by decide
  precincts := by intro h; cases h
  spec := by norm_num

example : Sane { rsiz := 3 } cinemaImage ∧ Sane { rsiz := 0x422 } cinemaImage ∧ Sane {} cinemaImage :=
  ⟨cinema_sane _, cinema_sane _, cinema_sane _⟩

/-- What stops the encoder with a panic. -/
def panics (p : Params) (im : Image) : Bool :=
  match setup p im with
  | .error .panic => true
  | _ => false

theorem panics_spec {p : Params} {im : Image} (h : panics p im = true) : setup p im = .error .panic := by
  unfold panics at h
  split at h
  · assumption
  · cases h

/-- **False of the code.** Each of the things to be minded has to be: 101 layers, a negative number of layers, precincts asked for but no size given,
33 resolutions with one precinct size, a tile origin at the lower edge of the image or to the right of it, and samples of no bits stop the encoder. -/
theorem C68_careless_panics :
    setup { layers := 101 } cinemaImage = .error .panic ∧ setup { layers := -1 } cinemaImage = .error .panic ∧
    setup { csty := 1 } cinemaImage = .error .panic ∧
    setup { csty := 1, resSpec := 1, numres := 33 } cinemaImage = .error .panic ∧
    setup { tileSizeOn := true, tdx := 512, tdy := 512, ty0 := 1080 } cinemaImage = .error .panic ∧
    setup { tileSizeOn := true, tdx := 512, tdy := 512, tx0 := 2049 } cinemaImage = .error .panic ∧
    setup {} ⟨0, 0, 64, 64, [{ prec := 0, sgnd := 0, dx := 1, dy := 1 }]⟩ = .error .panic := by
  refine ⟨panics_spec ?_, panics_spec ?_, panics_spec ?_, panics_spec ?_, panics_spec ?_, panics_spec ?_, panics_spec ?_⟩
  all_goals decide +kernel

/-! ## Without a profile -/

/-- Nothing in the parameters asks for a profile. -/
def NoProfile (p : Params) : Prop := p.rsiz ≤ 2 ∧ p.cinema = 0 ∧ p.cpRsiz = 0

theorem came_plain {p : Params} {im : Image} {c : Coding} {p1 p2 : Params} {t : Tile} {ts : List Tile} (h : Came p im c p1 p2 t ts)
    (hp : NoProfile p) : p2 = settled p := by
  have h1 := h.layers
  rw [deprecated_none hp.2] at h1
  have e1 : p1 = settled p := by
    have h1' : (if (settled p).layers < 1 ∨ 100 < (settled p).layers then .error .panic else .ok (settled p) : R Params) = .ok p1 := h1
    split at h1'
    · cases h1'
    · exact (Except.ok.inj h1').symm
  have h2 := h.profile
  rw [e1, profiles_none im (by rw [settled_eq]; exact hp.1)] at h2
  exact (Except.ok.inj h2).symm

/-- **C68.** More resolutions than 32, or more than the tiles can be halved, are refused at the start of compression. -/
theorem C68_too_many_resolutions_refused (p : Params) (im : Image) (c : Coding) (hp : NoProfile p) (h : setup p im = .ok c)
    (hbad : 32 < p.numres ∨ (c.enc.tdx : Int) < 2 ^ (p.numres - 1).toNat ∨ (c.enc.tdy : Int) < 2 ^ (p.numres - 1).toNat) :
    validate c = .error .refused := by
  obtain ⟨p1, p2, t, ts, hc⟩ := setup_inv h
  have hp2 := came_plain hc hp
  obtain ⟨_, hcs⟩ := hc.tile_is.2 0 t (by simp)
  obtain ⟨hl, hi⟩ := components_inv _ _ _ hcs
  have henc : c.enc.tccps = t.tccps := by rw [hc.is]
  have hg := hc.good.1
  cases htc : t.tccps with
  | nil => rw [htc] at hl; exact absurd (List.length_eq_zero_iff.1 hl.symm) hc.comps
  | cons x l =>
    obtain ⟨y, _, hy⟩ := hi 0 x (by rw [htc]; rfl)
    have hn : (x.numres : Int) = p.numres := by
      rw [hy.numres, hp2, settled_eq]
      exact u32_of (by dsimp only; omega) (by dsimp only; omega)
    have e : (p.numres - 1).toNat = x.numres - 1 := by omega
    rw [e] at hbad
    have hbad' : 32 < x.numres ∨ c.enc.tdx < 2 ^ (x.numres - 1) ∨ c.enc.tdy < 2 ^ (x.numres - 1) := by
      rcases hbad with h | h | h
      · left; omega
      · right; left; exact_mod_cast h
      · right; right; exact_mod_cast h
    unfold validate
    rw [henc, htc]
    dsimp only
    by_cases h1 : x.numres = 0 ∨ 32 < x.numres
    · unfold refuseIf; rw [if_pos h1]; rfl
    rw [Hdr.refuse_bind h1]
    by_cases h2 : c.enc.tdx < 2 ^ (x.numres - 1)
    · unfold refuseIf; rw [if_pos h2]; rfl
    rw [Hdr.refuse_bind h2]
    by_cases h3 : c.enc.tdy < 2 ^ (x.numres - 1)
    · unfold refuseIf; rw [if_pos h3]
    omega

example : ∃ c, setup { numres := 9 } ⟨0, 0, 255, 300, [{ prec := 8, sgnd := 0, dx := 1, dy := 1 }]⟩ = .ok c ∧ c.enc.tdx = 255 := by
  have hk : (match setup { numres := 9 } ⟨0, 0, 255, 300, [{ prec := 8, sgnd := 0, dx := 1, dy := 1 }]⟩ with
    | .ok c => c.enc.tdx == 255
    | .error _ => false) = true := by decide +kernel
  split at hk
  · rename_i c hc
    exact ⟨c, hc, by simpa using hk⟩
  · cases hk

/-! ## Progression order changes -/

/-- A progression order change as a tile carries it, with `n` components in the image. -/
def carried (n : Nat) (q : Change) : Pi.Poc :=
  { resno0 := q.resno0, compno0 := q.compno0, layno1 := q.layno1, resno1 := q.resno1, compno1 := min q.compno1 n, prg := q.prg1 }

/-- The changes asked for tile `k` (they count tiles from 1). -/
def askedChanges (p : Params) (k : Nat) : List Change := (p.pocs.take p.numpocs).filter fun q => k + 1 == q.tile

theorem tilePocs_is {l : List Change} {n t : Nat} : ∀ (k i : Nat) (acc r : List Pi.Poc), acc = (l.take acc.length).map (carried n) →
    tilePocs l n t k i acc = .ok r →
    r = (l.take (acc.length + (((l.drop i).take k).filter fun q => t + 1 == q.tile).length)).map (carried n) ∧
    (∀ q ∈ (l.take r.length).drop acc.length, q.compno0 < n)
  | 0, i, acc, r, ha, h => by
    unfold tilePocs at h
    obtain rfl := Except.ok.inj h
    refine ⟨by simpa using ha, ?_⟩
    intro q hq
    rw [List.drop_eq_nil_of_le (by simp)] at hq
    cases hq
  | k + 1, i, acc, r, ha, h => by
    unfold tilePocs at h
    split at h
    · rename_i c q h1 h2
      have hd : (l.drop i).take (k + 1) = c :: (l.drop (i + 1)).take k := by
        obtain ⟨hi, e⟩ := List.getElem?_eq_some_iff.1 h1
        rw [List.drop_eq_getElem_cons hi, e]
        rfl
      rw [hd]
      split at h
      · rename_i ht
        obtain ⟨hn, h⟩ := refuse_ok h
        have hacc : (acc ++ [carried n q]).length = acc.length + 1 := by simp
        have := tilePocs_is k (i + 1) (acc ++ [carried n q]) r (by
          rw [hacc, List.take_add_one, h2]
          rw [List.map_append, ← ha]
          rfl) h
        rw [hacc] at this
        have hf : ((c :: (l.drop (i + 1)).take k).filter fun q => t + 1 == q.tile).length =
            (((l.drop (i + 1)).take k).filter fun q => t + 1 == q.tile).length + 1 := by
          rw [List.filter_cons_of_pos (by simpa using ht)]
          rfl
        rw [hf]
        refine ⟨?_, ?_⟩
        · rw [this.1]
          congr 2
          omega
        · intro x hx
          have hrl : acc.length < r.length ∨ r.length ≤ acc.length := by omega
          rcases hrl with hrl | hrl
          · obtain ⟨hj, e⟩ := List.getElem?_eq_some_iff.1 h2
            have hj' : acc.length < (l.take r.length).length := by simp; omega
            rw [List.drop_eq_getElem_cons hj'] at hx
            rcases List.mem_cons.1 hx with rfl | hx
            · rw [List.getElem_take, e]; omega
            · exact this.2 x hx
          · rw [List.drop_eq_nil_of_le (by simp; omega)] at hx
            cases hx
      · rename_i ht
        rw [List.filter_cons_of_neg (by simpa using ht)]
        exact tilePocs_is k (i + 1) acc r ha h
    · cases h

/-- **C68** (in part). A tile carries the progression order changes asked for it, in their order and with the last component cut to those there are,
if they come first in the list of changes: the same tile for all changes is one such case. -/
theorem C68_changes_first_partial (p : Params) (im : Image) (c : Coding) (hp : NoProfile p) (h : setup p im = .ok c) (k : Nat) (t : Tile)
    (ht : c.tiles[k]? = some t) (hfirst : askedChanges p k = p.pocs.take (askedChanges p k).length) :
    t.pocs = (askedChanges p k).map (carried im.comps.length) ∧ ∀ q ∈ askedChanges p k, q.compno0 < im.comps.length := by
  obtain ⟨p1, p2, t0, ts, hc⟩ := setup_inv h
  have hp2 := came_plain hc hp
  have htl : c.tiles = t0 :: ts := by rw [hc.is]
  rw [htl] at ht
  obtain ⟨hpoc, _⟩ := hc.tile_is.2 k t ht
  have e1 : p2.pocs = p.pocs := by rw [hp2, settled_eq]
  have e2 : p2.numpocs = p.numpocs := by rw [hp2, settled_eq]
  rw [e1, e2] at hpoc
  have := tilePocs_is _ _ _ _ (by simp) hpoc
  simp only [List.length_nil, Nat.zero_add, List.drop_zero] at this
  have e3 : ((p.pocs.take p.numpocs).filter fun q => k + 1 == q.tile).length = (askedChanges p k).length := rfl
  rw [e3, ← hfirst] at this
  refine ⟨this.1, ?_⟩
  intro q hq
  apply this.2
  have hl : t.pocs.length = (askedChanges p k).length := by rw [this.1]; simp
  rw [hl, ← hfirst]
  exact hq

/-- Two tiles, a change for the first one. -/
def changeSample : Params :=
  { tileSizeOn := true, tdx := 32, tdy := 64, numres := 3,
    pocs := [{ tile := 1, resno1 := 2, compno1 := 9, layno1 := 1, prg1 := 3 }, { tile := 2, resno1 := 3, compno1 := 1, layno1 := 1, prg1 := 1 }] ++
      List.replicate 30 {}, numpocs := 2 }

def changeImage : Image := ⟨0, 0, 64, 64, [{ prec := 8, sgnd := 0, dx := 1, dy := 1 }]⟩

example : NoProfile changeSample ∧ (∃ c, setup changeSample changeImage = .ok c) ∧
    askedChanges changeSample 0 = changeSample.pocs.take (askedChanges changeSample 0).length ∧ (askedChanges changeSample 0).length = 1 := by
  have hk : (match setup changeSample changeImage with
    | .ok _ => true
    | .error _ => false) = true := by decide +kernel
  refine ⟨by unfold NoProfile; decide, ?_, by decide, by decide⟩
  split at hk
  · rename_i c hc
    exact ⟨c, hc⟩
  · cases hk

/-- **False of the code.** With a change for each of two tiles, the second tile carries the change of the first one. -/
theorem C68_changes_mixed_up : ∃ c t, setup changeSample changeImage = .ok c ∧ c.tiles[1]? = some t ∧
    t.pocs ≠ (askedChanges changeSample 1).map (carried 1) ∧ t.pocs = (askedChanges changeSample 0).map (carried 1) := by
  have hk : (match setup changeSample changeImage with
    | .ok c =>
      match c.tiles[1]? with
      | some t => decide (t.pocs ≠ (askedChanges changeSample 1).map (carried 1) ∧ t.pocs = (askedChanges changeSample 0).map (carried 1))
      | none => false
    | .error _ => false) = true := by decide +kernel
  split at hk
  · rename_i c hc
    split at hk
    · rename_i t ht
      exact ⟨c, t, hc, ht, of_decide_eq_true hk⟩
    · cases hk
  · cases hk

end Jp2.Setup

import Verif.Jp2.SetupLemmas
import Verif.Jp2.HdrSafe3
/-!
# The setup of the encoder does not fail
-/
namespace Jp2.Setup
open Jp2.Hdr (R Fail refuseIf Comp Tccp Post refuseIf_post)

/-- Code-blocks and resolutions as they may be asked for. -/
def GoodBlocks (p : Params) : Prop :=
  (1 ≤ p.numres ∧ p.numres ≤ 33) ∧ ∃ a b : Nat, p.cblockw = 2 ^ a ∧ p.cblockh = 2 ^ b ∧ 2 ≤ a ∧ 2 ≤ b ∧ a + b ≤ 12

theorem log2_post {s : Int} (h0 : 1 ≤ s) (h : s < 2 ^ 31) : Post (log2 s) fun k => (2 : Int) ^ k ≤ s ∧ s < 2 ^ (k + 1) := by
  obtain ⟨k, h1, h2⟩ := log2_int h0 h
  rw [h1]
  exact Post.ok h2

theorem checkRanges_post (p : Params) : Post (checkRanges p) fun _ => GoodBlocks p := by
  unfold checkRanges
  refine Post.bind (refuseIf_post _) fun _ h1 => Post.bind (refuseIf_post _) fun _ h2 => Post.bind (refuseIf_post _) fun _ h3 =>
    Post.bind (refuseIf_post _) fun _ h4 => Post.bind (log2_post (by omega) (by omega)) fun w hw =>
    Post.bind (log2_post (by omega) (by omega)) fun h hh => Post.bind (refuseIf_post _) fun _ h5 =>
    Post.bind (refuseIf_post _) fun _ h6 => Post.bind (refuseIf_post _) fun _ _ => Post.bind (refuseIf_post _) fun _ _ =>
    (refuseIf_post _).mono fun _ _ => ?_
  have e1 : p.cblockw = 2 ^ w := by simpa using h5
  have e2 : p.cblockh = 2 ^ h := by simpa using h6
  refine ⟨by omega, w, h, e1, e2, ?_, ?_, ?_⟩
  · by_contra hc
    have : (2 : Int) ^ (w + 1) ≤ 2 ^ 2 := pow_le_pow_right₀ (by omega) (by omega)
    omega
  · by_contra hc
    have : (2 : Int) ^ (h + 1) ≤ 2 ^ 2 := pow_le_pow_right₀ (by omega) (by omega)
    omega
  · by_contra hc
    have : (2 : Int) ^ 13 ≤ 2 ^ (w + h) := pow_le_pow_right₀ (by omega) (by omega)
    rw [pow_add, ← e1, ← e2] at this
    omega

/-- What has to be minded for the encoder not to be stopped by an arithmetic or index error. -/
structure Sane (p : Params) (im : Image) : Prop where
  layers : 0 ≤ p.layers ∧ p.layers ≤ 100
  arrays : p.pocs.length = 32 ∧ p.prcw.length = 33 ∧ p.prch.length = 33
  sizes : ∀ s, s ∈ p.prcw ∨ s ∈ p.prch → s < 2 ^ 31
  changes : p.numpocs ≤ 32
  image : (0 < im.x1 ∧ im.x1 < 2 ^ 32) ∧ (0 < im.y1 ∧ im.y1 < 2 ^ 32)
  /-- With tiles, their origin lies within the image's extent. -/
  tiles : p.tileSizeOn = true → u32 p.tx0 ≤ im.x1 ∧ u32 p.ty0 < im.y1
  comps : im.comps ≠ []
  prec : ∀ c ∈ im.comps, c.sgnd = 0 → 1 ≤ c.prec ∧ c.prec ≤ 32
  /-- With precincts, at least one size is given; two, with 33 resolutions; and no more than the array holds. -/
  precincts : p.csty % 2 = 1 → 1 ≤ p.resSpec ∧ (p.numres = 33 → 2 ≤ p.resSpec)
  spec : p.resSpec ≤ 33

/-- What is left to be minded once the profiles have been dealt with. -/
structure Ready (p : Params) (im : Image) : Prop where
  numres : 1 ≤ p.numres ∧ p.numres ≤ 33
  cblk : (1 ≤ p.cblockw ∧ p.cblockw < 2 ^ 31) ∧ (1 ≤ p.cblockh ∧ p.cblockh < 2 ^ 31)
  arrays : p.numpocs ≤ p.pocs.length ∧ p.prcw.length = 33 ∧ p.prch.length = 33
  sizes : ∀ s, s ∈ p.prcw ∨ s ∈ p.prch → s < 2 ^ 31
  tiles : p.tileSizeOn = true → u32 p.tx0 ≤ im.x1 ∧ u32 p.ty0 < im.y1
  precincts : p.csty % 2 = 1 → 1 ≤ p.resSpec ∧ (p.numres = 33 → 2 ≤ p.resSpec)

theorem fill_len {l : List Int} {n : Nat} {x : Int} (h : n ≤ l.length) : (fill l n x).length = l.length := by
  unfold fill; simp; omega

theorem fill_mem {l : List Int} {n : Nat} {x s : Int} (h : s ∈ fill l n x) : s = x ∨ s ∈ l := by
  unfold fill at h
  rcases List.mem_append.1 h with h | h
  · left; exact List.eq_of_mem_replicate h
  · right; exact List.mem_of_mem_drop h

theorem profilePrecincts_ready {p : Params} {im : Image} (hr : 1 ≤ p.numres ∧ p.numres ≤ 33)
    (hc : (1 ≤ p.cblockw ∧ p.cblockw < 2 ^ 31) ∧ (1 ≤ p.cblockh ∧ p.cblockh < 2 ^ 31))
    (ha : p.numpocs ≤ p.pocs.length ∧ p.prcw.length = 33 ∧ p.prch.length = 33)
    (hs : ∀ s, s ∈ p.prcw ∨ s ∈ p.prch → s < 2 ^ 31) (ht : p.tileSizeOn = true → u32 p.tx0 ≤ im.x1 ∧ u32 p.ty0 < im.y1) :
    Ready (profilePrecincts p) im := by
  unfold profilePrecincts
  split
  · rename_i h1
    refine ⟨hr, hc, ⟨ha.1, ?_, ?_⟩, ?_, ht, fun _ => ⟨by dsimp only; omega, by dsimp only; omega⟩⟩
    · dsimp only; rw [fill_len (by omega)]; exact ha.2.1
    · dsimp only; rw [fill_len (by omega)]; exact ha.2.2
    · rintro s (h | h)
      · rcases fill_mem h with rfl | h
        · norm_num
        · exact hs s (Or.inl h)
      · rcases fill_mem h with rfl | h
        · norm_num
        · exact hs s (Or.inr h)
  · refine ⟨hr, hc, ⟨ha.1, ?_, ?_⟩, ?_, ht, fun _ => ⟨by dsimp only; omega, by dsimp only; omega⟩⟩
    · dsimp only; rw [fill_len (by omega)]; exact ha.2.1
    · dsimp only; rw [fill_len (by omega)]; exact ha.2.2
    · rintro s (h | h)
      · rcases fill_mem h with rfl | h
        · norm_num
        · exact hs s (Or.inl h)
      · rcases fill_mem h with rfl | h
        · norm_num
        · exact hs s (Or.inr h)

theorem cinemaRes_range {rsiz : Nat} {n : Int} (h : 1 ≤ n ∧ n ≤ 33) : 1 ≤ cinemaRes rsiz n ∧ cinemaRes rsiz n ≤ 33 := by
  unfold cinemaRes
  split
  · split <;> omega
  · split
    · split
      · omega
      · split <;> omega
    · exact h

theorem shrinkRes_range {x y : Nat} (hx : 0 < x) (hy : 0 < y) : ∀ n, 0 < n → 1 ≤ shrinkRes x y n ∧ shrinkRes x y n ≤ n
  | 1, _ => by
    have : shrinkRes x y 1 = 1 := by
      unfold shrinkRes
      rw [if_neg (by simp; omega), if_pos (by simp; omega)]
    omega
  | n + 2, _ => by
    have := shrinkRes_range hx hy (n + 1) (by omega)
    unfold shrinkRes
    split
    · omega
    · split <;> omega

theorem imfMaxNL_range (p : Params) (im : Image) : imfMaxNL p im ≤ 7 := by
  unfold imfMaxNL
  dsimp only
  repeat' split
  all_goals omega

theorem imfRes_range {p : Params} {im : Image} (h : 1 ≤ p.numres ∧ p.numres ≤ 33) (hx : 0 < im.x1) (hy : 0 < im.y1) :
    1 ≤ imfRes p im ∧ imfRes p im ≤ 33 := by
  unfold imfRes
  split
  · rename_i h6
    dsimp only
    have hn : 1 ≤ (if 0 ≤ imfMaxNL p im ∧ imfMaxNL p im < p.numres then imfMaxNL p im + 1 else p.numres) ∧
        (if 0 ≤ imfMaxNL p im ∧ imfMaxNL p im < p.numres then imfMaxNL p im + 1 else p.numres) ≤ 33 := by split <;> omega
    split
    · exact hn
    · have := shrinkRes_range hx hy _ (show 0 < (if 0 ≤ imfMaxNL p im ∧ imfMaxNL p im < p.numres then imfMaxNL p im + 1 else p.numres).toNat by
        omega)
      omega
  · exact h

theorem setCinema_ready {p : Params} {im : Image} (hg : GoodBlocks p) (hs : Sane p im) : Ready (setCinema p) im := by
  unfold setCinema
  dsimp only
  have hlen := hs.arrays
  have hch := hs.changes
  obtain ⟨q, hq⟩ : ∃ q : Params, q = { p with
    tileSizeOn := false, tdx := 1, tdy := 1, tpFlag := 67, tpOn := true, tx0 := 0, ty0 := 0, cblockw := 32, cblockh := 32, mode := 0,
    roiComp := -1, irreversible := 1, layers := if 1 < p.layers then 1 else p.layers, numres := cinemaRes p.rsiz p.numres } := ⟨_, rfl⟩
  have hR : Ready (profilePrecincts q) im := by
    apply profilePrecincts_ready
    · rw [hq]; exact cinemaRes_range hg.1
    · rw [hq]; exact ⟨⟨by norm_num, by norm_num⟩, by norm_num, by norm_num⟩
    · rw [hq]; exact ⟨by dsimp only; omega, hlen.2⟩
    · rw [hq]; exact hs.sizes
    · rw [hq]; intro h; cases h
  have hp : (profilePrecincts q).pocs.length = 32 := by
    have : (profilePrecincts q).pocs = p.pocs := by
      have h1 : (profilePrecincts q).pocs = q.pocs := by unfold profilePrecincts; by_cases h : q.numres = 1 <;> simp [h]
      rw [h1, hq]
    rw [this]; exact hlen.1
  rw [← hq]
  obtain ⟨a1, a2, a3, a4, a5, a6⟩ := hR
  split
  · exact ⟨a1, a2, ⟨by dsimp only; unfold pocs4k; simp, a3.2⟩, a4, a5, a6⟩
  · exact ⟨a1, a2, ⟨by dsimp only; omega, a3.2⟩, a4, a5, a6⟩

theorem good_cblk {p : Params} (hg : GoodBlocks p) : (1 ≤ p.cblockw ∧ p.cblockw < 2 ^ 31) ∧ (1 ≤ p.cblockh ∧ p.cblockh < 2 ^ 31) := by
  obtain ⟨_, a, b, e1, e2, ha, hb, hab⟩ := hg
  have w4 : (2 : Int) ^ 2 ≤ 2 ^ a := pow_le_pow_right₀ (by omega) ha
  have h4 : (2 : Int) ^ 2 ≤ 2 ^ b := pow_le_pow_right₀ (by omega) hb
  have w10 : (2 : Int) ^ a ≤ 2 ^ 10 := pow_le_pow_right₀ (by omega) (by omega)
  have h10 : (2 : Int) ^ b ≤ 2 ^ 10 := pow_le_pow_right₀ (by omega) (by omega)
  omega

theorem sane_ready {p : Params} {im : Image} (hg : GoodBlocks p) (hs : Sane p im) : Ready p im :=
  ⟨hg.1, good_cblk hg, ⟨by have := hs.arrays; have := hs.changes; omega, hs.arrays.2⟩, hs.sizes, hs.tiles, hs.precincts⟩

theorem setImf_ready {p : Params} {im : Image} (hg : GoodBlocks p) (hs : Sane p im) : Ready (setImf p im) im := by
  have hlen := hs.arrays
  have hch := hs.changes
  have hcb := good_cblk hg
  unfold setImf
  dsimp only
  obtain ⟨q, hq⟩ : ∃ q : Params, q = if p.cblockw = 64 ∧ p.cblockh = 64 then { p with cblockw := 32, cblockh := 32 } else p := ⟨_, rfl⟩
  rw [← hq]
  have q1 : q.numres = p.numres ∧ q.pocs = p.pocs ∧ q.numpocs = p.numpocs ∧ q.prcw = p.prcw ∧ q.prch = p.prch ∧ q.tileSizeOn = p.tileSizeOn ∧
      q.tx0 = p.tx0 ∧ q.ty0 = p.ty0 ∧ q.csty = p.csty ∧ q.resSpec = p.resSpec := by
    rw [hq]; split <;> exact ⟨rfl, rfl, rfl, rfl, rfl, rfl, rfl, rfl, rfl, rfl⟩
  have q2 : (1 ≤ q.cblockw ∧ q.cblockw < 2 ^ 31) ∧ (1 ≤ q.cblockh ∧ q.cblockh < 2 ^ 31) := by
    rw [hq]
    split
    · exact ⟨⟨by norm_num, by norm_num⟩, by norm_num, by norm_num⟩
    · exact hcb
  obtain ⟨n1, n2, n3, n4, n5, n6, n7, n8, n9, n10⟩ := q1
  have hri := imfRes_range (p := q) (im := im) (by rw [n1]; exact hg.1) hs.image.1.1 hs.image.2.1
  split
  · apply profilePrecincts_ready
    · exact hri
    · exact q2
    · dsimp only; rw [n2, n3, n4, n5]; exact ⟨by omega, hlen.2⟩
    · dsimp only; rw [n4, n5]; exact hs.sizes
    · dsimp only; rw [n6, n7, n8]; exact hs.tiles
  · rename_i hc
    refine ⟨hri, q2, ?_, ?_, ?_, ?_⟩
    · dsimp only; rw [n2, n3, n4, n5]; exact ⟨by omega, hlen.2⟩
    · dsimp only; rw [n4, n5]; exact hs.sizes
    · dsimp only; rw [n6, n7, n8]; exact hs.tiles
    · dsimp only
      intro h
      rw [n9] at h
      have := hs.precincts h
      rw [n10]
      refine ⟨this.1, fun h33 => ?_⟩
      apply this.2
      unfold imfRes at h33
      split at h33
      · rename_i h6
        dsimp only at h33
        have hn : (if 0 ≤ imfMaxNL q im ∧ imfMaxNL q im < q.numres then imfMaxNL q im + 1 else q.numres) ≤ 8 := by
          have := imfMaxNL_range q im
          split <;> omega
        split at h33
        · omega
        · by_cases hpos : 0 < (if 0 ≤ imfMaxNL q im ∧ imfMaxNL q im < q.numres then imfMaxNL q im + 1 else q.numres).toNat
          · have := shrinkRes_range hs.image.1.1 hs.image.2.1 _ hpos
            omega
          · rw [Nat.eq_zero_of_not_pos hpos] at h33
            simp [shrinkRes] at h33
      · omega

theorem rsiz_ready {p : Params} {im : Image} (h : Ready p im) (r : Nat) : Ready { p with rsiz := r } im := by
  obtain ⟨a1, a2, a3, a4, a5, a6⟩ := h
  exact ⟨a1, a2, a3, a4, a5, a6⟩

theorem setImf_spec {p : Params} {im : Image} (h : p.resSpec ≤ 33) (hx : 0 < im.x1) (hy : 0 < im.y1) (hr : 1 ≤ p.numres ∧ p.numres ≤ 33) :
    (setImf p im).resSpec ≤ 33 := by
  unfold setImf
  dsimp only
  obtain ⟨q, hq⟩ : ∃ q : Params, q = if p.cblockw = 64 ∧ p.cblockh = 64 then { p with cblockw := 32, cblockh := 32 } else p := ⟨_, rfl⟩
  rw [← hq]
  have q1 : q.numres = p.numres ∧ q.resSpec = p.resSpec := by
    rw [hq]; split <;> exact ⟨rfl, rfl⟩
  have hri := imfRes_range (p := q) (im := im) (by rw [q1.1]; exact hr) hx hy
  split
  · unfold profilePrecincts
    dsimp only
    by_cases h1 : imfRes q im = 1
    · rw [if_pos h1]
      dsimp only
      omega
    · rw [if_neg h1]
      dsimp only
      omega
  · dsimp only
    omega

theorem profiles_post {p : Params} {im : Image} (hg : GoodBlocks p) (hs : Sane p im) : Post (profiles p im) fun q => Ready q im := by
  have hR := sane_ready hg hs
  unfold profiles
  refine Post.ite (fun _ => Post.ite (fun _ => Post.ok (rsiz_ready hR 0)) fun _ => ?_) fun _ => ?_
  · dsimp only
    exact Post.ite (fun _ => Post.ok (setCinema_ready hg hs)) fun _ => Post.ok (rsiz_ready (setCinema_ready hg hs) 0)
  refine Post.ite (fun _ => Post.ok (rsiz_ready hR 0)) fun _ => Post.ite (fun _ => Post.ok (rsiz_ready hR 0)) fun _ =>
    Post.ite (fun _ => ?_) fun _ => ?_
  · dsimp only
    have := setImf_spec hs.spec hs.image.1.1 hs.image.2.1 hg.1
    rw [if_neg (by omega)]
    exact Post.ite (fun _ => Post.ok (setImf_ready hg hs)) fun _ => Post.ok (rsiz_ready (setImf_ready hg hs) 0)
  · exact Post.ite (fun _ => Post.ite (fun _ => Post.ok hR) fun _ => Post.ok (rsiz_ready hR 0)) fun _ => Post.ok hR

theorem u32_lt (x : Int) : u32 x < 2 ^ 32 := by unfold u32; omega

theorem grid_post {p : Params} {im : Image} (hr : Ready p im) (hx : im.x1 < 2 ^ 32) (hy : im.y1 < 2 ^ 32) : Post (grid p im) fun _ => True := by
  unfold grid
  refine Post.ite (fun ht => ?_) fun _ => Post.ok trivial
  obtain ⟨t1, t2⟩ := hr.tiles ht
  refine Post.bind (refuseIf_post _) fun _ h1 => Post.bind (refuseIf_post _) fun _ h2 => ?_
  rw [across_spec t1 hx (by omega) (u32_lt _), Hdr.ok_bind, across_spec (by omega) hy (by omega) (u32_lt _), Hdr.ok_bind]
  have : 0 < Hdr.cdiv (im.y1 - u32 p.ty0) (u32 p.tdy) := cdiv_pos (by omega) (by omega)
  rw [if_neg (by omega)]
  exact Post.bind (refuseIf_post _) fun _ _ => Post.pure trivial

theorem mapM_post {α β : Type} {f : α → R β} : ∀ l : List α, (∀ a ∈ l, Post (f a) fun _ => True) → Post (l.mapM f) fun bs => bs.length = l.length
  | [], _ => Post.ok rfl
  | a :: l, h => by
    rw [List.mapM_cons]
    exact Post.bind (h a (by simp)) fun b _ => Post.bind (mapM_post l fun x hx => h x (by simp [hx])) fun bs hbs =>
      Post.pure (by simp [hbs])

theorem tilePocs_post {l : List Change} {n t : Nat} : ∀ k i acc, i + k ≤ l.length → acc.length ≤ i → Post (tilePocs l n t k i acc) fun _ => True
  | 0, _, _, _, _ => Post.ok trivial
  | k + 1, i, acc, h, ha => by
    unfold tilePocs
    rw [List.getElem?_eq_getElem (by omega : i < l.length), List.getElem?_eq_getElem (by omega : acc.length < l.length)]
    dsimp only
    refine Post.ite (fun _ => Post.bind (refuseIf_post _) fun _ _ => tilePocs_post k (i + 1) _ (by omega) (by simp; omega)) fun _ =>
      tilePocs_post k (i + 1) _ (by omega) (by omega)

theorem exponent_post {s : Int} (h : s < 2 ^ 31) : Post (exponent s) fun _ => True := by
  unfold exponent
  exact Post.ite (fun _ => Post.ok trivial) fun h0 => (log2_post (by omega) h).mono fun _ _ => trivial

theorem precinct_post {l : List Int} {spec : Int} {k : Nat} (hl : l.length = 33) (hk : k < 33) (hs : ∀ s ∈ l, s < 2 ^ 31) (h1 : 1 ≤ spec)
    (h2 : k = 32 → 2 ≤ spec) : Post (precinct l spec k) fun _ => True := by
  unfold precinct
  refine Post.ite (fun _ => ?_) fun hlt => ?_
  · rw [List.getElem?_eq_getElem (by omega : k < l.length)]
    exact exponent_post (hs _ (List.getElem_mem _))
  · rw [if_neg (by omega), List.getElem?_eq_getElem (by omega : (spec - 1).toNat < l.length)]
    dsimp only
    rw [if_neg (by omega), Int.shiftRight_eq_div_pow]
    apply exponent_post
    have h3 := hs _ (List.getElem_mem (by omega : (spec - 1).toNat < l.length))
    obtain ⟨v, hv⟩ : ∃ v, v = l[(spec - 1).toNat]'(by omega) := ⟨_, rfl⟩
    rw [← hv] at h3 ⊢
    have hp : (0 : Int) < ((2 ^ (k - (spec - 1).toNat) : Nat) : Int) := by positivity
    rcases lt_or_ge v 0 with h | h
    · have := Int.ediv_neg_of_neg_of_pos h hp
      omega
    · have := Int.ediv_le_self ((2 ^ (k - (spec - 1).toNat) : Nat) : Int) h
      omega

theorem precincts_post {p : Params} {im : Image} (hr : Ready p im) : Post (precincts p (u32 p.numres)) fun _ => True := by
  have hn : ((u32 p.numres : Nat) : Int) = p.numres := u32_of (by have := hr.numres; omega) (by have := hr.numres; omega)
  unfold precincts
  refine Post.ite (fun hc => ?_) fun _ => Post.ok trivial
  obtain ⟨h1, h2⟩ := hr.precincts hc
  have hnr := hr.numres
  refine Post.bind (mapM_post _ fun r hr' => ?_) fun _ _ => Post.pure trivial
  have hr' : r < u32 p.numres := List.mem_range.1 hr'
  refine Post.bind (precinct_post hr.arrays.2.1 (by omega) (fun s h => hr.sizes s (Or.inl h)) h1 ?_) fun _ _ =>
    Post.bind (precinct_post hr.arrays.2.2 (by omega) (fun s h => hr.sizes s (Or.inr h)) h1 ?_) fun _ _ => Post.pure trivial
  · intro hk; apply h2; omega
  · intro hk; apply h2; omega

theorem encodeStep_post {s : Nat} {x : Int} (h0 : 1 ≤ s) (h : s ≤ 8192) : Post (encodeStep s x) fun _ => True := by
  unfold encodeStep
  exact Post.bind (log2_post (by omega) (by omega)) fun _ _ => Post.pure trivial

theorem steps_post {p : Params} (n prec : Nat) :
    Post (steps (if p.irreversible ≠ 0 then 2 else 0) (if p.irreversible ≠ 0 then 0 else 1) n prec) fun _ => True := by
  unfold steps
  refine Post.bind (mapM_post _ fun b _ => ?_) fun _ _ => Post.pure trivial
  unfold bandStep
  dsimp only
  by_cases hi : p.irreversible = 0
  · rw [if_pos (by simp [hi])]
    exact encodeStep_post (by omega) (by omega)
  · rw [if_neg (by simp [hi])]
    obtain ⟨_, n2, n3⟩ := norm_is (n - 1 - bandRes b) (bandOrient b) (orient_le b)
    have hg : gain (if p.irreversible ≠ 0 then 0 else 1) (bandOrient b) = 0 := by rw [if_pos hi]; rfl
    rw [hg]
    apply encodeStep_post
    · rw [Nat.le_div_iff_mul_le (by omega)]
      omega
    · apply Nat.div_le_of_le_mul
      omega

theorem component_post {p : Params} {im : Image} (hr : Ready p im) {i : Nat} {c : Comp} (hc : c.sgnd = 0 → 1 ≤ c.prec ∧ c.prec ≤ 32) :
    Post (component p i c) fun _ => True := by
  have hn : ((u32 p.numres : Nat) : Int) = p.numres := u32_of (by have := hr.numres; omega) (by have := hr.numres; omega)
  have hnr := hr.numres
  unfold component
  refine Post.bind (P := fun _ => True) ?_ fun sh _ => ?_
  · unfold shift
    refine Post.ite (fun h => ?_) fun _ => Post.ok trivial
    have := hc h
    rw [if_neg (by omega)]
    exact Post.ok trivial
  · dsimp only
    refine Post.bind (log2_post hr.cblk.1.1 hr.cblk.1.2) fun _ _ => Post.bind (log2_post hr.cblk.2.1 hr.cblk.2.2) fun _ _ => ?_
    rw [if_neg (by omega)]
    exact Post.bind (precincts_post hr) fun _ _ => Post.bind (steps_post _ _) fun _ _ => Post.pure trivial

theorem components_post {p : Params} {im : Image} (hr : Ready p im) : ∀ (cs : List Comp) (i : Nat),
    (∀ c ∈ cs, c.sgnd = 0 → 1 ≤ c.prec ∧ c.prec ≤ 32) → Post (components p i cs) fun ts => ts.length = cs.length
  | [], _, _ => Post.ok rfl
  | c :: cs, i, h => by
    unfold components
    exact Post.bind (component_post hr (h c (by simp))) fun _ _ =>
      Post.bind (components_post hr cs (i + 1) fun x hx => h x (by simp [hx])) fun ts hts => Post.pure (by simp [hts])

theorem deprecated_eq (p : Params) : ∃ r, deprecated p = { p with rsiz := r } := by
  unfold deprecated
  split
  · exact ⟨_, rfl⟩
  · exact ⟨p.rsiz, rfl⟩

theorem tile_post {p : Params} {im : Image} {t : Nat} (hr : Ready p im) (hc : ∀ c ∈ im.comps, c.sgnd = 0 → 1 ≤ c.prec ∧ c.prec ≤ 32) :
    Post (tile p im t) fun x => x.tccps.length = im.comps.length := by
  unfold tile
  exact Post.bind (tilePocs_post _ _ _ (by have := hr.arrays.1; omega) (by simp)) fun _ _ =>
    Post.bind (components_post hr _ _ hc) fun ts hts => Post.pure hts

theorem mapM_post_all {α β : Type} {f : α → R β} {Q : β → Prop} : ∀ l : List α, (∀ a ∈ l, Post (f a) Q) →
    Post (l.mapM f) fun bs => bs.length = l.length ∧ ∀ b ∈ bs, Q b
  | [], _ => Post.ok ⟨rfl, by simp⟩
  | a :: l, h => by
    rw [List.mapM_cons]
    refine Post.bind (h a (by simp)) fun b hb => Post.bind (mapM_post_all l fun x hx => h x (by simp [hx])) fun bs hbs => Post.pure ⟨?_, ?_⟩
    · simp [hbs.1]
    · intro x hx
      rcases List.mem_cons.1 hx with rfl | hx
      · exact hb
      · exact hbs.2 x hx

theorem setup_post {p : Params} {im : Image} (hs : Sane p im) : Post (setup p im) fun c => c.enc.tccps ≠ [] := by
  unfold setup
  refine Post.bind (checkRanges_post p) fun _ hg => ?_
  rw [if_neg hs.comps]
  obtain ⟨r, hr⟩ := deprecated_eq p
  have hg1 : GoodBlocks (settled { p with rsiz := r }) := by rw [settled_eq]; exact hg
  have hs1 : Sane (settled { p with rsiz := r }) im := by
    rw [settled_eq]
    obtain ⟨a1, a2, a3, a4, a5, a6, a7, a8, a9, a10⟩ := hs
    exact ⟨by dsimp only; split <;> omega, a2, a3, a4, a5, a6, a7, a8, a9, a10⟩
  rw [hr, fixLayers_settled (p := { p with rsiz := r }) hs.layers, Hdr.ok_bind]
  refine Post.bind (profiles_post hg1 hs1) fun p2 hp2 => Post.bind (grid_post hp2 hs.image.1.2 hs.image.2.2) fun g _ =>
    Post.bind (refuseIf_post _) fun _ h0 => Post.bind (mapM_post_all _ fun t _ => tile_post (t := t) hp2 hs.prec) fun ts hts => ?_
  cases ts with
  | nil =>
    have := hts.1
    rw [List.length_nil, List.length_range] at this
    exact absurd this.symm h0
  | cons t l =>
    refine Post.pure ?_
    dsimp only
    intro hc
    have := hts.2 t (by simp)
    rw [hc] at this
    exact hs.comps (List.length_eq_zero_iff.1 (by simpa using this.symm))

end Jp2.Setup

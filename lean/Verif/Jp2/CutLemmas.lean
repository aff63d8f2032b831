import Verif.Jp2.CutSpec
import Verif.Jp2.AreaTile
import Verif.Jp2.CioProps
/-!
# Lemmas on cutting an image into tiles
-/
namespace Jp2.Cut
open Jp2.Hdr (R Fail)
open Jp2.Setup (u32)
open Jp2.Tcd (asI32 Rect CompP cdiv compRect RectOk tileRectOf)
open Jp2.Area (opt i32 sub Box render render_get u32_of sub_of i32_of ok_bind opt_some)

/-! ## Bytes -/

theorem bytes_le {p : Nat} (h1 : 1 ≤ p) (h : p ≤ 32) : (bytes p = 1 ∧ p ≤ 8) ∨ (bytes p = 2 ∧ 8 < p ∧ p ≤ 16) ∨ (bytes p = 4 ∧ 16 < p) := by
  unfold bytes
  dsimp only
  split <;> split <;> omega

theorem store_length (s : Nat) (v : Int) : (store s v).length = s := by
  unfold store; rw [List.length_reverse, Cio.toBe_length]

theorem load_small {s : Nat} {v : Int} (hs : s = 1 ∨ s = 2) (h0 : 0 ≤ v) (h1 : v < 2 ^ (8 * s)) : load s (store s v) = v := by
  unfold load store
  rw [if_neg (by omega), List.reverse_reverse, Cio.fromBe_toBe, Int.emod_eq_of_lt h0 h1]
  rcases hs with rfl | rfl <;> norm_num at * <;> omega

theorem load_four {v : Int} (h0 : -2 ^ 31 ≤ v) (h1 : v < 2 ^ 31) : load 4 (store 4 v) = v := by
  unfold load store
  rw [if_pos rfl, List.reverse_reverse, Cio.fromBe_toBe]
  unfold asI32 wrap Int.bmod
  norm_num at *
  split <;> omega

theorem load_keeps {c : CompI} (h : Keeps c) : (bytes c.prec = 1 ∨ bytes c.prec = 2 ∨ bytes c.prec = 4) ∧
    ∀ v ∈ c.data, load (bytes c.prec) (store (bytes c.prec) v) = v := by
  rcases h with ⟨h1, h2, h3⟩ | ⟨h1, h2, h3⟩
  · rcases bytes_le h1 (by omega) with ⟨e, h⟩ | ⟨e, _, h⟩ | ⟨_, h⟩
    · refine ⟨Or.inl e, fun v hv => ?_⟩
      rw [e]
      exact load_small (Or.inl rfl) (h3 v hv).1 (lt_of_lt_of_le (h3 v hv).2 (pow_le_pow_right₀ (by norm_num) h))
    · refine ⟨Or.inr (Or.inl e), fun v hv => ?_⟩
      rw [e]
      exact load_small (Or.inr rfl) (h3 v hv).1 (lt_of_lt_of_le (h3 v hv).2 (pow_le_pow_right₀ (by norm_num) h))
    · omega
  · rcases bytes_le (by omega) h2 with ⟨_, h⟩ | ⟨_, _, h⟩ | ⟨e, _⟩
    · omega
    · omega
    · refine ⟨Or.inr (Or.inr e), fun v hv => ?_⟩
      rw [e]
      exact load_four (h3 v hv).1 (h3 v hv).2

theorem loadAll_store {s : Nat} : ∀ (xs : List Int) (tail : List UInt8), (∀ v ∈ xs, load s (store s v) = v) →
    loadAll s xs.length (xs.flatMap (store s) ++ tail) = xs
  | [], _, _ => rfl
  | v :: xs, tail, h => by
    have hl := store_length s v
    rw [List.flatMap_cons, List.append_assoc]
    show load s _ :: loadAll s xs.length _ = _
    rw [List.take_append_of_le_length (by omega), List.take_of_length_le (by omega), List.drop_append_of_le_length (by omega), List.drop_of_length_le (by omega),
      List.nil_append, h v (by simp), loadAll_store xs tail fun w hw => h w (by simp [hw])]

theorem flat_length {s : Nat} (xs : List Int) : (xs.flatMap (store s)).length = xs.length * s := by
  induction xs with
  | nil => simp
  | cons v xs ih => rw [List.flatMap_cons, List.length_append, store_length, ih, List.length_cons, Nat.succ_mul]; omega

/-! ## Rows -/

theorem rows_ok {data : List Int} {w step : Nat} : ∀ (n o : Nat), (∀ j, j < n → o + j * step + w ≤ data.length) →
    rows data w step n o = .ok ((List.range n).flatMap fun j => (data.drop (o + j * step)).take w)
  | 0, _, _ => by simp [rows]
  | n + 1, o, h => by
    unfold rows
    have h0 := h 0 (by omega)
    rw [if_neg (by omega), rows_ok n (o + step) fun j hj => by
      have := h (j + 1) (by omega)
      rw [Nat.succ_mul] at this
      omega]
    rw [ok_bind, List.range_succ_eq_map, List.flatMap_cons, List.flatMap_map]
    have : ∀ j, o + (j + 1) * step = o + step + j * step := fun j => by rw [Nat.succ_mul]; omega
    simp only [Nat.zero_mul, Nat.add_zero, Nat.succ_eq_add_one, this]
    rfl

/-- The rectangle lies in the other one. -/
structure Inside (r s : Rect) : Prop where
  x0 : s.x0 ≤ r.x0
  x1 : r.x1 ≤ s.x1
  y0 : s.y0 ≤ r.y0
  y1 : r.y1 ≤ s.y1

theorem rows_render {P : Int → Int → Int} {r s : Rect} (h : Inside r s) (hw : r.x0 < r.x1) (hy : r.y0 < r.y1) :
    rows (render P s) (r.x1 - r.x0).toNat (s.x1 - s.x0).toNat (r.y1 - r.y0).toNat ((r.x0 - s.x0).toNat + (r.y0 - s.y0).toNat * (s.x1 - s.x0).toNat) =
      .ok (render P r) := by
  obtain ⟨hl, hg⟩ := render_get (P := P) (r := s)
  have a1 := h.x0; have a2 := h.x1; have a3 := h.y0; have a4 := h.y1
  have key : ∀ j, j < (r.y1 - r.y0).toNat → (r.x0 - s.x0).toNat + (r.y0 - s.y0).toNat * (s.x1 - s.x0).toNat + j * (s.x1 - s.x0).toNat + (r.x1 - r.x0).toNat ≤ (render P s).length := by
    intro j hj
    rw [hl]
    have : ((r.y0 - s.y0).toNat + j + 1) * (s.x1 - s.x0).toNat ≤ (s.y1 - s.y0).toNat * (s.x1 - s.x0).toNat := Nat.mul_le_mul_right _ (by omega)
    rw [Nat.succ_mul, Nat.add_mul] at this
    omega
  rw [rows_ok _ _ key]
  congr 1
  unfold render
  rw [List.flatMap_def, List.flatMap_def]
  congr 1
  refine List.map_congr_left fun j hj => ?_
  rw [List.mem_range] at hj
  have hk := key j hj
  refine List.ext_getElem? fun i => ?_
  by_cases hi : i < (r.x1 - r.x0).toNat
  · rw [List.getElem?_take_of_lt hi, List.getElem?_drop, List.getElem?_map, List.getElem?_range hi, Option.map_some]
    have := hg ((r.y0 - s.y0).toNat + j) ((r.x0 - s.x0).toNat + i) (by omega) (by omega)
    rw [show (r.x0 - s.x0).toNat + (r.y0 - s.y0).toNat * (s.x1 - s.x0).toNat + j * (s.x1 - s.x0).toNat + i = ((r.y0 - s.y0).toNat + j) * (s.x1 - s.x0).toNat + ((r.x0 - s.x0).toNat + i) by
      rw [Nat.add_mul]; omega]
    show (render P s)[_]? = _
    rw [this]
    congr 2 <;> omega
  · rw [List.getElem?_eq_none (by rw [List.length_take]; omega), List.getElem?_eq_none (by rw [List.length_map, List.length_range]; omega)]

/-! ## Components -/

theorem ceil_nat {a d : Nat} (ha : a < 2 ^ 32) (hd : 0 < d) (hd' : d < 2 ^ 32) : ∃ k : Nat, Math.uintCeildiv a d = some k ∧ (k : Int) = cdiv a d := by
  obtain ⟨k, h1, h2⟩ := Math.C26_uint_ceildiv a d ha hd' (by omega)
  exact ⟨k, h1, Tcd.ceil_eq (by omega) h2⟩

theorem getComp_ok {q : Tcd.Params} {P : Int → Int → Int} {p : CompP} {c : CompI} {r : Rect} (hx : q.x0 ≤ q.x1 ∧ q.x1 < 2 ^ 31) (hy : q.y0 ≤ q.y1 ∧ q.y1 < 2 ^ 31)
    (hdx : 0 < p.dx ∧ p.dx < 2 ^ 32) (hdy : 0 < p.dy ∧ p.dy < 2 ^ 32) (hs : Shows q P p c) (ha : Aligned q p) (hr : RectOk r)
    (hi : Inside r (compRect (area q) p)) (hw : r.x0 < r.x1) (hb : bytes c.prec = 1 ∨ bytes c.prec = 2 ∨ bytes c.prec = 4) :
    getComp ⟨q.x0, q.y0, q.x1, q.y1⟩ r c = .ok ((render P r).flatMap (store (bytes c.prec))) := by
  obtain ⟨kx, e1, f1⟩ := ceil_nat (a := q.x0) (d := p.dx) (by omega) hdx.1 hdx.2
  obtain ⟨ky, e2, f2⟩ := ceil_nat (a := q.y0) (d := p.dy) (by omega) hdy.1 hdy.2
  obtain ⟨kw, e3, f3⟩ := ceil_nat (a := q.x1 - q.x0) (d := p.dx) (by omega) hdx.1 hdx.2
  have i1 := hi.x0; have i2 := hi.x1; have i3 := hi.y0; have i4 := hi.y1
  have r1 := hr.x0; have r2 := hr.x; have r3 := hr.x1; have r4 := hr.y0; have r5 := hr.y; have r6 := hr.y1
  have w : (kw : Int) = (compRect (area q) p).x1 - (compRect (area q) p).x0 := by
    rw [f3, Nat.cast_sub hx.1, ha.1]; rfl
  have gx : (kx : Int) = (compRect (area q) p).x0 := f1
  have gy : (ky : Int) = (compRect (area q) p).y0 := f2
  have big := ha.2
  change ((compRect (area q) p).x1 - (compRect (area q) p).x0) * ((compRect (area q) p).y1 - (compRect (area q) p).y0) < 2 ^ 32 at big
  have l1 : kw = ((compRect (area q) p).x1 - (compRect (area q) p).x0).toNat := by omega
  have s1 : u32 (r.x1 - r.x0) = (r.x1 - r.x0).toNat := u32_of (by omega) (by omega)
  have s2 : u32 (r.y1 - r.y0) = (r.y1 - r.y0).toNat := u32_of (by omega) (by omega)
  have s3 : u32 r.x0 = r.x0.toNat := u32_of (by omega) (by omega)
  have s4 : u32 r.y0 = r.y0.toNat := u32_of (by omega) (by omega)
  have x1 : (compRect (area q) p).x1 < 2 ^ 31 := by
    have : (compRect (area q) p).x1 ≤ (area q).x1 := Tcd.cdiv_le_self (by omega) (by show (0 : Int) ≤ q.x1; omega)
    have : (area q).x1 = q.x1 := rfl
    omega
  unfold getComp dims
  rw [i32_of (by omega) (by omega), ok_bind, i32_of (by omega) (by omega), ok_bind, hs.dx, hs.dy, e1, opt_some, ok_bind, e2, opt_some, ok_bind, if_neg (by simp; omega), e3, opt_some]
  simp only [pure, Except.pure, bind, Except.bind]
  rw [if_pos hb, s1, s2, s3, s4, sub_of (by omega) (by omega), sub_of (by omega) (by omega), sub_of (by omega) (by omega), if_neg (by omega)]
  rw [show (r.x1 - r.x0).toNat + (kw - (r.x1 - r.x0).toNat) = kw by omega]
  by_cases h0 : r.y0 = r.y1
  · have z : (r.y1 - r.y0).toNat = 0 := by omega
    rw [z]
    have : render P r = [] := by unfold render; rw [z]; rfl
    rw [this]
    rfl
  · have lt : ((r.y0 - (compRect (area q) p).y0).toNat + 1) * kw ≤ ((compRect (area q) p).y1 - (compRect (area q) p).y0).toNat * kw := Nat.mul_le_mul_right _ (by omega)
    have lt2 : ((compRect (area q) p).y1 - (compRect (area q) p).y0).toNat * kw < 2 ^ 32 := by
      zify
      rw [Int.toNat_of_nonneg (by omega), w, mul_comm]
      exact big
    rw [Nat.succ_mul] at lt
    have d1 : r.x0.toNat - kx = (r.x0 - (compRect (area q) p).x0).toNat := by omega
    have d2 : r.y0.toNat - ky = (r.y0 - (compRect (area q) p).y0).toNat := by omega
    rw [d1, d2, Nat.mod_eq_of_lt (a := _ * kw) (by omega), Nat.mod_eq_of_lt (by omega), hs.data, l1, rows_render hi hw (by omega)]

theorem inside_tile {q : Tcd.Params} {n : Nat} {p : CompP} (hdx : 0 < p.dx) (hdy : 0 < p.dy) : Inside (compRect (tileRectOf q n) p) (compRect (area q) p) := by
  have a : (0 : Int) < p.dx := by omega
  have b : (0 : Int) < p.dy := by omega
  refine ⟨Tcd.cdiv_mono a ?_, Tcd.cdiv_mono a ?_, Tcd.cdiv_mono b ?_, Tcd.cdiv_mono b ?_⟩
  · exact Int.ofNat_le.2 (Nat.le_max_right _ _)
  · exact Int.ofNat_le.2 (Nat.min_le_right _ _)
  · exact Int.ofNat_le.2 (Nat.le_max_right _ _)
  · exact Int.ofNat_le.2 (Nat.min_le_right _ _)

theorem render_count {P : Int → Int → Int} {r : Rect} : (render P r).length = count r := by
  rw [(render_get (P := P) (r := r)).1, count, Nat.mul_comm]

theorem mem_render_inside {P : Int → Int → Int} {r s : Rect} (h : Inside r s) {v : Int} (hv : v ∈ render P r) : v ∈ render P s := by
  unfold render at hv ⊢
  simp only [List.mem_flatMap, List.mem_map, List.mem_range] at hv ⊢
  obtain ⟨j, hj, i, hi, e⟩ := hv
  have h1 := h.x0; have h2 := h.x1; have h3 := h.y0; have h4 := h.y1
  refine ⟨((r.y0 - s.y0).toNat + j), by omega, ((r.x0 - s.x0).toNat + i), by omega, ?_⟩
  rw [← e]
  congr 1 <;> omega

/-- What is known of one component for the buffer of bytes. -/
structure Good (q : Tcd.Params) (P : Int → Int → Int) (p : CompP) (c : CompI) (r : Rect) : Prop where
  get : getComp ⟨q.x0, q.y0, q.x1, q.y1⟩ r c = .ok ((render P r).flatMap (store (bytes c.prec)))
  size : bytes c.prec = 1 ∨ bytes c.prec = 2 ∨ bytes c.prec = 4
  back : ∀ v ∈ render P r, load (bytes c.prec) (store (bytes c.prec) v) = v

/-- The components of a tile with their planes. -/
inductive GoodAll (q : Tcd.Params) : List (Rect × CompI) → List (Int → Int → Int) → Prop
  | nil : GoodAll q [] []
  | cons {x l P Ps p} : Good q P p x.2 x.1 → GoodAll q l Ps → GoodAll q (x :: l) (P :: Ps)

def renders : List (Rect × CompI) → List (Int → Int → Int) → List (List Int)
  | x :: l, P :: Ps => render P x.1 :: renders l Ps
  | _, _ => []

theorem getTile_ok {q : Tcd.Params} {l : List (Rect × CompI)} {Ps : List (Int → Int → Int)} (h : GoodAll q l Ps) :
    ∃ o, getTile ⟨q.x0, q.y0, q.x1, q.y1⟩ l = .ok o ∧ o.length = inputSize l ∧ ∀ tail, copyComps l (o ++ tail) = .ok (renders l Ps) := by
  induction h with
  | nil => exact ⟨[], rfl, rfl, fun _ => rfl⟩
  | @cons x l P Ps p hg _ ih =>
    obtain ⟨o, h1, h2, h3⟩ := ih
    have hl : ((render P x.1).flatMap (store (bytes x.2.prec))).length = count x.1 * bytes x.2.prec := by rw [flat_length, render_count]
    refine ⟨(render P x.1).flatMap (store (bytes x.2.prec)) ++ o, ?_, ?_, fun tail => ?_⟩
    · unfold getTile
      rw [hg.get, ok_bind, h1]; rfl
    · rw [List.length_append, hl, h2]
      unfold inputSize
      rw [List.map_cons, List.sum_cons, Nat.mul_comm]
    · unfold copyComps
      dsimp only
      rw [if_pos hg.size, if_neg (by rw [List.append_assoc, List.length_append, hl]; omega), List.append_assoc,
        List.drop_append_of_le_length (by omega), List.drop_of_length_le (by omega), List.nil_append]
      show (do let rest ← copyComps l (o ++ tail); _) = _
      rw [h3 tail, ← render_count (P := P), loadAll_store _ _ hg.back]
      rfl

theorem cut_good {q : Tcd.Params} {l : List (Rect × CompI)} {Ps : List (Int → Int → Int)} (h : GoodAll q l Ps) (old : List UInt8) :
    cutTile false ⟨q.x0, q.y0, q.x1, q.y1⟩ old l = .ok (renders l Ps) := by
  obtain ⟨o, h1, h2, h3⟩ := getTile_ok h
  unfold cutTile
  rw [if_neg (by simp), h1, ok_bind, List.take_append_of_le_length (by omega), List.take_of_length_le (by omega)]
  unfold copyTile Hdr.refuseIf
  rw [if_neg (by omega), ok_bind]
  have := h3 []
  rwa [List.append_nil] at this

theorem good_of {q : Tcd.Params} {n : Nat} (hx : q.x0 ≤ q.x1 ∧ q.x1 < 2 ^ 31) (hy : q.y0 ≤ q.y1 ∧ q.y1 < 2 ^ 31) (ht : RectOk (tileRectOf q n))
    {ps : List CompP} {cs : List CompI} {Ps : List (Int → Int → Int)} (h : ShowsAll q ps cs Ps) (hf : ∀ p ∈ ps, Tcd.CompFit p) (ha : ∀ p ∈ ps, Aligned q p)
    (hw : ∀ p ∈ ps, (compRect (tileRectOf q n) p).x0 < (compRect (tileRectOf q n) p).x1) (hk : ∀ c ∈ cs, Keeps c) :
    GoodAll q ((ps.map fun p => compRect (tileRectOf q n) p).zip cs) Ps ∧
      renders ((ps.map fun p => compRect (tileRectOf q n) p).zip cs) Ps = tileSamples (tileRectOf q n) ps Ps := by
  induction h with
  | nil => exact ⟨.nil, rfl⟩
  | @cons p ps c cs P Ps hs _ ih =>
    obtain ⟨i1, i2⟩ := ih (fun p hp => hf p (by simp [hp])) (fun p hp => ha p (by simp [hp])) (fun p hp => hw p (by simp [hp])) (fun c hc => hk c (by simp [hc]))
    have fp := hf p (by simp)
    obtain ⟨k1, k2⟩ := load_keeps (hk c (by simp))
    have hi := inside_tile (q := q) (n := n) fp.dx.1 fp.dy.1
    rw [List.map_cons, List.zip_cons_cons]
    refine ⟨.cons (p := p) ⟨getComp_ok hx hy ⟨fp.dx.1, by have := fp.dx.2; omega⟩ ⟨fp.dy.1, by have := fp.dy.2; omega⟩ hs (ha p (by simp)) (Tcd.compRect_ok ht fp) hi (hw p (by simp)) k1, k1, ?_⟩ i1, ?_⟩
    · intro v hv
      refine k2 v ?_
      rw [hs.data]
      exact mem_render_inside hi hv
    · show _ :: _ = _ :: _
      rw [i2]

end Jp2.Cut

import Verif.Jp2.PipeBlocks
import Verif.Jp2.MctProps
/-!
# The stages before the block coder undone by the stages after the block decoder
-/
namespace Jp2.Pipe
open Tcd (Rect Band Prec TileC CompP RectOk compOf compRect resRect cdiv ressOf ressOf_get p2pos)
open Dwt (BdMem NoThin resAt resList ceilDiv2)

/-! ## Level shift -/

theorem dc_ok {m : Mode} {cx : CompX} {B : Int} (h1 : 1 ≤ cx.prec) (hB : 2 ^ (cx.prec - 1) ≤ B) (hB2 : B ≤ 2 ^ 29) : ∀ x : List Int,
    (∀ v ∈ x, cx.lo ≤ v ∧ v ≤ cx.hi) → ∃ y, dcEnc m cx.shift x = some y ∧ y.length = x.length ∧ (∀ v ∈ y, -B ≤ v ∧ v ≤ B) ∧
      dcDec m cx.shift cx.lo cx.hi y = some x
  | [], _ => ⟨[], rfl, rfl, by simp, rfl⟩
  | v :: x, h => by
    obtain ⟨y, e1, e2, e3, e4⟩ := dc_ok (m := m) h1 hB hB2 x fun v hv => h v (by simp [hv])
    have hv := h v (by simp)
    have hp : (2 : Int) ^ cx.prec = 2 * 2 ^ (cx.prec - 1) := by
      rw [← pow_succ', show cx.prec - 1 + 1 = cx.prec by omega]
    have hb : -B ≤ v - cx.shift ∧ v - cx.shift ≤ B := by
      unfold CompX.lo CompX.hi at hv
      unfold CompX.shift
      rw [hp] at hv
      split at hv <;> rename_i hs <;> [rw [if_pos hs]; rw [if_neg hs]] <;> omega
    have hr : -2 ^ 31 ≤ v ∧ v < 2 ^ 31 := by
      unfold CompX.lo CompX.hi at hv
      rw [hp] at hv
      split at hv <;> omega
    refine ⟨(v - cx.shift) :: y, ?_, by simp [e2], ?_, ?_⟩
    · rw [dcEnc, ar_of_I32 m _ (by unfold I32; omega), Option.bind_some, e1]; rfl
    · intro u hu
      rcases List.mem_cons.1 hu with rfl | hu
      · exact hb
      · exact e3 u hu
    · rw [dcDec, show v - cx.shift + cx.shift = v by ring, ar_of_I32 m _ (by unfold I32; omega), Option.bind_some, e4, Option.map_some]
      unfold clamp
      rw [if_neg (by omega), if_neg (by omega)]

/-- What is asked of the samples of a component. -/
structure SamplesOk (P : Nat) (cx : CompX) (x : List Int) : Prop where
  prec : 1 ≤ cx.prec ∧ cx.prec ≤ P
  range : ∀ v ∈ x, cx.lo ≤ v ∧ v ≤ cx.hi

theorem dcAll_ok {m : Mode} {P : Nat} (hP : 2 ^ (P - 1) ≤ (2 : Int) ^ 29) {cxs : List CompX} {xs : List (List Int)} (h : List.Forall₂ (SamplesOk P) cxs xs) :
    ∃ ys, dcEncAll m cxs xs = some ys ∧ List.Forall₂ (fun x y => y.length = x.length ∧ ∀ v ∈ y, -2 ^ (P - 1) ≤ v ∧ v ≤ 2 ^ (P - 1)) xs ys ∧
      dcDecAll m cxs ys = some xs := by
  induction h with
  | nil => exact ⟨[], rfl, .nil, rfl⟩
  | @cons cx x cxs xs h _ ih =>
    obtain ⟨ys, e1, e2, e3⟩ := ih
    obtain ⟨y, k1, k2, k3, k4⟩ := dc_ok (m := m) (B := 2 ^ (P - 1)) h.prec.1 (pow_le_pow_right₀ (by norm_num) (by have := h.prec.2; omega)) hP x h.range
    refine ⟨y :: ys, ?_, .cons ⟨k2, k3⟩ e2, ?_⟩
    · rw [dcEncAll, k1, Option.bind_some, e1]; rfl
    · rw [dcDecAll, k4, Option.bind_some, e3]; rfl

/-! ## Component transform -/

theorem rct_bound {m : Mode} {n : Nat} {a b c y u v : List Int} {B : Int} (hB : 0 ≤ B) (hB2 : B < 2 ^ 29) (hn : a.length = n ∧ b.length = n ∧ c.length = n)
    (h : ∀ x ∈ a ++ b ++ c, -B ≤ x ∧ x ≤ B) (he : Mct.encode m n a b c = some (y, u, v)) :
    (y.length = n ∧ u.length = n ∧ v.length = n) ∧ ∀ x ∈ y ++ u ++ v, -(2 * B) ≤ x ∧ x ≤ 2 * B := by
  obtain ⟨⟨l1, l2, l3⟩, -, k⟩ := Mct.loop_spec _ _ _ _ _ _ _ _ _ he
  have key : ∀ i < n, ∃ y' u' v', y[i]? = some y' ∧ u[i]? = some u' ∧ v[i]? = some v' ∧ (-(2 * B) ≤ y' ∧ y' ≤ 2 * B) ∧ (-(2 * B) ≤ u' ∧ u' ≤ 2 * B) ∧
      (-(2 * B) ≤ v' ∧ v' ≤ 2 * B) := by
    intro i hi
    obtain ⟨r, g, b', y', u', v', e1, e2, e3, e4, e5, e6, e7⟩ := k i (by omega) (by omega)
    have br := h r (by simp [List.mem_of_getElem? e1])
    have bg := h g (by simp [List.mem_of_getElem? e2])
    have bb := h b' (by simp [List.mem_of_getElem? e3])
    have h2 : ∀ x : Int, x >>> (2 : Nat) = x / 4 := fun x => by rw [Int.shiftRight_eq_div_pow]; rfl
    unfold Mct.fwd at e4
    rw [ar_of_I32 m (g * 2) (by unfold I32; omega), Option.bind_some, ar_of_I32 m (r + g * 2) (by unfold I32; omega),
      Option.bind_some, ar_of_I32 m (r + g * 2 + b') (by unfold I32; omega), Option.bind_some,
      ar_of_I32 m (b' - g) (by unfold I32; omega), Option.bind_some, ar_of_I32 m (r - g) (by unfold I32; omega),
      Option.bind_some, h2] at e4
    simp only [Option.some.injEq, Prod.mk.injEq] at e4
    obtain ⟨rfl, rfl, rfl⟩ := e4
    exact ⟨_, _, _, e5, e6, e7, by omega, by omega, by omega⟩
  refine ⟨⟨by omega, by omega, by omega⟩, fun x hx => ?_⟩
  simp only [List.mem_append] at hx
  rcases hx with (hx | hx) | hx <;> obtain ⟨i, hi, rfl⟩ := List.getElem_of_mem hx <;> obtain ⟨y', u', v', e1, e2, e3, b1, b2, b3⟩ := key i (by omega)
  · rw [List.getElem?_eq_getElem hi] at e1; injection e1 with e1; rw [e1]; exact b1
  · rw [List.getElem?_eq_getElem hi] at e2; injection e2 with e2; rw [e2]; exact b2
  · rw [List.getElem?_eq_getElem hi] at e3; injection e3 with e3; rw [e3]; exact b3

/-- With the component transform there are three components of the same size, and the checks of the decoder pass. -/
def MctOk (mct : Nat) (n : Nat) (tcs : List TileC) (xs : List (List Int)) : Prop :=
  mct = 0 ∨ mct = 1 ∧ sameShape tcs = true ∧ ∃ a b c rest, xs = a :: b :: c :: rest ∧ a.length = n ∧ b.length = n ∧ c.length = n

theorem mct_ok {m : Mode} {mct n : Nat} {tcs : List TileC} {ys : List (List Int)} {B : Int} (hB : 0 ≤ B) (hB2 : B < 2 ^ 29) (h : MctOk mct n tcs ys)
    (hb : ∀ y ∈ ys, ∀ v ∈ y, -B ≤ v ∧ v ≤ B) :
    ∃ zs, mctEnc m mct n ys = some zs ∧ List.Forall₂ (fun y z => z.length = y.length ∧ ∀ v ∈ z, -(2 ^ mct * B) ≤ v ∧ v ≤ 2 ^ mct * B) ys zs ∧
      mctDec m mct n tcs zs = some ys := by
  have id2 : ∀ l : List (List Int), (∀ y ∈ l, ∀ v ∈ y, -B ≤ v ∧ v ≤ B) → ∀ C, B ≤ C →
      List.Forall₂ (fun y z => z.length = y.length ∧ ∀ v ∈ z, -C ≤ v ∧ v ≤ C) l l := by
    intro l hl C hC
    rw [List.forall₂_same]
    exact fun y hy => ⟨rfl, fun v hv => by have := hl y hy v hv; omega⟩
  rcases h with rfl | ⟨rfl, hs, a, b, c, rest, rfl, la, lb, lc⟩
  · refine ⟨ys, rfl, id2 ys hb _ (by omega), rfl⟩
  · have hall : ∀ x ∈ a ++ b ++ c, -B ≤ x ∧ x ≤ B := by
      intro x hx
      simp only [List.mem_append] at hx
      rcases hx with (hx | hx) | hx
      · exact hb a (by simp) x hx
      · exact hb b (by simp) x hx
      · exact hb c (by simp) x hx
    obtain ⟨y, u, v, e1, e2⟩ := Mct.C27_rct_lossless m n a b c (by omega) (by omega) (by omega) (fun x hx => by have := hall x hx; omega)
    obtain ⟨⟨l1, l2, l3⟩, hbd⟩ := rct_bound hB hB2 ⟨la, lb, lc⟩ hall e1
    refine ⟨y :: u :: v :: rest, ?_, ?_, ?_⟩
    · simp [mctEnc, e1]
    · refine .cons ⟨by omega, fun x hx => ?_⟩ (.cons ⟨by omega, fun x hx => ?_⟩ (.cons ⟨by omega, fun x hx => ?_⟩ (id2 rest (fun y hy => hb y (by simp [hy])) _ (by omega))))
      · have := hbd x (by simp [hx]); omega
      · have := hbd x (by simp [hx]); omega
      · have := hbd x (by simp [hx]); omega
    · simp [mctDec, hs, e2]

/-! ## Wavelet transform -/

theorem cdiv_toNat {a : Int} (h : 0 ≤ a) (k : Nat) : (cdiv a (2 ^ k)).toNat = ceilDiv2 a.toNat k := by
  unfold cdiv ceilDiv2
  obtain ⟨n, rfl⟩ := Int.eq_ofNat_of_zero_le h
  have hp : 0 < 2 ^ k := Nat.two_pow_pos k
  have : ((n : Int) + 2 ^ k - 1) / 2 ^ k = ((n + 2 ^ k - 1) / 2 ^ k : Nat) := by
    push_cast [show 1 ≤ n + 2 ^ k by omega]
    rfl
  simp only [Int.toNat_natCast]
  rw [this, Int.toNat_natCast]

theorem toRes_resRect {r : Rect} (h : RectOk r) (k : Nat) : toRes (resRect r k) = resAt (toRes r) k := by
  have hx := h.x
  have hy := h.y
  have hx0 := h.x0
  have hy0 := h.y0
  unfold toRes resRect resAt
  simp only
  rw [cdiv_toNat hx0, cdiv_toNat hy0, cdiv_toNat (by omega), cdiv_toNat (by omega)]

theorem resList_get (t : Dwt.Res) : ∀ (L i : Nat), (resList t L)[i]? = if i < L then some (resAt t (L - 1 - i)) else none
  | 0, i => by simp [resList]
  | L + 1, 0 => by simp [resList]
  | L + 1, i + 1 => by
    rw [resList, List.getElem?_cons_succ, resList_get t L i]
    split
    · rw [if_pos (by omega), show L + 1 - 1 - (i + 1) = L - 1 - i by omega]
    · rw [if_neg (by omega)]

theorem ress_res {enc : Bool} {t : Rect} {c : CompP} (hro : RectOk (compRect t c)) :
    ((compOf enc t c).ress.drop 1).map (fun r => toRes r.rect) = resList (toRes (compRect t c)) (c.prc.length - 1) := by
  refine List.ext_getElem? fun i => ?_
  rw [List.getElem?_map, List.getElem?_drop, resList_get]
  split
  · obtain ⟨r, e1, e2⟩ := ress_get (enc := enc) (t := t) (c := c) (rn := 1 + i) (by omega)
    rw [e1, Option.map_some, e2, toRes_resRect hro, show c.prc.length - 1 - 1 - i = c.prc.length - 1 - (1 + i) by omega]
  · rw [Option.map_eq_none_iff]
    rcases hr : (compOf enc t c).ress[1 + i]? with _ | r
    · rfl
    · rw [show (compOf enc t c).ress = ressOf enc c (compRect t c) 0 c.prc from rfl, ressOf_get] at hr
      obtain ⟨pd, hpd, -⟩ := hr
      have := (List.getElem?_eq_some_iff.1 hpd).1
      omega

theorem readOut_ofList (x : List Int) : ∀ n ≤ x.length, readOut (Mem.ofList x) n = some (x.take n)
  | 0, _ => by simp [readOut]
  | n + 1, h => by
    rw [readOut, readOut_ofList x n (by omega), Option.bind_some]
    have : Mem.ofList x n = some x[n] := List.getElem?_eq_getElem (by omega)
    rw [this, Option.map_some, List.take_succ_eq_append_getElem (by omega)]

/-- What is asked of a component for the wavelet transform. -/
structure WaveOk (t : Rect) (B : Int) (c : CompP) : Prop where
  rect : RectOk (compRect t c)
  ne : c.prc ≠ []
  w : 0 < width (compRect t c)
  size : width (compRect t c) * height (compRect t c) < 2 ^ 32
  thin : NoThin (toRes (compRect t c)) (c.prc.length - 1)
  grow : B * 4 ^ (c.prc.length - 1) ≤ 2 ^ 30 - 2

/-- The buffer of a component: `w·h` words, none larger than `B`. -/
structure BufOk (t : Rect) (B : Int) (c : CompP) (d : Mem Int) : Prop where
  dom : ∀ q, (d q).isSome = decide (q < width (compRect t c) * height (compRect t c))
  bd : BdMem (B * 4 ^ (c.prc.length - 1)) d
  grown : Dwt.Grown (toRes (compRect t c)) (c.prc.length - 1) B d

theorem toRes_w {r : Rect} (h : RectOk r) : (toRes r).w = width r ∧ (toRes r).h = height r := by
  have := h.x
  have := h.y
  have := h.x0
  have := h.y0
  unfold toRes Dwt.Res.w Dwt.Res.h width height
  simp only
  omega

theorem dwt_ok {m : Mode} {t : Rect} {c : CompP} {B : Int} (hB : 0 ≤ B) (h : WaveOk t B c) {x : List Int}
    (hlen : x.length = width (compRect t c) * height (compRect t c)) (hbd : ∀ v ∈ x, -B ≤ v ∧ v ≤ B) (junk : Nat → Int) :
    ∃ d, dwtEnc m junk (compOf true t c) x = some d ∧ BufOk t B c d ∧ ∀ junk', dwtDec m junk' (compOf false t c) d = some x := by
  obtain ⟨ew, eh⟩ := toRes_w h.rect
  have hx : (toRes (compRect t c)).x0 ≤ (toRes (compRect t c)).x1 := by have := h.rect.x; unfold toRes; simp only; omega
  have hy : (toRes (compRect t c)).y0 ≤ (toRes (compRect t c)).y1 := by have := h.rect.y; unfold toRes; simp only; omega
  have hdom : ∀ q, (Mem.ofList x q).isSome = decide (q < x.length) := by
    intro q
    unfold Mem.ofList
    by_cases hq : q < x.length
    · simp [hq]
    · simp [hq]
  have hg := h.grow
  obtain ⟨d, s', e, k1, k2, -, dec⟩ := Dwt.levels_ok (Dwt.ar_good m) (Dwt.ar_good m) (toRes (compRect t c)) hx hy (by rw [ew]; exact h.w)
    (by rw [ew, eh, Nat.mul_comm]; exact h.size) (c.prc.length - 1) h.thin hB (by omega) (Mem.ofList x)
    (fun q hq => by rw [ew, eh, ← hlen] at hq; rw [hdom]; exact decide_eq_true hq)
    (fun q v hv => hbd v (List.mem_of_getElem? hv))
    (Dwt.fresh junk (8 * Dwt.maxRes (resList (toRes (compRect t c)) (c.prc.length - 1)))) (fun q hq => by unfold Dwt.fresh; rw [if_pos hq]; rfl)
  have er : (compOf true t c).rect = compRect t c := rfl
  have er' : (compOf false t c).rect = compRect t c := rfl
  refine ⟨d, ?_, ⟨fun q => by rw [k1, hdom, hlen], k2.1, k2.2⟩, fun junk' => ?_⟩
  · unfold dwtEnc Dwt.encodeTile
    rw [er, ress_res h.rect, e, Option.map_some]
  · obtain ⟨s3, e3⟩ := dec (Dwt.fresh junk' (8 * Dwt.maxRes (resList (toRes (compRect t c)) (c.prc.length - 1)))) (fun q hq => by
      unfold Dwt.fresh; rw [if_pos hq]; rfl)
    obtain ⟨r0, g1, g2⟩ := ress_get (enc := false) (t := t) (c := c) (rn := 0) (List.length_pos_iff.2 h.ne)
    have hd : Dwt.decodeTile (ar m) junk' (toRes (compRect t c)) (resAt (toRes (compRect t c)) (c.prc.length - 1))
        (resList (toRes (compRect t c)) (c.prc.length - 1)) d = some (Mem.ofList x) := by
      unfold Dwt.decodeTile
      split
      · rename_i hor
        have hnil : resList (toRes (compRect t c)) (c.prc.length - 1) = [] := by
          rcases hor with k | k
          · exact k
          · have := h.w; omega
        rw [hnil] at e3
        simp only [Dwt.decodeLevels, Option.some.injEq, Prod.mk.injEq] at e3
        rw [e3.1]
      · rw [e3, Option.map_some]
    unfold dwtDec
    rw [g1, Option.bind_some, er', ress_res h.rect, g2, toRes_resRect h.rect, Nat.sub_zero, hd, Option.bind_some, ← hlen,
      readOut_ofList x _ (Nat.le_refl _), List.take_length]

theorem dwtAll_ok {m : Mode} {t : Rect} {B : Int} (hB : 0 ≤ B) (junk : Nat → Nat → Int) {cs : List CompP} {zs : List (List Int)}
    (h : List.Forall₂ (fun c z => WaveOk t B c ∧ z.length = width (compRect t c) * height (compRect t c) ∧ ∀ v ∈ z, -B ≤ v ∧ v ≤ B) cs zs) :
    ∃ ds, dwtEncAll m junk (cs.map (compOf true t)) zs = some ds ∧ List.Forall₂ (BufOk t B) cs ds ∧
      ∀ junk', dwtDecAll m junk' (cs.map (compOf false t)) ds = some zs := by
  induction h with
  | nil => exact ⟨[], rfl, .nil, fun _ => rfl⟩
  | @cons c z cs zs h _ ih =>
    obtain ⟨ds, e1, e2, e3⟩ := ih
    obtain ⟨d, k1, k2, k3⟩ := dwt_ok (m := m) hB h.1 h.2.1 h.2.2 (junk (cs.map (compOf true t)).length)
    refine ⟨d :: ds, ?_, .cons k2 e2, fun junk' => ?_⟩
    · rw [List.map_cons, dwtEncAll, k1, Option.bind_some, e1]; rfl
    · rw [List.map_cons, dwtDecAll, k3, Option.bind_some, e3]; rfl

/-! ## All of them -/

theorem samples0_eq (enc : Bool) (t : Rect) (cs : List CompP) : samples0 (cs.map (compOf enc t)) = samples0 (cs.map (compOf true t)) := by
  cases cs <;> rfl

theorem forall2_comp {α β γ : Type} {R : α → β → Prop} {S : β → γ → Prop} {T : α → γ → Prop} (h : ∀ a b c, R a b → S b c → T a c) :
    ∀ {l1 : List α} {l2 : List β} {l3 : List γ}, List.Forall₂ R l1 l2 → List.Forall₂ S l2 l3 → List.Forall₂ T l1 l3
  | _, _, _, .nil, .nil => .nil
  | _, _, _, .cons a as, .cons b bs => .cons (h _ _ _ a b) (forall2_comp h as bs)

/-- Level shift, component transform and wavelet transform of all components succeed and are undone exactly. -/
theorem stages_ok {m : Mode} {mct P : Nat} (hP : 2 ^ (P - 1) < (2 : Int) ^ 29) {t : Rect} {cs : List CompP} {cxs : List CompX} {xs : List (List Int)}
    (hs : List.Forall₂ (SamplesOk P) cxs xs) (hl : List.Forall₂ (fun c x => x.length = width (compRect t c) * height (compRect t c)) cs xs)
    (hw : ∀ c ∈ cs, WaveOk t (2 ^ mct * 2 ^ (P - 1)) c) (hm : MctOk mct (samples0 (cs.map (compOf true t))) (cs.map (compOf false t)) xs) (junk : Nat → Nat → Int) :
    ∃ ds, forward m mct cxs (cs.map (compOf true t)) junk xs = some ds ∧ List.Forall₂ (BufOk t (2 ^ mct * 2 ^ (P - 1))) cs ds ∧
      ∀ junk', inverse m mct cxs (cs.map (compOf false t)) junk' ds = some xs := by
  obtain ⟨ys, d1, d2, d3⟩ := dcAll_ok (m := m) (le_of_lt hP) hs
  have hpos : (0 : Int) ≤ 2 ^ (P - 1) := by positivity
  have hm' : MctOk mct (samples0 (cs.map (compOf true t))) (cs.map (compOf false t)) ys := by
    rcases hm with h | ⟨h, h2, a, b, c, rest, rfl, l1, l2, l3⟩
    · exact .inl h
    · cases d2 with | cons q1 d2 => cases d2 with | cons q2 d2 => cases d2 with | cons q3 d2 =>
      exact .inr ⟨h, h2, _, _, _, _, rfl, q1.1.trans l1, q2.1.trans l2, q3.1.trans l3⟩
  have hb : ∀ y ∈ ys, ∀ v ∈ y, -(2 : Int) ^ (P - 1) ≤ v ∧ v ≤ 2 ^ (P - 1) := by
    clear d1 d3 hm hm' hs hl
    induction d2 with
    | nil => simp
    | cons q _ ih =>
      intro y hy
      rcases List.mem_cons.1 hy with rfl | hy
      · exact q.2
      · exact ih y hy
  obtain ⟨zs, z1, z2, z3⟩ := mct_ok (m := m) hpos hP hm' hb
  have hlz : List.Forall₂ (fun c z => z.length = width (compRect t c) * height (compRect t c) ∧ ∀ v ∈ z, -(2 ^ mct * 2 ^ (P - 1)) ≤ v ∧ v ≤ (2 : Int) ^ mct * 2 ^ (P - 1)) cs zs := by
    have := forall2_comp (T := fun c y => y.length = width (compRect t c) * height (compRect t c)) (fun c x y h1 h2 => h2.1.trans h1) hl d2
    exact forall2_comp (fun c y z h1 h2 => ⟨h2.1.trans h1, h2.2⟩) this z2
  obtain ⟨ds, k1, k2, k3⟩ := dwtAll_ok (m := m) (B := 2 ^ mct * 2 ^ (P - 1)) (by positivity) junk (t := t) (cs := cs) (zs := zs) (by
    clear z1 z2 z3 hm hm' hl
    induction hlz with
    | nil => exact .nil
    | cons q _ ih => exact .cons ⟨hw _ (by simp), q⟩ (ih fun c hc => hw c (by simp [hc])))
  refine ⟨ds, ?_, k2, fun junk' => ?_⟩
  · unfold forward
    rw [d1, Option.bind_some, z1, Option.bind_some, k1]
  · unfold inverse
    rw [k3, Option.bind_some, samples0_eq, z3, Option.bind_some, d3]

end Jp2.Pipe

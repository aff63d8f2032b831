import Verif.Jp2.PipeLayout
/-!
# Taking the blocks out of the buffer of a component and putting them back
-/
namespace Jp2.Pipe
open Tcd (Rect Band Prec TileC CompP Coef RectOk compOf compRect)
open T1 (Style)
open T2 (DecBand)

/-! ## Out -/

theorem stripes_map (w h : Nat) (px : Nat → Nat → Int) : T1.stripeOrder w h px = (stripes w h).map fun p => px p.1 p.2 := by
  unfold T1.stripeOrder stripes
  simp [List.map_flatMap, Function.comp_def]

theorem stripes_mem {w h : Nat} {p : Nat × Nat} (hp : p ∈ stripes w h) : p.1 < h ∧ p.2 < w := by
  unfold stripes at hp
  simp only [List.mem_append, List.mem_flatMap, List.mem_range, List.mem_map] at hp
  rcases hp with ⟨k, hk, x, hx, j, hj, rfl⟩ | ⟨x, hx, j, hj, rfl⟩
  · exact ⟨by simp only; omega, hx⟩
  · exact ⟨by simp only; omega, hx⟩

theorem gather_eq {data : Mem Int} {base tw : Nat} {px : Nat → Nat → Int} : ∀ l : List (Nat × Nat),
    (∀ p ∈ l, p.1 * tw + p.2 < 2 ^ 32 ∧ data (base + (p.1 * tw + p.2)) = some (px p.1 p.2)) →
    gather data base tw l = some (l.map fun p => T1.shl6 (px p.1 p.2))
  | [], _ => rfl
  | (j, i) :: l, h => by
    obtain ⟨h1, h2⟩ := h (j, i) (by simp)
    simp only at h1 h2
    rw [gather, Nat.mod_eq_of_lt h1, h2, gather_eq l fun p hp => h p (by simp [hp])]
    rfl

/-! ## Back -/

/-- The buffer `s` agrees with `c` on the places done so far. -/
def Inv (c : Mem Int) (done : Nat → Prop) (s : Mem Int) : Prop := (∀ q, (s q).isSome = (c q).isSome) ∧ ∀ q, done q → s q = c q

/-- The places of a block. -/
def At (base tw w h q : Nat) : Prop := ∃ j < h, ∃ i < w, q = base + j * tw + i

theorem inv_wr {c s : Mem Int} {done : Nat → Prop} (h : Inv c done s) {p : Nat} {v : Int} (hv : c p = some v) :
    ∃ s', wr s p v = some s' ∧ Inv c (fun q => done q ∨ q = p) s' := by
  have hs : (s p).isSome = true := by rw [h.1, hv]; rfl
  refine ⟨_, by unfold wr; rw [if_pos hs], fun q => ?_, fun q hq => ?_⟩
  · show (if q = p then some v else s q).isSome = _
    split
    · rename_i e; subst e; rw [hv]
    · exact h.1 q
  · show (if q = p then some v else s q) = _
    split
    · rename_i e; subst e; exact hv.symm
    · rename_i e
      exact h.2 q (hq.resolve_right e)

theorem Inv.mono {c s : Mem Int} {P Q : Nat → Prop} (h : Inv c P s) (hPQ : ∀ q, Q q → P q) : Inv c Q s := ⟨h.1, fun q hq => h.2 q (hPQ q hq)⟩

theorem place_ok {c s : Mem Int} {done : Nat → Prop} {D : List Int} {base tw w h : Nat} (hi : Inv c done s)
    (hD : ∀ j < h, ∀ i < w, ∃ v, D[j * w + i]? = some v ∧ c (base + j * tw + i) = some (Int.tdiv v 2)) :
    ∃ s', place D base tw w h s = some s' ∧ Inv c (fun q => done q ∨ At base tw w h q) s' := by
  unfold place
  obtain ⟨s', e, k⟩ := loopM_inv (fun j d => loopM (fun i d => (D[j * w + i]?).bind fun v => wr d (base + j * tw + i) (Int.tdiv v 2)) w 0 d) h 0 s
    (fun j d => Inv c (fun q => done q ∨ At base tw w j q) d) (hi.mono fun q hq => hq.resolve_right (by rintro ⟨j, hj, -⟩; omega)) (by
      intro j d _ hj hd
      rw [Nat.zero_add] at hj
      obtain ⟨s', e, k⟩ := loopM_inv (fun i d => (D[j * w + i]?).bind fun v => wr d (base + j * tw + i) (Int.tdiv v 2)) w 0 d
        (fun i d => Inv c (fun q => (done q ∨ At base tw w j q) ∨ ∃ i' < i, q = base + j * tw + i') d)
        (hd.mono fun q hq => hq.resolve_right (by rintro ⟨j, hj, -⟩; omega)) (by
          intro i d _ hi' hd
          rw [Nat.zero_add] at hi'
          obtain ⟨v, e1, e2⟩ := hD j hj i hi'
          obtain ⟨s', e, k⟩ := inv_wr hd e2
          refine ⟨s', by simp only [e1, Option.bind_some, e], k.mono ?_⟩
          rintro q (hq | ⟨i', hl, rfl⟩)
          · exact .inl (.inl hq)
          · rcases Nat.lt_or_ge i' i with hlt | hge
            · exact .inl (.inr ⟨i', hlt, rfl⟩)
            · exact .inr (by rw [show i' = i by omega]))
      refine ⟨s', e, k.mono ?_⟩
      rintro q (hq | ⟨j', hl, i', hi', rfl⟩)
      · exact .inl (.inl hq)
      · rcases Nat.lt_or_ge j' j with hlt | hge
        · exact .inl (.inr ⟨j', hlt, i', hi', rfl⟩)
        · exact .inr ⟨i', by omega, by rw [show j' = j by omega]⟩)
  rw [Nat.zero_add] at k
  exact ⟨s', e, k⟩

theorem eachM_cover {α : Type} {c : Mem Int} (f : Nat → α → Mem Int → Option (Mem Int)) (S : Nat → α → Nat → Prop) : ∀ (l : List α) (i0 : Nat)
    (done : Nat → Prop) (s : Mem Int),
    (∀ i a, l[i]? = some a → ∀ (done : Nat → Prop) s, Inv c done s → ∃ s', f (i0 + i) a s = some s' ∧ Inv c (fun q => done q ∨ S (i0 + i) a q) s') → Inv c done s →
    ∃ s', eachM f i0 l s = some s' ∧ Inv c (fun q => done q ∨ ∃ i a, l[i]? = some a ∧ S (i0 + i) a q) s'
  | [], i0, done, s, _, h => ⟨s, rfl, h.mono fun q hq => hq.resolve_right (by simp)⟩
  | a :: l, i0, done, s, hf, h => by
    obtain ⟨s1, e1, k1⟩ := hf 0 a rfl done s h
    obtain ⟨s2, e2, k2⟩ := eachM_cover f S l (i0 + 1) _ s1 (by
      intro i b hb done s hs
      have := hf (i + 1) b hb done s hs
      rwa [show i0 + (i + 1) = i0 + 1 + i by omega] at this) k1
    refine ⟨s2, by rw [eachM, show i0 = i0 + 0 from rfl, e1]; exact e2, k2.mono ?_⟩
    rintro q (hq | ⟨i, b, hb, hS⟩)
    · exact .inl (.inl hq)
    · cases i with
      | zero =>
        simp only [List.getElem?_cons_zero, Option.some.injEq] at hb
        subst hb
        exact .inl (.inr hS)
      | succ i =>
        refine .inr ⟨i, b, hb, ?_⟩
        rwa [show i0 + 1 + i = i0 + (i + 1) by omega]

/-- When every block decodes to what `c` holds in its place, and the blocks cover the buffer, the buffer becomes `c`. -/
theorem decComp_ok {tc : TileC} {st : Style} {D : Nat → Nat → List DecBand} {ex : Extra} {s c : Mem Int} (hs : ∀ q, (s q).isSome = (c q).isSome)
    (h : ∀ (rn : Nat) (r : Tcd.Res) (bi : Nat) (b : Band) (k : Nat) (p : Prec) (j : Nat) (cb : Rect), tc.ress[rn]? = some r → r.bands[bi]? = some b → b.precs[k]? = some p → p.cblks[j]? = some cb →
      ∃ d base Dl, (((D rn k)[bi]?).bind fun d => d.prec.cblks[j]?) = some d ∧ corner tc rn b cb = some base ∧
        T2.decodeBlock b.bandno (width cb) (height cb) st d (ex rn bi k j).1 (ex rn bi k j).2 = some (some Dl) ∧
        ∀ y < height cb, ∀ x < width cb, ∃ v, Dl[y * width cb + x]? = some v ∧ c (base + y * width tc.rect + x) = some (Int.tdiv v 2))
    (hcov : ∀ q, (c q).isSome → ∃ (rn : Nat) (r : Tcd.Res) (bi : Nat) (b : Band) (k : Nat) (p : Prec) (j : Nat) (cb : Rect) (base : Nat), tc.ress[rn]? = some r ∧ r.bands[bi]? = some b ∧ b.precs[k]? = some p ∧ p.cblks[j]? = some cb ∧
      corner tc rn b cb = some base ∧ At base (width tc.rect) (width cb) (height cb) q) :
    decComp tc st D ex s = some c := by
  unfold decComp
  have h0 : Inv c (fun _ => False) s := ⟨hs, fun q hq => hq.elim⟩
  obtain ⟨s', e, k⟩ := eachM_cover (c := c)
    (fun rn (r : Tcd.Res) => eachM (fun bi (b : Band) => eachM (fun k (p : Prec) => eachM (fun j cb data =>
      (((D rn k)[bi]?).bind fun d => d.prec.cblks[j]?).bind fun d => decBlock tc st rn b cb d (ex rn bi k j) data) 0 p.cblks) 0 b.precs) 0 r.bands)
    (fun rn (r : Tcd.Res) q => ∃ (bi : Nat) (b : Band) (k : Nat) (p : Prec) (j : Nat) (cb : Rect) (base : Nat), r.bands[bi]? = some b ∧ b.precs[k]? = some p ∧ p.cblks[j]? = some cb ∧
      corner tc rn b cb = some base ∧ At base (width tc.rect) (width cb) (height cb) q) tc.ress 0 _ s (by
    intro rn r hr done s hi
    rw [Nat.zero_add]
    obtain ⟨s', e, k⟩ := eachM_cover (c := c)
      (fun bi (b : Band) => eachM (fun k (p : Prec) => eachM (fun j cb data =>
        (((D rn k)[bi]?).bind fun d => d.prec.cblks[j]?).bind fun d => decBlock tc st rn b cb d (ex rn bi k j) data) 0 p.cblks) 0 b.precs)
      (fun bi (b : Band) q => ∃ (k : Nat) (p : Prec) (j : Nat) (cb : Rect) (base : Nat), b.precs[k]? = some p ∧ p.cblks[j]? = some cb ∧
        corner tc rn b cb = some base ∧ At base (width tc.rect) (width cb) (height cb) q) r.bands 0 _ s (by
      intro bi b hb done s hi
      rw [Nat.zero_add]
      obtain ⟨s', e, k⟩ := eachM_cover (c := c)
        (fun k (p : Prec) => eachM (fun j cb data =>
          (((D rn k)[bi]?).bind fun d => d.prec.cblks[j]?).bind fun d => decBlock tc st rn b cb d (ex rn bi k j) data) 0 p.cblks)
        (fun k (p : Prec) q => ∃ (j : Nat) (cb : Rect) (base : Nat), p.cblks[j]? = some cb ∧
          corner tc rn b cb = some base ∧ At base (width tc.rect) (width cb) (height cb) q) b.precs 0 _ s (by
        intro k p hp done s hi
        rw [Nat.zero_add]
        obtain ⟨s', e, k'⟩ := eachM_cover (c := c)
          (fun j cb data => (((D rn k)[bi]?).bind fun d => d.prec.cblks[j]?).bind fun d => decBlock tc st rn b cb d (ex rn bi k j) data)
          (fun j cb q => ∃ base, corner tc rn b cb = some base ∧ At base (width tc.rect) (width cb) (height cb) q) p.cblks 0 _ s (by
          intro j cb hcb done s hi
          rw [Nat.zero_add]
          obtain ⟨d, base, Dl, e1, e2, e3, e4⟩ := h rn r bi b k p j cb hr hb hp hcb
          obtain ⟨s', e5, k⟩ := place_ok (D := Dl) hi e4
          refine ⟨s', ?_, k.mono ?_⟩
          · simp only [e1, Option.bind_some, decBlock, e2, e3]
            exact e5
          · rintro q (hq | ⟨base', hb', hq⟩)
            · exact .inl hq
            · rw [e2] at hb'
              obtain rfl := Option.some.inj hb'
              exact .inr hq) hi
        refine ⟨s', e, k'.mono ?_⟩
        rintro q (hq | ⟨j, cb, base, h1, h2, h3⟩)
        · exact .inl hq
        · exact .inr ⟨j, cb, h1, base, h2, h3⟩) hi
      refine ⟨s', e, k.mono ?_⟩
      rintro q (hq | ⟨k, p, j, cb, base, h1, h2, h3⟩)
      · exact .inl hq
      · refine .inr ⟨k, p, h1, ?_⟩
        exact ⟨j, cb, base, h2, h3⟩) hi
    refine ⟨s', e, k.mono ?_⟩
    rintro q (hq | ⟨bi, b, k, p, j, cb, base, h1, h2⟩)
    · exact .inl hq
    · refine .inr ⟨bi, b, h1, ?_⟩
      exact ⟨k, p, j, cb, base, h2⟩) h0
  rw [e]
  congr 1
  funext q
  rcases hq : c q with _ | v
  · have := k.1 q
    rw [hq] at this
    rcases hq' : s' q with _ | v
    · rfl
    · rw [hq'] at this; cases this
  · rw [← hq]
    refine k.2 q (.inr ?_)
    obtain ⟨rn, r, bi, b, k, p, j, cb, base, h1, h2⟩ := hcov q (by rw [hq]; rfl)
    refine ⟨rn, r, h1, ?_⟩
    rw [Nat.zero_add]
    exact ⟨bi, b, k, p, j, cb, base, h2⟩

end Jp2.Pipe

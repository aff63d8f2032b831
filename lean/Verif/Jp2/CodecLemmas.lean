import Verif.Jp2.CodecSpec
import Verif.Jp2.PipeProps
import Verif.Jp2.CutProps
import Verif.Jp2.TpWriteProps
import Verif.Jp2.AreaFile
/-!
# Lemmas on coding an image
-/
namespace Jp2.Codec
open Jp2.Hdr (R Fail User Enc Tccp SameHeader SameTccp Writable)
open Jp2.Tcd (Rect CompP tileRectOf compRect)
open Jp2.Cut (CompI)
open Jp2.Area (render render_get)

/-! ## Samples by position -/

theorem planeOf_render {P : Int → Int → Int} {r : Rect} {u v : Int} (h : r.has u v) : planeOf r (render P r) u v = P u v := by
  obtain ⟨h1, h2, h3, h4⟩ := h
  have hg := (render_get (P := P) (r := r)).2 (v - r.y0).toNat (u - r.x0).toNat (by omega) (by omega)
  unfold planeOf
  have e : ((v - r.y0) * (r.x1 - r.x0) + (u - r.x0)).toNat = (v - r.y0).toNat * (r.x1 - r.x0).toNat + (u - r.x0).toNat := by
    obtain ⟨a, ha⟩ := Int.eq_ofNat_of_zero_le (show 0 ≤ v - r.y0 by omega)
    obtain ⟨b, hb⟩ := Int.eq_ofNat_of_zero_le (show 0 ≤ u - r.x0 by omega)
    obtain ⟨c, hc⟩ := Int.eq_ofNat_of_zero_le (show 0 ≤ r.x1 - r.x0 by omega)
    rw [ha, hb, hc]
    simp only [Int.toNat_natCast]
    exact_mod_cast rfl
  rw [e, hg]
  simp only [Option.getD_some]
  congr 1 <;> omega

theorem render_planeOf {r : Rect} {x : List Int} (h : x.length = (r.y1 - r.y0).toNat * (r.x1 - r.x0).toNat) : render (planeOf r x) r = x := by
  obtain ⟨h1, h2⟩ := render_get (P := planeOf r x) (r := r)
  refine List.ext_getElem? fun k => ?_
  by_cases hk : k < x.length
  · have hw : 0 < (r.x1 - r.x0).toNat := by
      rcases Nat.eq_zero_or_pos (r.x1 - r.x0).toNat with e | e
      · rw [e, Nat.mul_zero] at h; omega
      · exact e
    have hm := Nat.mod_lt k hw
    have hd : k / (r.x1 - r.x0).toNat < (r.y1 - r.y0).toNat := by
      rw [Nat.div_lt_iff_lt_mul hw, ← h]; exact hk
    have hk' : k / (r.x1 - r.x0).toNat * (r.x1 - r.x0).toNat + k % (r.x1 - r.x0).toNat = k := by
      have := Nat.div_add_mod k (r.x1 - r.x0).toNat
      rw [Nat.mul_comm] at this
      exact this
    have := h2 _ _ hd hm
    rw [hk'] at this
    rw [this]
    unfold planeOf
    have e : ((r.y0 + (k / (r.x1 - r.x0).toNat : Nat) - r.y0) * (r.x1 - r.x0) + (r.x0 + (k % (r.x1 - r.x0).toNat : Nat) - r.x0)).toNat = k := by
      have : (r.x1 - r.x0) = ((r.x1 - r.x0).toNat : Int) := by omega
      obtain ⟨w, hw'⟩ : ∃ w, w = (r.x1 - r.x0).toNat := ⟨_, rfl⟩
      rw [← hw'] at this hk'
      rw [← hw', this]
      have e2 : r.y0 + ((k / w : Nat) : Int) - r.y0 = ((k / w : Nat) : Int) := by omega
      have e3 : r.x0 + ((k % w : Nat) : Int) - r.x0 = ((k % w : Nat) : Int) := by omega
      rw [e2, e3]
      have : ((k / w : Nat) : Int) * (w : Int) + ((k % w : Nat) : Int) = ((k / w * w + k % w : Nat) : Int) := by push_cast; rfl
      rw [this, hk']
      rfl
    rw [e, List.getElem?_eq_getElem hk]
    rfl
  · rw [List.getElem?_eq_none (by omega), List.getElem?_eq_none (by omega)]

theorem lookup_map {α β : Type} [BEq α] [LawfulBEq α] (f : α → β) : ∀ (l : List α) (n : α), n ∈ l → (l.map fun x => (x, f x)).lookup n = some (f n)
  | [], _, h => by simp at h
  | a :: l, n, h => by
    rw [List.map_cons, List.lookup_cons]
    by_cases e : n = a
    · subst e; simp
    · have : (n == a) = false := by simpa using e
      rw [this]
      exact lookup_map f l n ((List.mem_cons.1 h).resolve_left e)

theorem mapM_ok {α β : Type} {f : α → R β} {g : α → β} : ∀ {l : List α}, (∀ a ∈ l, f a = .ok (g a)) → l.mapM f = .ok (l.map g)
  | [], _ => rfl
  | a :: l, h => by
    rw [List.mapM_cons, h a (by simp)]
    change (l.mapM f >>= _) = _
    rw [mapM_ok (l := l) fun b hb => h b (by simp [hb])]
    rfl

theorem mapM_get {α β : Type} {f : α → R β} : ∀ {l : List α} {l' : List β}, l.mapM f = .ok l' →
    l'.length = l.length ∧ ∀ (i : Nat) (a : α) (b : β), l[i]? = some a → l'[i]? = some b → f a = .ok b
  | [], l', h => by
    cases h
    exact ⟨rfl, by simp⟩
  | a :: l, l', h => by
    rw [List.mapM_cons] at h
    obtain ⟨b, h1, h⟩ := Hdr.bind_ok h
    obtain ⟨bs, h2, h⟩ := Hdr.bind_ok h
    cases h
    obtain ⟨k1, k2⟩ := mapM_get h2
    refine ⟨by simp [k1], ?_⟩
    rintro (_ | i) x y hx hy
    · simp only [List.getElem?_cons_zero, Option.some.injEq] at hx hy
      rw [← hx, ← hy]; exact h1
    · exact k2 i x y (by simpa using hx) (by simpa using hy)

theorem choose_list {α β : Type} {Q : α → β → Prop} : ∀ {l : List α}, (∀ a ∈ l, ∃ b, Q a b) → ∃ l', List.Forall₂ Q l l'
  | [], _ => ⟨[], .nil⟩
  | a :: l, h => by
    obtain ⟨b, hb⟩ := h a (by simp)
    obtain ⟨l', hl⟩ := choose_list (l := l) fun c hc => h c (by simp [hc])
    exact ⟨b :: l', .cons hb hl⟩

theorem forall2_at {α β : Type} {Q : α → β → Prop} : ∀ {l : List α} {l' : List β}, List.Forall₂ Q l l' → ∀ {i : Nat} {a : α} {b : β}, l[i]? = some a →
    l'[i]? = some b → Q a b
  | _, _, .nil, i, _, _, h, _ => by simp at h
  | _, _, .cons h _, 0, _, _, h1, h2 => by
    simp only [List.getElem?_cons_zero, Option.some.injEq] at h1 h2
    rw [← h1, ← h2]; exact h
  | _, _, .cons _ h, i + 1, _, _, h1, h2 => forall2_at h (i := i) (by simpa using h1) (by simpa using h2)

/-! ## Both sides know the same -/

theorem prcs_same {w r : Tccp} (h : SameTccp w r) (hc : w.csty % 2 = 0 → ∀ i < w.numres, w.prcs[i]? = some (15, 15)) :
    r.prcs.take r.numres = w.prcs.take w.numres := by
  refine List.ext_getElem? fun i => ?_
  rw [h.numres, List.getElem?_take, List.getElem?_take]
  split
  · rename_i hi
    rw [h.prcs i hi]
    unfold Hdr.precinctOf
    split
    · rfl
    · rw [hc (by omega) i hi]
  · rfl

theorem planes_same {ws rs : List Tccp} (h : List.Forall₂ SameTccp ws rs) (hq : ∀ t ∈ ws, t.qntsty = 0) : planes rs = planes ws := by
  funext c rn bi
  unfold planes
  have hl := h.length_eq
  cases hw : ws[c]? with
  | none =>
    rw [List.getElem?_eq_none_iff] at hw
    rw [List.getElem?_eq_none (by omega)]
  | some w =>
    have hc : c < rs.length := by rw [← hl]; exact (List.getElem?_eq_some_iff.1 hw).1
    rw [List.getElem?_eq_getElem hc]
    have hs := forall2_at h hw (List.getElem?_eq_getElem hc)
    generalize rs[c] = r at hs
    simp only
    rw [hs.numres]
    by_cases hb : rn < w.numres ∧ bi < (if rn = 0 then 1 else 3)
    · rw [if_pos hb, if_pos hb]
      obtain ⟨b1, b2⟩ := hb
      have hbn : bandNo rn bi < 3 * w.numres - 2 := by
        unfold bandNo
        split
        · omega
        · rename_i h0; rw [if_neg h0] at b2; omega
      rw [hs.steps _ hbn, hs.numgbits]
      unfold Hdr.stepOf
      rw [if_pos (hq w (List.mem_of_getElem? hw))]
      cases w.steps[bandNo rn bi]? <;> rfl
    · rw [if_neg hb, if_neg hb]

theorem zip_map_congr {α β γ : Type} {f g : α × β → γ} {R : β → β → Prop} (hfg : ∀ a w r, R w r → f (a, r) = g (a, w)) : ∀ {as : List α} {ws rs : List β},
    List.Forall₂ R ws rs → (as.zip rs).map f = (as.zip ws).map g
  | [], _, _, _ => by simp
  | _ :: _, _, _, .nil => by simp
  | a :: as, _, _, .cons h1 h2 => by
    rw [List.zip_cons_cons, List.zip_cons_cons, List.map_cons, List.map_cons, hfg a _ _ h1, zip_map_congr hfg h2]

theorem forall2_mem {α β : Type} {R : α → β → Prop} {p : α → Prop} : ∀ {l : List α} {l' : List β}, List.Forall₂ R l l' → (∀ a ∈ l, p a) →
    List.Forall₂ (fun a b => R a b ∧ p a) l l'
  | _, _, .nil, _ => .nil
  | _, _, .cons h t, hp => .cons ⟨h, hp _ (by simp)⟩ (forall2_mem t fun a ha => hp a (by simp [ha]))

theorem setup_same {sz : Nat × Nat} {e : Enc} {d : Hdr.Dec} (h : SameHeader e d) (hr : Reversible e) (htw : d.tw = Hdr.cdiv (e.x1 - e.tx0) e.tdx)
    {tcp : Hdr.Tcp} (h1 : tcp.csty = d.tcp.csty) (h2 : tcp.prg = d.tcp.prg) (h3 : tcp.numlayers = d.tcp.numlayers)
    (h4 : tcp.mct = d.tcp.mct) (h5 : tcp.tccps = d.tcp.tccps) :
    params sz (decPar d tcp) = params sz (encPar e) ∧ ∀ n, setup sz (decPar d tcp) n = setup sz (encPar e) n := by
  have hc : (d.comps.map fun c => (c.prec, c.sgnd, c.dx, c.dy)) = e.comps.map fun c => (c.prec, c.sgnd, c.dx, c.dy) := h.comps
  have hf := forall2_mem h.tccps (p := fun t => t.csty % 2 = 0 → ∀ i < t.numres, t.prcs[i]? = some (15, 15)) fun t ht => (hr t ht).2.2.2
  have hp : params sz (decPar d tcp) = params sz (encPar e) := by
    unfold params decPar encPar
    simp only
    rw [h5, hc, h.image.1, h.image.2.1, h.image.2.2.1, h.image.2.2.2, h.tiles.1, h.tiles.2.1, h.tiles.2.2.1, h.tiles.2.2.2, htw]
    congr 1
    refine zip_map_congr (fun a w r hwr => ?_) hf
    simp only
    rw [prcs_same hwr.1 hwr.2, hwr.1.cblkw, hwr.1.cblkh]
  refine ⟨hp, fun n => ?_⟩
  unfold setup
  rw [hp]
  have e1 : (decPar d tcp).layers = (encPar e).layers := by unfold decPar encPar; simp only; rw [h3, h.layers]
  have e2 : (decPar d tcp).prg = (encPar e).prg := by unfold decPar encPar; simp only; rw [h2, h.prg]
  have e3 : (decPar d tcp).mct = (encPar e).mct := by unfold decPar encPar; simp only; rw [h4, h.mct]
  have e4 : (decPar d tcp).csty = (encPar e).csty := by unfold decPar encPar; simp only; rw [h1, h.csty]
  have e5 : planes (decPar d tcp).tccps = planes (encPar e).tccps := by
    unfold decPar encPar
    simp only
    rw [h5]
    exact planes_same h.tccps fun t ht => (hr t ht).2.1
  rw [e1, e2, e3, e4, e5]
  congr 1
  unfold decPar encPar
  simp only
  rw [h5, hc]
  refine zip_map_congr (fun a w r hwr => ?_) hf
  simp only
  rw [hwr.1.cblksty]

/-! ## The parameters of the tiles -/

theorem fit_of {sz : Nat × Nat} {e : Enc} (hw : Writable e) (hsz : 0 < sz.1 ∧ 0 < sz.2) :
    Tcd.Grid (params sz (encPar e)) (encPar e).th ∧ (∀ n < (encPar e).tw * (encPar e).th, Tcd.Fit (params sz (encPar e)) n) ∧
    (params sz (encPar e)).comps.length = e.comps.length ∧ ∀ n < (encPar e).tw * (encPar e).th, ∃ x y, Area.InTile (params sz (encPar e)) n x y := by
  have hx := hw.image_x; have hy := hw.image_y; have tx := hw.tile_x; have ty := hw.tile_y
  have hl : (params sz (encPar e)).comps.length = e.comps.length := by
    unfold params encPar
    simp [hw.tccps]
  have grid : ∀ n < (encPar e).tw * (encPar e).th, e.tx0 + n % (encPar e).tw * e.tdx < e.x1 ∧ e.ty0 + n / (encPar e).tw * e.tdy < e.y1 := by
    intro n hn
    have htw : 0 < (encPar e).tw := by
      rcases Nat.eq_zero_or_pos (encPar e).tw with h | h
      · rw [h, Nat.zero_mul] at hn; omega
      · exact h
    exact ⟨Hdr.grid_lt (by omega) rfl (Nat.mod_lt _ htw), Hdr.grid_lt (by omega) rfl ((Nat.div_lt_iff_lt_mul htw).2 (by rw [Nat.mul_comm]; exact hn))⟩
  refine ⟨⟨⟨tx.1, tx.2.1, hx.1⟩, ⟨ty.1, ty.2.1, hy.1⟩, rfl, rfl⟩, fun n hn => ?_, hl, fun n hn => ?_⟩
  · obtain ⟨g1, g2⟩ := grid n hn
    refine ⟨?_, ?_, ?_, tx.2.2, ty.2.2, ?_, ?_, hx.2, hy.2, ?_, ?_, hsz.1, hsz.2⟩
    · rcases Nat.eq_zero_or_pos (encPar e).tw with h | h
      · rw [h, Nat.zero_mul] at hn; omega
      · exact h
    · change e.tx0 + n % (encPar e).tw * e.tdx < 2 ^ 32; omega
    · change e.ty0 + n / (encPar e).tw * e.tdy < 2 ^ 32; omega
    · change e.x0 < 2 ^ 32; omega
    · change e.y0 < 2 ^ 32; omega
    · intro h
      rw [h] at hl
      have := hw.comps_len.1
      simp only [List.length_nil] at hl
      omega
    · intro c hc
      unfold params encPar at hc
      simp only [List.mem_map] at hc
      obtain ⟨⟨⟨a1, a2, a3, a4⟩, t⟩, hm, rfl⟩ := hc
      have m1 := (List.of_mem_zip hm).1
      have m2 := (List.of_mem_zip hm).2
      rw [List.mem_map] at m1
      obtain ⟨k, hk, ek⟩ := m1
      obtain ⟨-, -, d1, d2⟩ := hw.comps k hk
      cases ek
      have st := hw.style t m2
      have pl := hw.prcs_len t m2
      refine ⟨⟨d1.1, d1.2⟩, ⟨d2.1, d2.2⟩, ?_, ?_⟩
      · simp only [List.length_take]
        have := st.numres
        omega
      · intro r q hq
        simp only [List.getElem?_take] at hq
        split at hq
        · rename_i hr
          obtain ⟨s1, s2, s3⟩ := st.prcs r q hq hr
          exact ⟨s1, s2, fun h0 => s3 (by omega)⟩
        · simp at hq
  · obtain ⟨g1, g2⟩ := grid n hn
    refine ⟨max e.x0 (e.tx0 + n % (encPar e).tw * e.tdx), max e.y0 (e.ty0 + n / (encPar e).tw * e.tdy), ?_⟩
    unfold Area.InTile
    change (e.x0 ≤ _ ∧ _ < e.x1) ∧ (e.y0 ≤ _ ∧ _ < e.y1) ∧ (e.tx0 + n % (encPar e).tw * e.tdx ≤ _ ∧ _ < e.tx0 + (n % (encPar e).tw + 1) * e.tdx) ∧
      e.ty0 + n / (encPar e).tw * e.tdy ≤ _ ∧ _ < e.ty0 + (n / (encPar e).tw + 1) * e.tdy
    have f1 : (n % (encPar e).tw + 1) * e.tdx = n % (encPar e).tw * e.tdx + e.tdx := by ring
    have f2 : (n / (encPar e).tw + 1) * e.tdy = n / (encPar e).tw * e.tdy + e.tdy := by ring
    rw [f1, f2]
    generalize n % (encPar e).tw * e.tdx = A at *
    generalize n / (encPar e).tw * e.tdy = B at *
    omega

end Jp2.Codec

import Verif.Jp2.Tp
import Verif.Jp2.HdrProps
/-!
# What the shared marker handlers leave alone

In a tile-part header the handlers change the parameters of the tile and nothing else.
-/
namespace Jp2.Hdr

/-- Every answer satisfies `Q`. -/
def Sat {α : Type} (r : R α) (Q : α → Prop) : Prop := ∀ a, r = .ok a → Q a

theorem Sat.ok {α : Type} {a : α} {Q : α → Prop} (h : Q a) : Sat (.ok a) Q := by
  intro b e; cases e; exact h

theorem Sat.pure {α : Type} {a : α} {Q : α → Prop} (h : Q a) : Sat (Pure.pure a) Q := Sat.ok h

theorem Sat.error {α : Type} {e : Fail} {Q : α → Prop} : Sat (.error e : R α) Q := (fun _ h => nomatch h)

theorem Sat.bind {α β : Type} {x : R α} {f : α → R β} {Q : β → Prop} (hf : ∀ a, Sat (f a) Q) : Sat (x >>= f) Q := by
  cases x with
  | ok a => exact hf a
  | error e => exact (fun _ h => nomatch h)

theorem Sat.bindP {α β : Type} {x : R α} {f : α → R β} {P : α → Prop} {Q : β → Prop} (hx : Sat x P)
    (hf : ∀ a, P a → Sat (f a) Q) : Sat (x >>= f) Q := by
  cases x with
  | ok a => exact hf a (hx a rfl)
  | error e => exact (fun _ h => nomatch h)

theorem Sat.ite {α : Type} {c : Prop} [Decidable c] {a b : R α} {Q : α → Prop} (ha : c → Sat a Q) (hb : ¬ c → Sat b Q) :
    Sat (if c then a else b) Q := by
  by_cases h : c
  · rw [if_pos h]; exact ha h
  · rw [if_neg h]; exact hb h

/-- Nothing but the tile parameters differs. -/
def Same (d d' : Dec) : Prop := d' = { d with tcp := d'.tcp }

theorem Same.refl (d : Dec) : Same d d := rfl

theorem Same.mk (d : Dec) (t : Tcp) : Same d { d with tcp := t } := rfl

theorem readCod_same {u : User} {d : Dec} {p : List UInt8} {size : Nat} : Sat (readCod u d p size) (Same d) := by
  unfold readCod
  repeat' first
    | exact Sat.error
    | exact Sat.pure (Same.refl d)
    | exact Sat.pure (Same.mk d _)
    | refine Sat.bind fun _ => ?_
    | split

theorem readCoc_same {u : User} {d : Dec} {p : List UInt8} {size : Nat} : Sat (readCoc u d p size) (Same d) := by
  unfold readCoc
  dsimp only
  iterate 7 refine Sat.bind fun _ => ?_
  exact Sat.pure (Same.mk d _)

theorem readRgn_same {d : Dec} {p : List UInt8} {size : Nat} : Sat (readRgn d p size) (Same d) := by
  unfold readRgn
  dsimp only
  iterate 6 refine Sat.bind fun _ => ?_
  exact Sat.pure (Same.mk d _)

theorem readQcd_same {d : Dec} {p : List UInt8} {size : Nat} : Sat (readQcd d p size) (Same d) := by
  unfold readQcd
  split
  · exact Sat.error
  · iterate 2 refine Sat.bind fun _ => ?_
    exact Sat.pure (Same.mk d _)

theorem readQcc_same {d : Dec} {p : List UInt8} {size : Nat} : Sat (readQcc d p size) (Same d) := by
  unfold readQcc
  dsimp only
  iterate 6 refine Sat.bind fun _ => ?_
  exact Sat.pure (Same.mk d _)

theorem readPoc_same {d : Dec} {p : List UInt8} {size : Nat} : Sat (readPoc d p size) (Same d) := by
  unfold readPoc
  dsimp only
  iterate 3 refine Sat.bind fun _ => ?_
  exact Sat.pure (Same.mk d _)

theorem readMct_same {d : Dec} {p : List UInt8} {size : Nat} : Sat (readMct d p size) (Same d) := by
  unfold readMct
  repeat' first
    | exact Sat.error
    | exact Sat.pure (Same.refl d)
    | exact Sat.pure (Same.mk d _)
    | refine Sat.bind fun _ => ?_
    | split

theorem readMcc_same {d : Dec} {p : List UInt8} {size : Nat} : Sat (readMcc d p size) (Same d) := by
  unfold readMcc
  repeat' first
    | exact Sat.error
    | exact Sat.pure (Same.refl d)
    | exact Sat.pure (Same.mk d _)
    | refine Sat.bind fun _ => ?_
    | split

theorem addMatrix_same {d : Dec} {k : Option Nat} : Sat (addMatrix d k) (Same d) := by
  unfold addMatrix
  split
  · exact Sat.ok (Same.refl d)
  · split
    · exact Sat.error
    · iterate 2 refine Sat.bind fun _ => ?_
      exact Sat.pure (Same.mk d _)

theorem addOffsets_same {u : User} {d : Dec} {k : Option Nat} : Sat (addOffsets u d k) (Same d) := by
  unfold addOffsets
  split
  · exact Sat.ok (Same.refl d)
  · split
    · exact Sat.error
    · iterate 2 refine Sat.bind fun _ => ?_
      exact Sat.pure (Same.mk d _)

theorem Same.trans {a b c : Dec} (h : Same a b) (h' : Same b c) : Same a c := by
  unfold Same at *
  rw [h', h]

theorem addMct_same {u : User} {d : Dec} {i : Nat} : Sat (addMct u d i) (Same d) := by
  unfold addMct
  split
  · exact Sat.pure (Same.refl d)
  · split
    · exact Sat.pure (Same.refl d)
    · split
      · exact Sat.pure (Same.refl d)
      · refine Sat.bindP addMatrix_same fun d1 h1 => ?_
        intro d2 h2
        exact h1.trans (addOffsets_same d2 h2)

theorem readMco_same {u : User} {d : Dec} {p : List UInt8} {size : Nat} : Sat (readMco u d p size) (Same d) := by
  unfold readMco
  dsimp only
  refine Sat.bind fun _ => ?_
  refine Sat.bind fun ⟨n, p⟩ => ?_
  dsimp only
  split
  · exact Sat.pure (Same.refl d)
  · refine Sat.bind fun _ => ?_
    split
    · exact Sat.pure (Same.mk d _)
    · refine Sat.bind fun _ => ?_
      intro d2 h2
      exact (Same.mk d _).trans (addMct_same d2 h2)

/-- In the state `TPH`, a shared handler changes nothing but the parameters of the tile. -/
theorem handle_same {u : User} {m : Nat} {d : Dec} {p : List UInt8} {size : Nat} (hm : Tp.allowed .tph m = true) :
    Sat (handle u m d p size) (Same d) := by
  have no : ∀ k, [0xFF90, 0xFF51, 0xFF55, 0xFF57, 0xFF60, 0xFF91, 0xFF63, 0xFF78, 0xFF50, 0xFF59].contains k = true →
      m ≠ k := by
    intro k hk e
    subst e
    rw [Tp.allowed, hk] at hm
    exact nomatch hm
  unfold handle
  refine Sat.ite (fun e => absurd e (no _ rfl)) fun _ => ?_
  refine Sat.ite (fun _ => readCod_same) fun _ => ?_
  refine Sat.ite (fun _ => readCoc_same) fun _ => ?_
  refine Sat.ite (fun _ => readRgn_same) fun _ => ?_
  refine Sat.ite (fun _ => readQcd_same) fun _ => ?_
  refine Sat.ite (fun _ => readQcc_same) fun _ => ?_
  refine Sat.ite (fun _ => readPoc_same) fun _ => ?_
  refine Sat.ite (fun e => absurd e (no _ rfl)) fun _ => ?_
  refine Sat.ite (fun e => absurd e (no _ rfl)) fun _ => ?_
  refine Sat.ite (fun e => absurd e (no _ rfl)) fun _ => ?_
  refine Sat.ite (fun e => absurd e (no _ rfl)) fun _ => ?_
  refine Sat.ite (fun _ => Sat.ok (Same.refl d)) fun _ => ?_
  refine Sat.ite (fun _ => readMct_same) fun _ => ?_
  refine Sat.ite (fun _ => readMcc_same) fun _ => ?_
  refine Sat.ite (fun _ => readMco_same) fun _ => ?_
  refine Sat.ite (fun e => absurd e (no _ rfl)) fun _ => ?_
  refine Sat.ite (fun e => absurd e (no _ rfl)) fun _ => ?_
  refine Sat.ite (fun e => absurd e (no _ rfl)) fun _ => ?_
  exact Sat.error

/-- What the main header leaves, in full. -/
theorem readHeader_strong {u : User} (hu : u.reduce < 64) (s : List UInt8) :
    Post (readHeader u s) (fun r => 1000 ≤ r.1.buf.length ∧ Inv u r.1 ∧ CodDone u r.1.tcp) := by
  unfold readHeader
  dsimp only
  refine Post.bind (refuseIf_post _) fun _ h1 => ?_
  refine Post.bind (next_post (by omega) (by omega)) fun ⟨soc, s1⟩ _ => ?_
  dsimp only
  refine Post.bind (refuseIf_post _) fun _ _ => ?_
  refine Post.bind load_post fun ⟨b2, s2⟩ ⟨hl2, hs2, hb2⟩ => ?_
  dsimp only at hs2 hb2 ⊢
  have hlen2 := load_len hl2 hb2
  rw [List.length_replicate] at hlen2
  refine Post.bind (next_post (by omega) (by omega)) fun ⟨m, _⟩ _ => ?_
  dsimp only
  refine Post.bind (readMarkers_post hu _ m _ s2 (Nat.lt_succ_self _)
    ⟨by show 1000 ≤ b2.length; omega, fun _ => ⟨rfl, rfl, rfl, rfl⟩, (fun h => nomatch h), (fun h => nomatch h)⟩) fun ⟨d, s3⟩ hd => ?_
  dsimp only at hd ⊢
  refine Post.bind (refuseIf_post _) fun _ g1 => ?_
  refine Post.bind (refuseIf_post _) fun _ g2 => ?_
  refine Post.bind (refuseIf_post _) fun _ g3 => ?_
  have hsz : d.siz = true := by
    cases h : d.siz with
    | true => rfl
    | false => exact absurd (hd.start h).2.1 g1
  have hi := hd.inv hsz
  have hc := hd.cod (by simpa using g2)
  refine Post.bind (mergePpm_post d) fun d' hd' => ?_
  refine Post.pure ?_
  rcases hd' with ⟨_, rfl⟩ | ⟨out, rfl, _⟩
  · exact ⟨hd.buf, hi, hc⟩
  · refine ⟨hd.buf, ⟨hi.siz, ?_, hi.tcp⟩, hc⟩
    have g := hi.geom
    exact ⟨g.image_x, g.image_y, g.tile_x, g.tile_y, g.count_x, g.count_y, g.count, g.comps_len, fun c hc =>
      ⟨(g.comps c hc).prec, (g.comps c hc).sgnd, (g.comps c hc).dx, (g.comps c hc).dy, (g.comps c hc).factor,
        (g.comps c hc).x0, (g.comps c hc).y0, (g.comps c hc).w, (g.comps c hc).h⟩⟩

end Jp2.Hdr

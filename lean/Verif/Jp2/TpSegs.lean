import Verif.Jp2.TpFull
import Verif.Jp2.HdrStdMore
/-!
# The marker segments of a tile-part header
-/
namespace Jp2.Hdr

/-! ## Handlers do not look behind their segment -/

theorem next_ext {n : Nat} {p : List UInt8} {x : Nat × List UInt8} (z : List UInt8) (h : next n p = .ok x) :
    next n (p ++ z) = .ok (x.1, x.2 ++ z) := by
  by_cases hn : 0 < n ∧ n ≤ 4 ∧ n ≤ p.length
  · rw [next_eq hn.2.2 ⟨hn.1, hn.2.1⟩] at h
    injection h with h
    rw [next_eq (by rw [List.length_append]; omega) ⟨hn.1, hn.2.1⟩, ← h, List.take_append_of_le_length hn.2.2,
      List.drop_append_of_le_length hn.2.2]
  · exfalso
    unfold next at h
    have : Cio.readBytes p 0 n = none := by
      unfold Cio.readBytes Cio.sliceOf
      split
      · rw [if_neg (by omega)]; rfl
      · rfl
    rw [this] at h
    cases h

theorem readPrcs_ext (z : List UInt8) : ∀ (n i : Nat) (p : List UInt8) r, readPrcs n i p = .ok r → readPrcs n i (p ++ z) = .ok r
  | 0, _, _, _, h => h
  | n + 1, i, p, r, h => by
    rw [readPrcs] at h ⊢
    obtain ⟨⟨v, q⟩, h1, h⟩ := bind_ok h
    rw [next_ext z h1, ok_bind]
    obtain ⟨_, h2, h⟩ := bind_ok h
    dsimp only at h2 ⊢
    rw [h2, ok_bind]
    obtain ⟨rest, h3, h⟩ := bind_ok h
    rw [readPrcs_ext z n _ _ _ h3, ok_bind]
    exact h

theorem readSteps1_ext (z : List UInt8) : ∀ (n : Nat) (p : List UInt8) r, readSteps1 n p = .ok r → readSteps1 n (p ++ z) = .ok r
  | 0, _, _, h => h
  | n + 1, p, r, h => by
    rw [readSteps1] at h ⊢
    obtain ⟨⟨v, q⟩, h1, h⟩ := bind_ok h
    rw [next_ext z h1, ok_bind]
    obtain ⟨rest, h3, h⟩ := bind_ok h
    dsimp only at h3 ⊢
    rw [readSteps1_ext z n _ _ h3, ok_bind]
    exact h

theorem readSteps2_ext (z : List UInt8) : ∀ (n : Nat) (p : List UInt8) r, readSteps2 n p = .ok r → readSteps2 n (p ++ z) = .ok r
  | 0, _, _, h => h
  | n + 1, p, r, h => by
    rw [readSteps2] at h ⊢
    obtain ⟨⟨v, q⟩, h1, h⟩ := bind_ok h
    rw [next_ext z h1, ok_bind]
    obtain ⟨rest, h3, h⟩ := bind_ok h
    dsimp only at h3 ⊢
    rw [readSteps2_ext z n _ _ h3, ok_bind]
    exact h

theorem readSPCod_ext {u : User} {t : Tccp} {p : List UInt8} {n : Nat} {r : Tccp × Nat} (z : List UInt8)
    (h : readSPCod u t p n = .ok r) : readSPCod u t (p ++ z) n = .ok r := by
  unfold readSPCod at h ⊢
  obtain ⟨_, h1, h⟩ := bind_ok h
  rw [h1, ok_bind]
  obtain ⟨⟨a, p1⟩, h1, h⟩ := bind_ok h
  rw [next_ext z h1, ok_bind]
  dsimp only at h ⊢
  obtain ⟨_, h1, h⟩ := bind_ok h
  rw [h1, ok_bind]
  obtain ⟨_, h1, h⟩ := bind_ok h
  rw [h1, ok_bind]
  obtain ⟨⟨b, p2⟩, h1, h⟩ := bind_ok h
  rw [next_ext z h1, ok_bind]
  dsimp only at h ⊢
  obtain ⟨⟨c, p3⟩, h1, h⟩ := bind_ok h
  rw [next_ext z h1, ok_bind]
  dsimp only at h ⊢
  obtain ⟨_, h1, h⟩ := bind_ok h
  rw [h1, ok_bind]
  obtain ⟨⟨e, p4⟩, h1, h⟩ := bind_ok h
  rw [next_ext z h1, ok_bind]
  dsimp only at h ⊢
  obtain ⟨_, h1, h⟩ := bind_ok h
  rw [h1, ok_bind]
  obtain ⟨⟨f, p5⟩, h1, h⟩ := bind_ok h
  rw [next_ext z h1, ok_bind]
  dsimp only at h ⊢
  obtain ⟨_, h1, h⟩ := bind_ok h
  rw [h1, ok_bind]
  by_cases hc : t.csty % 2 ≠ 0
  · rw [if_pos hc] at h ⊢
    obtain ⟨_, h1, h⟩ := bind_ok h
    rw [h1, ok_bind]
    obtain ⟨new, h1, h⟩ := bind_ok h
    rw [readPrcs_ext z _ _ _ _ h1, ok_bind]
    exact h
  · rw [if_neg hc] at h ⊢
    exact h

theorem readSQcd_ext {t : Tccp} {p : List UInt8} {n : Nat} {r : Tccp × Nat} (z : List UInt8)
    (h : readSQcd t p n = .ok r) : readSQcd t (p ++ z) n = .ok r := by
  unfold readSQcd at h ⊢
  obtain ⟨_, h1, h⟩ := bind_ok h
  rw [h1, ok_bind]
  obtain ⟨⟨a, p1⟩, h1, h⟩ := bind_ok h
  rw [next_ext z h1, ok_bind]
  dsimp only at h ⊢
  by_cases hc : a % 32 = 0
  · rw [if_pos hc] at h ⊢
    obtain ⟨new, h1, h⟩ := bind_ok h
    rw [readSteps1_ext z _ _ _ h1, ok_bind]
    exact h
  · rw [if_neg hc] at h ⊢
    obtain ⟨new, h1, h⟩ := bind_ok h
    rw [readSteps2_ext z _ _ _ h1, ok_bind]
    exact h

theorem readCoc_ext {u : User} {d d' : Dec} {p : List UInt8} {n : Nat} (z b : List UInt8)
    (h : readCoc u d p n = .ok d') : readCoc u { d with buf := b } (p ++ z) n = .ok { d' with buf := b } := by
  unfold readCoc at h ⊢
  dsimp only at h ⊢
  obtain ⟨_, h1, h⟩ := bind_ok h
  rw [h1, ok_bind]
  obtain ⟨⟨a, p1⟩, h1, h⟩ := bind_ok h
  rw [next_ext z h1, ok_bind]
  dsimp only at h ⊢
  obtain ⟨_, h1, h⟩ := bind_ok h
  rw [h1, ok_bind]
  obtain ⟨⟨c, p2⟩, h1, h⟩ := bind_ok h
  rw [next_ext z h1, ok_bind]
  dsimp only at h ⊢
  obtain ⟨t, h1, h⟩ := bind_ok h
  rw [show comp { d with buf := b } a = .ok t from h1, ok_bind]
  obtain ⟨⟨t', l⟩, h1, h⟩ := bind_ok h
  rw [readSPCod_ext z h1, ok_bind]
  dsimp only at h ⊢
  obtain ⟨_, h1, h⟩ := bind_ok h
  rw [h1, ok_bind]
  injection h with h
  subst h
  rfl

theorem readQcc_ext {d d' : Dec} {p : List UInt8} {n : Nat} (z b : List UInt8)
    (h : readQcc d p n = .ok d') : readQcc { d with buf := b } (p ++ z) n = .ok { d' with buf := b } := by
  unfold readQcc at h ⊢
  dsimp only at h ⊢
  obtain ⟨_, h1, h⟩ := bind_ok h
  rw [h1, ok_bind]
  obtain ⟨⟨a, p1⟩, h1, h⟩ := bind_ok h
  rw [next_ext z h1, ok_bind]
  dsimp only at h ⊢
  obtain ⟨_, h1, h⟩ := bind_ok h
  rw [h1, ok_bind]
  obtain ⟨t, h1, h⟩ := bind_ok h
  rw [show comp { d with buf := b } a = .ok t from h1, ok_bind]
  obtain ⟨⟨t', l⟩, h1, h⟩ := bind_ok h
  rw [readSQcd_ext z h1, ok_bind]
  dsimp only at h ⊢
  obtain ⟨_, h1, h⟩ := bind_ok h
  rw [h1, ok_bind]
  injection h with h
  subst h
  rfl

end Jp2.Hdr

namespace Jp2.Tp
open Jp2.Hdr (R User be TcpInv Style Quant Change cocBody qccBodyStd rgnBodyStd)

theorem inv_par {u : User} {h : Hdr.Dec} {a : Par} (hi : Hdr.Inv u h) (ha : TcpInv u h.comps.length a.tcp) (buf : List UInt8) :
    Hdr.Inv u { h with buf := buf, tcp := a.tcp } := inv_tile (h := { h with buf := buf }) hi rfl ha

theorem seg_coc {u : User} {h : Hdr.Dec} {a : Par} {i : Nat} {t : Hdr.Tccp} {s : Style} (hi : Hdr.Inv u h)
    (ha : TcpInv u h.comps.length a.tcp) (hs : s.Valid) (hu : u.reduce ≤ s.levels) (ht : a.tcp.tccps[i]? = some t) :
    ∃ ps, (∀ r ≤ s.levels, ps[r]? = s.precinct r) ∧
      SegStep u h a (0xFF53, cocBody h.comps.length i s) { a with tcp := { a.tcp with tccps := a.tcp.tccps.set i { t with
        csty := s.scoc, numres := s.levels + 1, cblkw := s.xcb, cblkh := s.ycb, cblksty := s.modes,
        qmfbid := if s.reversible then 1 else 0, prcs := ps } } } := by
  obtain ⟨ps, h1, h2⟩ := Hdr.readCoc_std (d := { h with tcp := a.tcp }) [] (inv_par hi ha h.buf) hs hu ht
  refine ⟨ps, h2, SegStep.shared (by decide) (by decide) (by decide) ?_⟩
  intro buf tail _
  rw [List.append_nil] at h1
  exact Hdr.readCoc_ext tail buf h1

theorem seg_qcc {u : User} {h : Hdr.Dec} {a : Par} {i levels : Nat} {t : Hdr.Tccp} {q : Quant} (hi : Hdr.Inv u h)
    (ha : TcpInv u h.comps.length a.tcp) (hq : q.Valid levels) (ht : a.tcp.tccps[i]? = some t) :
    ∃ ss, (∀ k ≤ 3 * levels, ss[k]? = q.steps.step levels k) ∧
      SegStep u h a (0xFF5D, qccBodyStd h.comps.length i q) { a with tcp := { a.tcp with tccps := a.tcp.tccps.set i { t with
        qntsty := q.steps.tag, numgbits := q.guard, steps := ss } } } := by
  obtain ⟨ps, h1, h2⟩ := Hdr.readQcc_std (d := { h with tcp := a.tcp }) [] (inv_par hi ha h.buf) hq ht
  refine ⟨ps, h2, SegStep.shared (by decide) (by decide) (by decide) ?_⟩
  intro buf tail _
  rw [List.append_nil] at h1
  exact Hdr.readQcc_ext tail buf h1

theorem seg_rgn {u : User} {h : Hdr.Dec} {a : Par} {i v : Nat} {t : Hdr.Tccp} (hi : Hdr.Inv u h)
    (ha : TcpInv u h.comps.length a.tcp) (hv : v < 256) (ht : a.tcp.tccps[i]? = some t) :
    SegStep u h a (0xFF5E, rgnBodyStd h.comps.length i v)
      { a with tcp := { a.tcp with tccps := a.tcp.tccps.set i { t with roishift := v } } } := by
  refine SegStep.shared (by decide) (by decide) (by decide) ?_
  intro buf tail _
  exact Hdr.readRgn_std (d := { h with buf := buf, tcp := a.tcp }) tail (inv_par hi ha buf) hv ht

theorem seg_poc {u : User} {h : Hdr.Dec} {a : Par} {l : List Change} (hi : Hdr.Inv u h)
    (ha : TcpInv u h.comps.length a.tcp) (hl : l ≠ []) (h32 : a.tcp.pocs.length + l.length < 32)
    (hv : ∀ c ∈ l, c.Valid h.comps.length a.tcp.numlayers) :
    SegStep u h a (0xFF5F, l.flatMap (Change.bytes h.comps.length))
      { a with tcp := { a.tcp with pocs := a.tcp.pocs ++ l.map Change.poc } } := by
  refine SegStep.shared (by decide) (by decide) (by decide) ?_
  intro buf tail _
  exact Hdr.readPoc_std (d := { h with buf := buf, tcp := a.tcp }) tail (inv_par hi ha buf) hl h32 hv

theorem seg_com {u : User} {h : Hdr.Dec} {a : Par} (text : List UInt8) : SegStep u h a (0xFF64, text) a :=
  SegStep.shared (tcp := a.tcp) (by decide) (by decide) (by decide) fun _ _ _ => rfl

/-- What headers can have said of a tile. -/
inductive Told (u : User) (h : Hdr.Dec) : Par → Prop
  | start : Told u h { tcp := h.tcp }
  | step {a s b} : Told u h a → SegStep u h a s b → Told u h b

theorem told_inv {u : User} {h : Hdr.Dec} {a : Par} (hi : Hdr.Inv u h) (t : Told u h a) : TcpInv u h.comps.length a.tcp := by
  induction t with
  | start => exact hi.tcp
  | @step a s b _ st ih =>
    cases st with
    | plt _ _ => exact ih
    | ppt _ _ _ => exact ih
    | @shared m bs tcp _ _ hm hh =>
      have hl : 1000 ≤ (bs ++ List.replicate 1000 (0 : UInt8)).length := by
        rw [List.length_append, List.length_replicate]; omega
      have e := hh [] (List.replicate 1000 0) hl
      have hne : m ≠ 0xFF51 := by rintro rfl; revert hm; decide
      have hp := Hdr.handle_siz_post (u := u) (m := m) (size := bs.length) (inv_par hi ih []) hne
        (by rw [List.length_append]; omega) (by omega : 5 ≤ (bs ++ List.replicate 1000 (0 : UInt8)).length)
      rw [e] at hp
      exact hp.1.2.1.tcp

end Jp2.Tp

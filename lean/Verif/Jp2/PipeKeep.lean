import Verif.Jp2.T2Skip
import Verif.Jp2.T2Loop
/-!
# Reading packets does not touch empty bands
-/
namespace Jp2.T2

/-- The band is still empty, and as it was. -/
def Still (b b' : DecBand) : Prop := b'.empty = b.empty ∧ (b.empty = true → b' = b)

theorem Still.rfl' (b : DecBand) : Still b b := ⟨rfl, fun _ => rfl⟩
theorem Still.trans {a b c : DecBand} (h : Still a b) (k : Still b c) : Still a c :=
  ⟨k.1.trans h.1, fun e => (k.2 (h.1.trans e)).trans (h.2 e)⟩
theorem still_refl : ∀ bs : List DecBand, List.Forall₂ Still bs bs
  | [] => .nil
  | b :: bs => .cons (Still.rfl' b) (still_refl bs)
theorem still_trans {a b c : List DecBand} (h : List.Forall₂ Still a b) (k : List.Forall₂ Still b c) : List.Forall₂ Still a c :=
  forall2_trans (R := Still) (fun _ _ _ p q => Still.trans p q) h k

theorem startDec_still : ∀ (bs a : List DecBand), startDecBands bs = some a → List.Forall₂ Still bs a
  | [], a, h => by cases h; exact .nil
  | b :: bs, a, h => by
    unfold startDecBands at h
    rw [Option.bind_eq_some_iff] at h
    obtain ⟨b', h1, h⟩ := h
    rw [Option.map_eq_some_iff] at h
    obtain ⟨bs', h2, rfl⟩ := h
    refine .cons ?_ (startDec_still bs bs' h2)
    split at h1
    · cases h1; exact Still.rfl' b
    · rename_i he
      rw [Option.map_eq_some_iff] at h1
      obtain ⟨p, -, rfl⟩ := h1
      exact ⟨rfl, fun e => absurd e he⟩

theorem decBands_still (sty layno : Nat) (s : Bio.Bio) (bs : List DecBand) : Gives (fun r => List.Forall₂ Still bs r.2) (decBands sty layno s bs) := by
  induction bs generalizing s with
  | nil => exact Gives.ok .nil
  | cons b bs ih =>
    unfold decBands
    split
    · exact Gives.bind (ih s) fun r hr => Gives.ok (.cons (Still.rfl' b) hr)
    · rename_i he
      refine Gives.bind (Gives.true _) fun r1 _ => ?_
      exact Gives.bind (ih r1.1.s) fun r2 h2 => Gives.ok (.cons ⟨rfl, fun e => absurd e he⟩ h2)

theorem dataBands_still (strict : Bool) (q : BodySt) (bs : List DecBand) : Gives (fun r => List.Forall₂ Still bs r.2) (dataBands strict q bs) := by
  induction bs generalizing q with
  | nil => exact Gives.ok .nil
  | cons b bs ih =>
    unfold dataBands
    split
    · exact Gives.bind (ih q) fun r hr => Gives.ok (.cons (Still.rfl' b) hr)
    · rename_i he
      refine Gives.bind (Gives.true _) fun r1 _ => ?_
      exact Gives.bind (ih r1.1) fun r2 h2 => Gives.ok (.cons ⟨rfl, fun e => absurd e he⟩ h2)

theorem skipBands_still (strict : Bool) (mx : Nat) (q : SkipSt) (bs : List DecBand) : Gives (fun r => List.Forall₂ Still bs r.2) (skipBands strict mx q bs) := by
  induction bs generalizing q with
  | nil => exact Gives.ok .nil
  | cons b bs ih =>
    unfold skipBands
    split
    · exact Gives.bind (ih q) fun r hr => Gives.ok (.cons (Still.rfl' b) hr)
    · rename_i he
      refine Gives.bind (Gives.true _) fun r1 _ => ?_
      exact Gives.bind (ih r1.1) fun r2 h2 => Gives.ok (.cons ⟨rfl, fun e => absurd e he⟩ h2)

theorem readHeader_still (csty sty layno : Nat) (packed : Option (List UInt8)) (bs : List DecBand) (src : List UInt8) :
    Gives (fun r => List.Forall₂ Still bs r.bands) (readHeader csty sty layno packed bs src) := by
  unfold readHeader
  have fin : ∀ (n : Nat) (p : Bool) (x : List DecBand), List.Forall₂ Still bs x →
      List.Forall₂ Still bs (endHeader csty (sopLen csty src) packed (packed.getD (src.drop (sopLen csty src))) n p x).bands := by
    intro n p x hx
    unfold endHeader
    cases packed <;> exact hx
  refine Gives.bind (Q := fun a => List.Forall₂ Still bs a) (Gives.opt fun a ha => ?_) fun b1 h1 => ?_
  · split at ha
    · exact startDec_still bs a ha
    · cases ha; exact still_refl bs
  refine Gives.bind (Gives.true _) fun r1 _ => ?_
  dsimp only
  split
  · exact Gives.bind (Gives.true _) fun r2 _ => Gives.ok (fin _ _ _ h1)
  · refine Gives.bind (decBands_still sty layno _ b1) fun r2 h2 => ?_
    refine Gives.bind (Gives.true _) fun r3 _ => ?_
    split
    · exact Gives.err _
    · exact Gives.ok (fin _ _ _ (still_trans h1 h2))

theorem onePacket_still (csty : Nat) (sty : Nat → Nat) (strict : Bool) (want : Want) (p : Pi.Pkt) (packed : Option (List UInt8)) (t : Tile) (src : List UInt8) :
    Gives (fun r => List.Forall₂ Still (t p.compno p.resno p.precno) r.2.2) (onePacket csty sty strict want p packed t src) := by
  unfold onePacket
  split
  · unfold skipPacket
    refine Gives.bind (readHeader_still csty _ _ packed _ src) fun r hr => ?_
    split
    · exact Gives.bind (skipBands_still strict _ _ _) fun r2 h2 => Gives.ok (still_trans hr h2)
    · exact Gives.ok hr
  · unfold decodePacket
    refine Gives.bind (readHeader_still csty _ _ packed _ src) fun r hr => ?_
    split
    · unfold readData
      refine Gives.bind (Q := fun (r2 : Nat × List DecBand) => List.Forall₂ Still r.bands r2.2) ?_ fun r2 h2 => Gives.ok (still_trans hr h2)
      exact Gives.bind (dataBands_still strict _ _) fun r2 h2 => Gives.ok h2
    · exact Gives.ok hr

/-- Whatever packets are read, an empty band is afterwards what it was. -/
theorem decodePackets_still (csty : Nat) (sty : Nat → Nat) (strict : Bool) (want : Want) (ps : List Pi.Pkt) (packed : Option (List UInt8)) (t : Tile) (src : List UInt8) :
    Gives (fun r => ∀ c r' k, List.Forall₂ Still (t c r' k) (r.2.2 c r' k)) (decodePackets csty sty strict want ps packed t src) := by
  induction ps generalizing packed t src with
  | nil => exact Gives.ok fun _ _ _ => still_refl _
  | cons p ps ih =>
    unfold decodePackets
    refine Gives.bind (onePacket_still csty sty strict want p packed t src) fun r1 h1 => ?_
    refine Gives.bind (ih _ _ _) fun r2 h2 => Gives.ok fun c r k => still_trans ?_ (h2 c r k)
    unfold Tile.set
    split
    · rename_i e
      obtain ⟨rfl, rfl, rfl⟩ := e
      exact h1
    · exact still_refl _

end Jp2.T2

import Verif.Jp2.PiEnc
import Verif.Jp2.PiProps
/-!
# The encoder's iterators against the orders of the standard
-/
namespace Jp2.Pi
open Spec

/-- What the set-up of a tile computes. -/
def specInfo (t : Tile) (cs : List CompParams) (mp mr : Nat) : TileInfo :=
  let d := encComps (cs.map (specComp t)) (0x7FFFFFFF, 0x7FFFFFFF)
  ⟨(t.tx0, t.ty0, t.tx1, t.ty1), cs.map (specComp t), mp, mr, d.1, d.2⟩

theorem tileInfo_max (m : Mode) {p : TileParams} {n : Nat} (h : ParamsFit p n) :
    tileInfo m p n = some (specInfo (tileRect p n) p.comps (maxPrec (p.comps.map (specComp (tileRect p n))))
      (maxRes (p.comps.map (specComp (tileRect p n))))) := by
  have hT := h.tile
  unfold tileInfo
  rw [tileBounds_eq h]
  rw [mkComps_eq m (tileRect p n) hT.x hT.y hT.x1 hT.y1 p.comps hT.comps]
  rfl

theorem tileInfo_eq (m : Mode) {p : TileParams} {n : Nat} (h : ParamsFit p n)
    (hi : IndexFits (tileRect p n) p.comps p.numlayers) :
    ∃ mp mr, Geo (tileRect p n) p.comps p.numlayers mp mr ∧
      tileInfo m p n = some (specInfo (tileRect p n) p.comps mp mr) :=
  ⟨_, _, geo_of h.tile hi, tileInfo_max m h⟩

theorem Geo.steps {t : Tile} {cs : List CompParams} {L mp mr : Nat} (g : Geo t cs L mp mr) :
    cs.length * mp % 2 ^ 32 = cs.length * mp ∧ mr * (cs.length * mp) % 2 ^ 32 = mr * (cs.length * mp) ∧
      L * (mr * (cs.length * mp)) % 2 ^ 32 = L * (mr * (cs.length * mp)) := by
  have hs := g.size
  have hp := g.pos
  have a1 : cs.length * mp ≤ mr * (cs.length * mp) :=
    Nat.le_mul_of_pos_left _ (Nat.pos_of_ne_zero (by rintro e; rw [e] at hp; simp at hp))
  obtain ⟨A, hA⟩ : ∃ A, A = mr * (cs.length * mp) := ⟨_, rfl⟩
  rw [← hA] at hs a1 ⊢
  have a2 : A ≤ (L + 1) * A := Nat.le_mul_of_pos_left _ (by omega)
  have a3 : L * A ≤ (L + 1) * A := Nat.mul_le_mul_right _ (by omega)
  exact ⟨Nat.mod_eq_of_lt (by omega), Nat.mod_eq_of_lt (by omega), Nat.mod_eq_of_lt (by omega)⟩

/-- The packets in the range of a progression of the encoder. -/
def EncPoc.bounds (e : EncPoc) : Bounds := ⟨e.layS, e.layE, e.resS, e.resE, e.compS, e.compE⟩

/-- The ranges of a progression of the encoder are within the tile. -/
structure EncFit (N L : Nat) (e : EncPoc) : Prop where
  lay : e.layE ≤ L
  prec : e.prcS = 0
  res : e.resE < 2 ^ 32
  comp0 : e.compS < N
  comp1 : e.compE ≤ N

variable {t : Tile} {cs : List CompParams}

theorem pidx_lt' {L mp mr : Nat} (g : Geo t cs L mp mr) {p : Pkt} (hl : p.layno < L)
    (hp : p.precno < numPrec t cs p.compno p.resno) : pidx cs.length mp mr p < L * (mr * (cs.length * mp)) := by
  obtain ⟨e, _, _, h, _⟩ := pidx_lt g hl hp
  rw [e]
  have : (p.layno + 1) * (mr * (cs.length * mp)) ≤ L * (mr * (cs.length * mp)) := Nat.mul_le_mul_right _ (by omega)
  rw [Nat.add_mul] at this
  omega

theorem encIt_ready (hf : TileFit t cs) {p : TileParams} (hc : cs = p.comps) {mp mr : Nat}
    (hL : p.numlayers < 2 ^ 32) (g : Geo t cs p.numlayers mp mr) {q : Poc} (hp : q.precno0 = 0) (hl : q.layno1 ≤ p.numlayers)
    (hr : q.resno1 < 2 ^ 32) (h0 : q.compno0 < cs.length) (h1 : q.compno1 ≤ cs.length) :
    Ready t cs mp mr q (encIt p (specInfo t cs mp mr) false q) := by
  obtain ⟨s1, s2, s3⟩ := g.steps
  have hlen : (specInfo t cs mp mr).cs.length * (specInfo t cs mp mr).mp = cs.length * mp := by
    simp [specInfo]
  refine ⟨rfl, rfl, ?_, rfl, rfl, rfl, rfl, rfl, rfl, ?_, by omega, hp, hr, h0, h1⟩
  · funext k
    unfold It.idx pidx encIt
    simp only
    rw [hlen, s1, show (specInfo t cs mp mr).mr = mr from rfl, s2]
    rfl
  · intro k hk
    have hk := isPacket_of_mem hf hk
    unfold IsPacket Poc.bounds at hk
    obtain ⟨_, a2, _, _, _, _, a7⟩ := hk
    simp only at a2
    unfold encIt
    simp only
    rw [hlen, s1, show (specInfo t cs mp mr).mr = mr from rfl, s2, s3]
    exact pidx_lt' g (by omega) a7

/-- A set of free packets is swept in order. -/
theorem sweep_free {mp mr L : Nat} (hf : TileFit t cs) (g : Geo t cs L mp mr) {b : Bounds} {prg : Int} (hl : b.lay1 ≤ L) :
    (sweep (pidx cs.length mp mr) (fun _ => false) (order t cs b prg)).1 = order t cs b prg := by
  rw [sweep_eq]
  · rw [List.filter_eq_self.mpr (by simp)]
    exact eraseDups_nodup _ _ (le_refl _) (order_nodup hf b prg)
  · intro a ha b' hb e
    have ka := isPacket_of_mem hf ha
    have kb := isPacket_of_mem hf hb
    unfold IsPacket at ka kb
    exact pidx_inj g (by omega) ka.2.2.2.2.2.2 (by omega) kb.2.2.2.2.2.2 e

/-- One tile-part without a division: the whole progression. -/
theorem encParts_one (m : Mode) (hf : TileFit t cs) {p : TileParams} (hc : cs = p.comps) (hnc : cs.length < 2 ^ 32 - 1)
    {mp mr : Nat} (hL : p.numlayers < 2 ^ 32) (hlt : ∀ c r, numPrec t cs c r < 2 ^ 32)
    (g : Geo t cs p.numlayers mp mr) (e : EncPoc) (he : EncFit cs.length p.numlayers e) (ho : OrderOk t cs e.prg)
    (first : Bool) :
    ∃ F, ∀ fuel, F ≤ fuel → encParts m fuel p (specInfo t cs mp mr) false first 1 0 e =
      some [order t cs e.bounds e.prg] := by
  have hr := encIt_ready hf hc hL g (q := pocAll e) he.prec he.lay he.res he.comp0 he.comp1
  obtain ⟨F, hF⟩ := drain_it m hf hnc hlt (pocAll e) ho (fun _ => false) _ hr rfl
  refine ⟨F, fun fuel hfu => ?_⟩
  obtain ⟨s', e1, _⟩ := hF fuel fuel hfu hfu
  unfold encParts encParts createEncode
  simp only [Bool.false_eq_true, if_false, Option.bind_eq_bind, Option.bind_some, Bool.false_and]
  rw [e1]
  simp only [Option.bind_some]
  rw [sweep_free hf g (b := (pocAll e).bounds) he.lay]
  rfl

theorem encProgs_none (m : Mode) (hf : TileFit t cs) {p : TileParams} (hc : cs = p.comps) (hnc : cs.length < 2 ^ 32 - 1)
    {mp mr : Nat} (hL : p.numlayers < 2 ^ 32) (hlt : ∀ c r, numPrec t cs c r < 2 ^ 32)
    (g : Geo t cs p.numlayers mp mr) (hp : lettersOf p.prg ≠ []) : ∀ (es : List EncPoc) (first : Bool),
    (∀ e ∈ es, EncFit cs.length p.numlayers e ∧ OrderOk t cs e.prg) →
    ∃ F, ∀ fuel, F ≤ fuel → encProgs m fuel p (specInfo t cs mp mr) none first es =
      some (es.map fun e => order t cs e.bounds e.prg) := by
  intro es
  induction es with
  | nil => intro first _; exact ⟨0, fun fuel _ => rfl⟩
  | cons e es ih =>
    intro first h
    obtain ⟨h1, h2⟩ := h e (by simp)
    obtain ⟨F1, k1⟩ := encParts_one m hf hc hnc hL hlt g e h1 h2 first
    obtain ⟨F2, k2⟩ := ih false fun q hq => h q (List.mem_cons_of_mem _ hq)
    refine ⟨max F1 F2, fun fuel hfu => ?_⟩
    rw [encProgs]
    have hn : numTp none p.prg e = some 1 := by unfold numTp; rw [if_neg hp]
    rw [hn]
    simp only [Option.bind_eq_bind, Option.bind_some, Option.isSome_none]
    rw [k1 fuel (by omega), k2 fuel (by omega)]
    rfl

theorem encIt_size {p : TileParams} (hc : cs = p.comps) {mp mr : Nat} (g : Geo t cs p.numlayers mp mr)
    (hl : 0 < p.numlayers) : (encIt p (specInfo t cs mp mr) false {}).incSize ≠ 0 := by
  obtain ⟨s1, s2, s3⟩ := g.steps
  have hlen : (specInfo t cs mp mr).cs.length * (specInfo t cs mp mr).mp = cs.length * mp := by
    simp [specInfo]
  unfold encIt
  simp only
  rw [hlen, s1, show (specInfo t cs mp mr).mr = mr from rfl, s2, s3]
  have := Nat.mul_pos hl g.pos
  omega

/-- The encoder without tile-parts. -/
theorem encodeParts_none (m : Mode) {p : TileParams} {n : Nat} (h : ParamsFit p n)
    (hi : IndexFits (tileRect p n) p.comps p.numlayers) (hl : 0 < p.numlayers) (hp : lettersOf p.prg ≠ [])
    (hq : ∀ mp mr, Geo (tileRect p n) p.comps p.numlayers mp mr →
      ∀ e ∈ encPocs p (specInfo (tileRect p n) p.comps mp mr),
        EncFit p.comps.length p.numlayers e ∧ OrderOk (tileRect p n) p.comps e.prg) :
    ∃ mp mr, Geo (tileRect p n) p.comps p.numlayers mp mr ∧ ∃ F, ∀ fuel, F ≤ fuel → encodeParts m fuel p none n =
      some (some ((encPocs p (specInfo (tileRect p n) p.comps mp mr)).map fun e =>
        order (tileRect p n) p.comps e.bounds e.prg)) := by
  obtain ⟨mp, mr, g, e⟩ := tileInfo_eq m h hi
  have hnl := h.nl
  have hnc := h.nc
  obtain ⟨F, hF⟩ := encProgs_none m h.tile (p := p) rfl (by omega) (by omega) (fun c r => hi.lt c r) g hp _ true (hq mp mr g)
  refine ⟨mp, mr, g, F, fun fuel hfu => ?_⟩
  unfold encodeParts
  rw [e]
  simp only [Option.bind_eq_bind, Option.bind_some]
  rw [if_neg (encIt_size rfl g hl), hF fuel hfu]
  rfl

end Jp2.Pi

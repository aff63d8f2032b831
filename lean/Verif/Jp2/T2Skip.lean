import Verif.Jp2.T2SafeLoop
/-!
# Helpers for C49: skipping a packet against decoding it
-/
namespace Jp2.T2
open Jp2.Bio Jp2.Tgt

/-- Two runs end alike. -/
def Alike {α β : Type} (R : α → β → Prop) : Except Err α → Except Err β → Prop
  | .ok a, .ok b => R a b
  | .error e, .error f => e = f
  | _, _ => False

theorem Alike.bind {α β γ δ : Type} {R : α → β → Prop} {S : γ → δ → Prop} {x : Except Err α} {y : Except Err β} {f : α → Except Err γ} {g : β → Except Err δ}
    (h : Alike R x y) (hf : ∀ a b, R a b → Alike S (f a) (g b)) : Alike S (x >>= f) (y >>= g) := by
  cases x with
  | ok a => cases y with
    | ok b => exact hf a b h
    | error e => exact h.elim
  | error e => cases y with
    | ok b => exact h.elim
    | error f => exact h

theorem Alike.mono {α β : Type} {R S : α → β → Prop} {x : Except Err α} {y : Except Err β} (h : Alike R x y) (hs : ∀ a b, R a b → S a b) : Alike S x y := by
  cases x with
  | ok a => cases y with
    | ok b => exact hs a b h
    | error e => exact h.elim
  | error e => cases y with
    | ok b => exact h.elim
    | error f => exact h

theorem Alike.refl {α : Type} (x : Except Err α) : Alike Eq x x := by
  cases x <;> rfl

/-- Every result has `P`. -/
def Gives {α : Type} (P : α → Prop) (x : Except Err α) : Prop := ∀ a, x = .ok a → P a

theorem Gives.bind {α β : Type} {Q : α → Prop} {P : β → Prop} {x : Except Err α} {f : α → Except Err β} (hx : Gives Q x)
    (hf : ∀ a, Q a → Gives P (f a)) : Gives P (x >>= f) := by
  cases x with
  | ok a => exact hf a (hx a rfl)
  | error e => exact fun a h => by cases h

theorem Gives.err {α : Type} {P : α → Prop} (e : Err) : Gives P (.error e) := fun _ h => by cases h
theorem Gives.ok {α : Type} {P : α → Prop} {a : α} (h : P a) : Gives P (.ok a) := fun b hb => by cases hb; exact h
theorem Gives.true {α : Type} (x : Except Err α) : Gives (fun _ => True) x := fun _ _ => trivial
theorem Gives.opt {α : Type} {P : α → Prop} {o : Option α} (h : ∀ a, o = some a → P a) : Gives P (ofOpt o) := by
  cases o with
  | none => exact Gives.err _
  | some a => exact Gives.ok (h a rfl)

/-! ## What headers depend on -/

def Seg.strip (s : Seg) : Seg := { s with len := 0, realNumPasses := 0 }
/-- A block without what only the block decoder looks at. -/
def DecCblk.strip (c : DecCblk) : DecCblk := { c with segs := c.segs.map Seg.strip, realNumSegs := 0, chunks := [] }

/-- Segments alike but for what only the block decoder looks at. -/
abbrev SegsEq (a b : List Seg) : Prop := a.map Seg.strip = b.map Seg.strip

theorem SegsEq.get {a b : List Seg} (h : SegsEq a b) (i : Nat) : (a[i]?).map Seg.strip = (b[i]?).map Seg.strip := by
  have := congrArg (fun l : List Seg => l[i]?) h
  simpa only [List.getElem?_map] using this

theorem SegsEq.len {a b : List Seg} (h : SegsEq a b) : a.length = b.length := by
  have := congrArg List.length h
  simpa using this

theorem SegsEq.set {a b : List Seg} (h : SegsEq a b) (i : Nat) {x y : Seg} (hx : x.strip = y.strip) : SegsEq (a.set i x) (b.set i y) := by
  unfold SegsEq
  rw [List.map_set, List.map_set, h, hx]

theorem strip_fields {x y : Seg} (h : x.strip = y.strip) : x.numpasses = y.numpasses ∧ x.maxpasses = y.maxpasses ∧ x.numnewpasses = y.numnewpasses ∧ x.newlen = y.newlen := by
  unfold Seg.strip at h
  simp only [Seg.mk.injEq, true_and] at h
  exact ⟨h.1, h.2.1, h.2.2.1, h.2.2.2⟩

theorem strip_of {x y : Seg} (h : x.numpasses = y.numpasses ∧ x.maxpasses = y.maxpasses ∧ x.numnewpasses = y.numnewpasses ∧ x.newlen = y.newlen) : x.strip = y.strip := by
  unfold Seg.strip
  simp only [Seg.mk.injEq, true_and]
  exact ⟨h.1, h.2.1, h.2.2.1, h.2.2.2⟩

/-- Both absent, or both there and alike. -/
theorem SegsEq.cases {a b : List Seg} (h : SegsEq a b) (i : Nat) : (a[i]? = none ∧ b[i]? = none) ∨ ∃ x y, a[i]? = some x ∧ b[i]? = some y ∧ x.strip = y.strip := by
  have := h.get i
  cases ha : a[i]? with
  | none => cases hb : b[i]? with
    | none => exact Or.inl ⟨rfl, rfl⟩
    | some y => rw [ha, hb] at this; cases this
  | some x => cases hb : b[i]? with
    | none => rw [ha, hb] at this; cases this
    | some y =>
      rw [ha, hb] at this
      exact Or.inr ⟨x, y, rfl, rfl, by simpa using this⟩

theorem initSeg_alike {a b : List Seg} (h : SegsEq a b) (i sty : Nat) (f : Bool) : Alike SegsEq (ofOpt (initSeg a i sty f)) (ofOpt (initSeg b i sty f)) := by
  obtain ⟨a1, ha1⟩ : ∃ a1, a1 = if a.length < i + 1 then a ++ List.replicate 10 ({} : Seg) else a := ⟨_, rfl⟩
  obtain ⟨b1, hb1⟩ : ∃ b1, b1 = if b.length < i + 1 then b ++ List.replicate 10 ({} : Seg) else b := ⟨_, rfl⟩
  have h1 : SegsEq a1 b1 := by
    rw [ha1, hb1, h.len]
    split
    · unfold SegsEq; rw [List.map_append, List.map_append, h]
    · exact h
  unfold initSeg
  simp only
  rw [← ha1, ← hb1, h1.len]
  split
  · rfl
  have hm : (a1[i - 1]?).map (fun p : Seg => if p.maxpasses = 1 ∨ p.maxpasses = 10 then 2 else 1) =
      (b1[i - 1]?).map (fun p : Seg => if p.maxpasses = 1 ∨ p.maxpasses = 10 then 2 else 1) := by
    rcases h1.cases (i - 1) with ⟨e1, e2⟩ | ⟨x, y, e1, e2, e3⟩
    · rw [e1, e2]
    · rw [e1, e2, Option.map_some, Option.map_some, (strip_fields e3).2.1]
  rw [hm]
  generalize (if sty &&& 4 ≠ 0 then some 1 else if sty &&& 1 ≠ 0 then if f then some 10 else if i = 0 then none else
    (b1[i - 1]?).map (fun p : Seg => if p.maxpasses = 1 ∨ p.maxpasses = 10 then 2 else 1) else some 109) = o
  cases o with
  | none => rfl
  | some m => exact h1.set i rfl

theorem segLoop_alike (sty nlb : Nat) (fuel : Nat) (s : Bio) (a b : List Seg) (i : Nat) (n : Int) (h : SegsEq a b) :
    Alike (fun x y : Bio × List Seg => x.1 = y.1 ∧ SegsEq x.2 y.2) (segLoop sty nlb fuel s a i n) (segLoop sty nlb fuel s b i n) := by
  induction fuel generalizing s a b i n with
  | zero => rfl
  | succ fuel ih =>
    unfold segLoop
    rcases h.cases i with ⟨e1, e2⟩ | ⟨x, y, e1, e2, e3⟩
    · rw [e1, e2]; rfl
    rw [e1, e2, ofOpt_some, ok_bind, ofOpt_some, ok_bind]
    have f := strip_fields e3
    have ht : takePasses sty i x n = takePasses sty i y n := by unfold takePasses; rw [f.1, f.2.1]
    simp only [ht]
    refine Alike.bind (Alike.refl _) ?_
    rintro fl _ rfl
    split
    · rfl
    refine Alike.bind (Alike.refl _) ?_
    rintro ⟨v, s1⟩ _ rfl
    dsimp only
    refine Alike.bind (Alike.refl _) ?_
    rintro n1 _ rfl
    have hset := h.set i (x := { x with numnewpasses := (takePasses sty i y n % 2 ^ 32).toNat, newlen := v })
      (y := { y with numnewpasses := (takePasses sty i y n % 2 ^ 32).toNat, newlen := v }) (strip_of ⟨f.1, f.2.1, rfl, rfl⟩)
    split
    · refine Alike.bind (initSeg_alike hset _ _ _) ?_
      intro a2 b2 h2
      exact ih s1 a2 b2 (i + 1) n1 h2
    · exact ⟨rfl, hset⟩

/-- Blocks alike but for what only the block decoder looks at. -/
structure BlkEq (c d : DecCblk) : Prop where
  segs : SegsEq c.segs d.segs
  numsegs : c.numsegs = d.numsegs
  numnewpasses : c.numnewpasses = d.numnewpasses
  numlenbits : c.numlenbits = d.numlenbits
  numbps : c.numbps = d.numbps

theorem BlkEq.refl (c : DecCblk) : BlkEq c c := ⟨rfl, rfl, rfl, rfl, rfl⟩

theorem firstSeg_alike {c d : DecCblk} (h : BlkEq c d) (sty : Nat) :
    Alike (fun x y : List Seg × Nat => SegsEq x.1 y.1 ∧ x.2 = y.2) (ofOpt (firstSeg sty c)) (ofOpt (firstSeg sty d)) := by
  have lift : ∀ (i j : Nat) (f : Bool), Alike (fun x y : List Seg × Nat => SegsEq x.1 y.1 ∧ x.2 = y.2)
      (ofOpt ((initSeg c.segs i sty f).map fun segs => (segs, j))) (ofOpt ((initSeg d.segs i sty f).map fun segs => (segs, j))) := by
    intro i j f
    have := initSeg_alike h.segs i sty f
    cases hc : initSeg c.segs i sty f with
    | none => cases hd : initSeg d.segs i sty f with
      | none => rfl
      | some y => rw [hc, hd] at this; exact this.elim
    | some x => cases hd : initSeg d.segs i sty f with
      | none => rw [hc, hd] at this; exact this.elim
      | some y => rw [hc, hd] at this; exact ⟨this, rfl⟩
  unfold firstSeg
  rw [h.numsegs]
  split
  · exact lift 0 0 true
  · rcases h.segs.cases (d.numsegs - 1) with ⟨e1, e2⟩ | ⟨x, y, e1, e2, e3⟩
    · rw [e1, e2]; rfl
    · rw [e1, e2, Option.bind_some, Option.bind_some]
      have f := strip_fields e3
      rw [f.1, f.2.1]
      split
      · exact lift _ _ _
      · exact ⟨h.segs, rfl⟩

theorem decBlock_alike {c d : DecCblk} (h : BlkEq c d) (sty layno : Nat) (bps : Int) (k : Nat) (q : DecSt) :
    Alike (fun x y : DecSt × DecCblk => x.1 = y.1 ∧ BlkEq x.2 y.2) (decBlock sty layno bps k q c) (decBlock sty layno bps k q d) := by
  unfold decBlock
  rw [h.numsegs]
  refine Alike.bind (Alike.refl _) ?_
  rintro ⟨inc, q1⟩ _ rfl
  dsimp only
  split
  · exact ⟨rfl, h.segs, rfl, rfl, h.numlenbits, h.numbps⟩
  refine Alike.bind (R := fun x y : DecSt × DecCblk => x.1 = y.1 ∧ BlkEq x.2 y.2) ?_ ?_
  · split
    · unfold readImsb
      cases firstTrue 1001 0 q1.s q1.imsb k with
      | none => rfl
      | some r =>
        obtain ⟨i, s, t⟩ := r
        simp only [Option.bind_some]
        split
        · generalize (if ((bps % 2 ^ 32).toNat : Int) + 1 < i then (chk (bps + 1)).bind fun a => (chk (a - i)).map fun r => (r % 2 ^ 32).toNat
            else some ((bps % 2 ^ 32).toNat + 1 - i.toNat)) = o
          cases o with
          | none => rfl
          | some r => exact ⟨rfl, h.segs, h.numsegs, h.numnewpasses, rfl, rfl⟩
        · rfl
    · exact ⟨rfl, h⟩
  rintro ⟨q2, c2⟩ ⟨_, d2⟩ ⟨rfl, h2⟩
  dsimp only at h2 ⊢
  refine Alike.bind (Alike.refl _) ?_
  rintro ⟨n, s3⟩ _ rfl
  dsimp only
  refine Alike.bind (Alike.refl _) ?_
  rintro ⟨ic, s4⟩ _ rfl
  dsimp only
  rw [h2.numlenbits]
  refine Alike.bind (firstSeg_alike h2 sty) ?_
  rintro ⟨segs, i⟩ ⟨segs', _⟩ ⟨h3, rfl⟩
  dsimp only at h3 ⊢
  refine Alike.bind (segLoop_alike sty _ 165 s4 _ _ i n h3) ?_
  rintro ⟨s5, g⟩ ⟨_, g'⟩ ⟨rfl, h4⟩
  exact ⟨rfl, h4, h2.numsegs, rfl, rfl, h2.numbps⟩

theorem decBlocks_alike (sty layno : Nat) (bps : Int) (k : Nat) (q : DecSt) (cs ds : List DecCblk) (h : List.Forall₂ BlkEq cs ds) :
    Alike (fun x y : DecSt × List DecCblk => x.1 = y.1 ∧ List.Forall₂ BlkEq x.2 y.2) (decBlocks sty layno bps k q cs) (decBlocks sty layno bps k q ds) := by
  induction h generalizing k q with
  | nil => exact ⟨rfl, .nil⟩
  | cons h _ ih =>
    unfold decBlocks
    refine Alike.bind (decBlock_alike h sty layno bps k q) ?_
    rintro ⟨q1, c1⟩ ⟨_, d1⟩ ⟨rfl, h1⟩
    refine Alike.bind (ih (k + 1) q1) ?_
    rintro ⟨q2, cs2⟩ ⟨_, ds2⟩ ⟨rfl, h2⟩
    exact ⟨rfl, .cons h1 h2⟩

/-- Bands alike but for what only the block decoder looks at. -/
structure BandEq (b d : DecBand) : Prop where
  numbps : b.numbps = d.numbps
  empty : b.empty = d.empty
  nodes : b.prec.nodes = d.prec.nodes
  incl : b.prec.incl = d.prec.incl
  imsb : b.prec.imsb = d.prec.imsb
  cblks : List.Forall₂ BlkEq b.prec.cblks d.prec.cblks

theorem forall2_refl {α : Type} {R : α → α → Prop} (h : ∀ a, R a a) : ∀ l : List α, List.Forall₂ R l l
  | [] => .nil
  | a :: l => .cons (h a) (forall2_refl h l)

theorem BandEq.refl (b : DecBand) : BandEq b b := ⟨rfl, rfl, rfl, rfl, rfl, forall2_refl BlkEq.refl _⟩

abbrev BandsEq := List.Forall₂ BandEq

theorem decBands_alike (sty layno : Nat) (s : Bio) (bs ds : List DecBand) (h : BandsEq bs ds) :
    Alike (fun x y : Bio × List DecBand => x.1 = y.1 ∧ BandsEq x.2 y.2) (decBands sty layno s bs) (decBands sty layno s ds) := by
  induction h generalizing s with
  | nil => exact ⟨rfl, .nil⟩
  | cons h _ ih =>
    unfold decBands
    rw [h.empty]
    split
    · refine Alike.bind (ih s) ?_
      rintro ⟨s1, bs1⟩ ⟨_, ds1⟩ ⟨rfl, h1⟩
      exact ⟨rfl, .cons h h1⟩
    · rw [h.numbps, h.incl, h.imsb]
      refine Alike.bind (decBlocks_alike sty layno _ 0 _ _ _ h.cblks) ?_
      rintro ⟨q1, c1⟩ ⟨_, d1⟩ ⟨rfl, h1⟩
      refine Alike.bind (ih q1.s) ?_
      rintro ⟨s1, bs1⟩ ⟨_, ds1⟩ ⟨rfl, h2⟩
      exact ⟨rfl, .cons ⟨by first | exact h.numbps | rfl, by first | exact h.empty | rfl, h.nodes, rfl, rfl, h1⟩ h2⟩

theorem startDec_alike (bs ds : List DecBand) (h : BandsEq bs ds) : Alike BandsEq (ofOpt (startDecBands bs)) (ofOpt (startDecBands ds)) := by
  induction h with
  | nil => exact List.Forall₂.nil
  | @cons b d bs ds h _ ih =>
    unfold startDecBands
    have key : (if b.empty then some b else (startDec b.prec).map fun p => { b with prec := p }) = none ∧
        (if d.empty then some d else (startDec d.prec).map fun p => { d with prec := p }) = none ∨
        ∃ b' d', (if b.empty then some b else (startDec b.prec).map fun p => { b with prec := p }) = some b' ∧
          (if d.empty then some d else (startDec d.prec).map fun p => { d with prec := p }) = some d' ∧ BandEq b' d' := by
      rw [h.empty]
      split
      · exact Or.inr ⟨b, d, rfl, rfl, h⟩
      · unfold startDec
        rw [h.nodes, h.incl, h.imsb]
        cases reset d.prec.nodes d.prec.incl with
        | none => exact Or.inl ⟨rfl, rfl⟩
        | some x => cases reset d.prec.nodes d.prec.imsb with
          | none => exact Or.inl ⟨rfl, rfl⟩
          | some y =>
            refine Or.inr ⟨_, _, rfl, rfl, ⟨h.numbps, by first | exact h.empty | rfl, rfl, rfl, rfl, ?_⟩⟩
            exact List.forall₂_map_left_iff.mpr (List.forall₂_map_right_iff.mpr (h.cblks.imp fun _ _ e => ⟨e.segs, rfl, e.numnewpasses, e.numlenbits, e.numbps⟩))
    rcases key with ⟨e1, e2⟩ | ⟨b', d', e1, e2, e3⟩
    · rw [e1, e2]; rfl
    · rw [e1, e2, Option.bind_some, Option.bind_some]
      cases hb : startDecBands bs with
      | none => cases hd : startDecBands ds with
        | none => rfl
        | some y => rw [hb, hd] at ih; exact ih.elim
      | some x => cases hd : startDecBands ds with
        | none => rw [hb, hd] at ih; exact ih.elim
        | some y => rw [hb, hd] at ih; exact List.Forall₂.cons e3 ih

/-- Headers read the same on bands that are alike. -/
theorem readHeader_alike (csty sty layno : Nat) (packed : Option (List UInt8)) (bs ds : List DecBand) (src : List UInt8) (h : BandsEq bs ds) :
    Alike (fun x y : Header => x.present = y.present ∧ x.read = y.read ∧ x.packed = y.packed ∧ BandsEq x.bands y.bands)
      (readHeader csty sty layno packed bs src) (readHeader csty sty layno packed ds src) := by
  unfold readHeader
  have fin : ∀ (n : Nat) (p : Bool) (x y : List DecBand), BandsEq x y →
      (fun x y : Header => x.present = y.present ∧ x.read = y.read ∧ x.packed = y.packed ∧ BandsEq x.bands y.bands)
      (endHeader csty (sopLen csty src) packed (packed.getD (src.drop (sopLen csty src))) n p x)
      (endHeader csty (sopLen csty src) packed (packed.getD (src.drop (sopLen csty src))) n p y) := by
    intro n p x y hxy
    unfold endHeader
    cases packed <;> exact ⟨rfl, rfl, rfl, hxy⟩
  refine Alike.bind (R := BandsEq) ?_ ?_
  · split
    · exact startDec_alike bs ds h
    · exact h
  intro b1 d1 h1
  refine Alike.bind (Alike.refl _) ?_
  rintro ⟨b, s⟩ _ rfl
  dsimp only
  split
  · refine Alike.bind (Alike.refl _) ?_
    rintro ⟨s1, ok⟩ _ rfl
    exact fin _ _ _ _ h1
  · refine Alike.bind (decBands_alike sty layno s b1 d1 h1) ?_
    rintro ⟨s1, b2⟩ ⟨_, d2⟩ ⟨rfl, h2⟩
    refine Alike.bind (Alike.refl _) ?_
    rintro ⟨s3, ok⟩ _ rfl
    dsimp only
    split
    · rfl
    · exact fin _ _ _ _ h2

/-! ## Lengths are 32 bits -/

def Short (l : List Seg) : Prop := ∀ s ∈ l, s.newlen < 2 ^ 32

theorem Short.set {l : List Seg} (h : Short l) (i : Nat) {s : Seg} (hs : s.newlen < 2 ^ 32) : Short (l.set i s) := fun x hx => by
  rcases List.mem_or_eq_of_mem_set hx with h1 | rfl
  · exact h x h1
  · exact hs

theorem Short.get {l : List Seg} (h : Short l) {i : Nat} {s : Seg} (hs : l[i]? = some s) : s.newlen < 2 ^ 32 := h s (List.mem_of_getElem? hs)

theorem initSeg_short {l : List Seg} (h : Short l) (i sty : Nat) (f : Bool) : Gives Short (ofOpt (initSeg l i sty f)) := by
  refine Gives.opt fun a ha => ?_
  obtain ⟨l1, hl1⟩ : ∃ l1, l1 = if l.length < i + 1 then l ++ List.replicate 10 ({} : Seg) else l := ⟨_, rfl⟩
  unfold initSeg at ha
  simp only [← hl1] at ha
  by_cases hle : l1.length ≤ i
  · rw [if_pos hle] at ha; cases ha
  rw [if_neg hle, Option.map_eq_some_iff] at ha
  obtain ⟨m, _, rfl⟩ := ha
  refine Short.set (fun s hs => ?_) i (by show 0 < 2 ^ 32; decide)
  rw [hl1] at hs
  split at hs
  · rcases List.mem_append.mp hs with hs | hs
    · exact h s hs
    · rw [(List.mem_replicate.mp hs).2]; decide
  · exact h s hs

theorem readLoop_lt (n : Nat) (s : Bio) (v : Nat) (hv : v < 2 ^ 32) : ∀ r s', readLoop s v n = some (r, s') → r < 2 ^ 32 := by
  induction n generalizing s v with
  | zero =>
    intro r s' h
    unfold readLoop at h
    simp only [Option.some.injEq, Prod.mk.injEq] at h
    omega
  | succ n ih =>
    intro r s' h
    unfold readLoop at h
    split at h
    · cases h
    · exact ih _ _ (Nat.or_lt_two_pow hv (Nat.mod_lt _ (by decide))) r s' h

theorem read_lt {s : Bio} {n r : Nat} {s' : Bio} (h : Bio.read s n = some (r, s')) : r < 2 ^ 32 := by
  unfold Bio.read at h
  split at h
  · exact readLoop_lt n s 0 (by decide) r s' h
  · cases h

theorem segLoop_short (sty nlb fuel : Nat) (s : Bio) (l : List Seg) (i : Nat) (n : Int) (h : Short l) :
    Gives (fun r => Short r.2) (segLoop sty nlb fuel s l i n) := by
  induction fuel generalizing s l i n with
  | zero => exact Gives.err _
  | succ fuel ih =>
    unfold segLoop
    refine Gives.bind (Gives.true _) fun sg _ => ?_
    refine Gives.bind (Gives.true _) fun fl _ => ?_
    dsimp only
    split
    · exact Gives.err _
    refine Gives.bind (Q := fun r : Nat × Bio => r.1 < 2 ^ 32) (Gives.opt fun a ha => read_lt (r := a.1) (s' := a.2) ha) fun r hr => ?_
    refine Gives.bind (Gives.true _) fun n1 _ => ?_
    split
    · exact Gives.bind (initSeg_short (h.set i (by exact hr)) _ _ _) fun l2 h2 => ih _ _ _ _ h2
    · exact Gives.ok (h.set i (by exact hr))

/-! ## What skipping keeps -/

/-- What the block decoder sees of the first `n` segments. -/
def shownSegs (n : Nat) (l : List Seg) : List (Nat × Nat) := (l.take n).map fun s => (s.len, s.realNumPasses)

theorem shown_set {n : Nat} {l : List Seg} {i : Nat} {s : Seg} (h : n ≤ i ∨ ∃ s0, l[i]? = some s0 ∧ s0.len = s.len ∧ s0.realNumPasses = s.realNumPasses) :
    shownSegs n (l.set i s) = shownSegs n l := by
  unfold shownSegs
  apply List.ext_getElem?
  intro j
  simp only [List.getElem?_map, List.getElem?_take]
  split
  · by_cases hj : i = j
    · subst hj
      rcases h with h | ⟨s0, h1, h2, h3⟩
      · omega
      · rw [h1, List.getElem?_set_self (List.getElem?_eq_some_iff.mp h1).1]
        simp only [Option.map_some, h2, h3]
    · rw [List.getElem?_set_ne hj]
  · rfl

/-- Segments with lengths of 32 bits, at least `n` of them, showing what `l0` shows. -/
structure SegsKept (n : Nat) (l0 l : List Seg) : Prop where
  short : Short l
  len : n ≤ l.length
  shown : shownSegs n l = shownSegs n l0

theorem initSeg_kept {n : Nat} {l0 l : List Seg} (h : SegsKept n l0 l) (i sty : Nat) (f : Bool) (hi : n ≤ i) :
    Gives (SegsKept n l0) (ofOpt (initSeg l i sty f)) := by
  refine Gives.opt fun a ha => ?_
  obtain ⟨l1, hl1⟩ : ∃ l1, l1 = if l.length < i + 1 then l ++ List.replicate 10 ({} : Seg) else l := ⟨_, rfl⟩
  have hs := initSeg_short h.short i sty f a (by rw [ha]; rfl)
  unfold initSeg at ha
  simp only [← hl1] at ha
  by_cases hle : l1.length ≤ i
  · rw [if_pos hle] at ha; cases ha
  rw [if_neg hle, Option.map_eq_some_iff] at ha
  obtain ⟨m, _, rfl⟩ := ha
  refine ⟨hs, by rw [List.length_set]; omega, ?_⟩
  rw [shown_set (Or.inl hi), hl1, ← h.shown]
  split
  · unfold shownSegs
    rw [List.take_append_of_le_length h.len]
  · rfl

theorem SegsKept.set {n : Nat} {l0 l : List Seg} (h : SegsKept n l0 l) {i : Nat} {s s0 : Seg} (hs : l[i]? = some s0) (h1 : s0.len = s.len)
    (h2 : s0.realNumPasses = s.realNumPasses) (h3 : s.newlen < 2 ^ 32) : SegsKept n l0 (l.set i s) :=
  ⟨h.short.set i h3, by rw [List.length_set]; exact h.len, by rw [shown_set (Or.inr ⟨s0, hs, h1, h2⟩)]; exact h.shown⟩

theorem segLoop_kept {n0 : Nat} {l0 : List Seg} (sty nlb fuel : Nat) (s : Bio) (l : List Seg) (i : Nat) (n : Int) (h : SegsKept n0 l0 l) (hi : n0 ≤ i + 1) :
    Gives (fun r => SegsKept n0 l0 r.2) (segLoop sty nlb fuel s l i n) := by
  induction fuel generalizing s l i n with
  | zero => exact Gives.err _
  | succ fuel ih =>
    unfold segLoop
    refine Gives.bind (Q := fun sg => l[i]? = some sg) (Gives.opt fun a ha => ha) fun sg hsg => ?_
    refine Gives.bind (Gives.true _) fun fl _ => ?_
    dsimp only
    split
    · exact Gives.err _
    refine Gives.bind (Q := fun r : Nat × Bio => r.1 < 2 ^ 32) (Gives.opt fun a ha => read_lt (r := a.1) (s' := a.2) ha) fun r hr => ?_
    refine Gives.bind (Gives.true _) fun n1 _ => ?_
    have hset := h.set (s := { sg with numnewpasses := (takePasses sty i sg n % 2 ^ 32).toNat, newlen := r.1 }) hsg rfl rfl hr
    split
    · exact Gives.bind (initSeg_kept hset _ _ _ (by omega)) fun l2 h2 => ih _ _ _ _ h2 (by omega)
    · exact Gives.ok hset

/-- A block between packets. -/
structure Pre (c : DecCblk) : Prop where
  real : c.realNumSegs ≤ c.numsegs
  len : c.numsegs ≤ c.segs.length
  short : Short c.segs

/-- A block `d` that shows the block decoder what `c` does. -/
structure Kept (c d : DecCblk) : Prop where
  segs : SegsKept c.realNumSegs c.segs d.segs
  real : d.realNumSegs = c.realNumSegs
  chunks : d.chunks = c.chunks

theorem Kept.trans {a b c : DecCblk} (h : Kept a b) (h2 : Kept b c) : Kept a c :=
  ⟨⟨h2.segs.short, by rw [← h.real]; exact h2.segs.len, by have := h2.segs.shown; rw [h.real] at this; exact this.trans h.segs.shown⟩,
    h2.real.trans h.real, h2.chunks.trans h.chunks⟩

theorem Pre.kept {c : DecCblk} (h : Pre c) : Kept c c := ⟨⟨h.short, Nat.le_trans h.real h.len, rfl⟩, rfl, rfl⟩

theorem Kept.view {c d : DecCblk} (h : Kept c d) : d.view = c.view := by
  unfold DecCblk.view
  rw [h.real]
  exact h.segs.shown

theorem decBlock_kept {c : DecCblk} (h : Pre c) (sty layno : Nat) (bps : Int) (k : Nat) (q : DecSt) :
    Gives (fun r => Kept c r.2) (decBlock sty layno bps k q c) := by
  unfold decBlock
  refine Gives.bind (Gives.true _) fun r _ => ?_
  dsimp only
  split
  · exact Gives.ok ⟨h.kept.segs, rfl, rfl⟩
  refine Gives.bind (Q := fun r : DecSt × DecCblk => r.2.segs = c.segs ∧ r.2.numsegs = c.numsegs ∧ r.2.realNumSegs = c.realNumSegs ∧ r.2.chunks = c.chunks) ?_ ?_
  · refine Gives.opt fun a ha => ?_
    split at ha
    · unfold readImsb at ha
      rw [Option.bind_eq_some_iff] at ha
      obtain ⟨⟨i, s, t⟩, _, ha⟩ := ha
      dsimp only at ha
      split at ha
      · rw [Option.map_eq_some_iff] at ha
        obtain ⟨r, _, rfl⟩ := ha
        exact ⟨rfl, rfl, rfl, rfl⟩
      · cases ha
    · cases ha; exact ⟨rfl, rfl, rfl, rfl⟩
  rintro ⟨q2, c2⟩ ⟨e1, e2, e3, e4⟩
  dsimp only at e1 e2 e3 e4 ⊢
  refine Gives.bind (Gives.true _) fun r1 _ => ?_
  refine Gives.bind (Gives.true _) fun r2 _ => ?_
  refine Gives.bind (Q := fun x : List Seg × Nat => SegsKept c.realNumSegs c.segs x.1 ∧ c.realNumSegs ≤ x.2 + 1) ?_ ?_
  · have hk := h.kept.segs
    have lift : ∀ (i j : Nat) (f : Bool), c.realNumSegs ≤ i → c.realNumSegs ≤ j + 1 → ∀ a, (initSeg c.segs i sty f).map (fun segs => (segs, j)) = some a →
        SegsKept c.realNumSegs c.segs a.1 ∧ c.realNumSegs ≤ a.2 + 1 := by
      intro i j f hi hj a ha
      rw [Option.map_eq_some_iff] at ha
      obtain ⟨x, hx, rfl⟩ := ha
      exact ⟨initSeg_kept hk i sty f hi x (by rw [hx]; rfl), hj⟩
    refine Gives.opt fun a ha => ?_
    have hr := h.real
    unfold firstSeg at ha
    rw [e1, e2] at ha
    split at ha
    · exact lift 0 0 true (by omega) (by omega) a ha
    · rw [Option.bind_eq_some_iff] at ha
      obtain ⟨sg, _, ha⟩ := ha
      split at ha
      · exact lift _ _ false (by omega) (by omega) a ha
      · cases ha; exact ⟨hk, by show _ ≤ c.numsegs - 1 + 1; omega⟩
  rintro ⟨l, i⟩ ⟨hl, hi⟩
  refine Gives.bind (segLoop_kept sty _ 165 _ l i _ hl hi) fun r3 h3 => ?_
  exact Gives.ok ⟨h3, e3, e4⟩

theorem decBlocks_kept (sty layno : Nat) (bps : Int) (k : Nat) (q : DecSt) (cs : List DecCblk) (h : ∀ c ∈ cs, Pre c) :
    Gives (fun r => List.Forall₂ Kept cs r.2) (decBlocks sty layno bps k q cs) := by
  induction cs generalizing k q with
  | nil => exact Gives.ok .nil
  | cons c cs ih =>
    unfold decBlocks
    refine Gives.bind (decBlock_kept (h c (by simp)) sty layno bps k q) fun r1 h1 => ?_
    refine Gives.bind (ih (k + 1) r1.1 fun c hc => h c (by simp [hc])) fun r2 h2 => ?_
    exact Gives.ok (.cons h1 h2)

/-- Bands all of whose blocks are kept. -/
structure BandKept (b d : DecBand) : Prop where
  empty : d.empty = b.empty
  blks : b.empty = false → List.Forall₂ Kept b.prec.cblks d.prec.cblks

def PreBand (b : DecBand) : Prop := b.empty = false → ∀ c ∈ b.prec.cblks, Pre c

theorem BandKept.of_empty {b : DecBand} (h : b.empty = true) : BandKept b b := ⟨rfl, fun e => by rw [h] at e; cases e⟩

theorem decBands_kept (sty layno : Nat) (s : Bio) (bs : List DecBand) (h : ∀ b ∈ bs, PreBand b) :
    Gives (fun r => List.Forall₂ BandKept bs r.2) (decBands sty layno s bs) := by
  induction bs generalizing s with
  | nil => exact Gives.ok .nil
  | cons b bs ih =>
    have ih' := fun s => ih s fun b hb => h b (by simp [hb])
    unfold decBands
    split
    · rename_i he
      exact Gives.bind (ih' s) fun r hr => Gives.ok (.cons (BandKept.of_empty he) hr)
    · rename_i he
      refine Gives.bind (decBlocks_kept sty layno _ 0 _ _ (h b (by simp) (by simpa using he))) fun r1 h1 => ?_
      exact Gives.bind (ih' r1.1.s) fun r2 h2 => Gives.ok (.cons ⟨rfl, fun _ => h1⟩ h2)

theorem forall2_trans {α : Type} {R : α → α → Prop} (h : ∀ a b c, R a b → R b c → R a c) : ∀ {l1 l2 l3 : List α}, List.Forall₂ R l1 l2 → List.Forall₂ R l2 l3 → List.Forall₂ R l1 l3
  | _, _, _, .nil, .nil => .nil
  | _, _, _, .cons a as, .cons b bs => .cons (h _ _ _ a b) (forall2_trans h as bs)

theorem BandKept.trans {a b c : DecBand} (h : BandKept a b) (h2 : BandKept b c) : BandKept a c :=
  ⟨h2.empty.trans h.empty, fun e => forall2_trans (R := Kept) (fun _ _ _ p q => Kept.trans p q) (h.blks e) (h2.blks (h.empty.trans e))⟩

/-- Nothing has arrived yet. -/
def Bare (b : DecBand) : Prop := b.empty = false → ∀ c ∈ b.prec.cblks, c.realNumSegs = 0

theorem forall2_map {α : Type} {R : α → α → Prop} {f : α → α} : ∀ {l : List α}, (∀ a ∈ l, R a (f a)) → List.Forall₂ R l (l.map f)
  | [], _ => .nil
  | a :: l, h => .cons (h a (by simp)) (forall2_map fun b hb => h b (by simp [hb]))

theorem startDec_kept (bs : List DecBand) (h : ∀ b ∈ bs, PreBand b) (h0 : ∀ b ∈ bs, Bare b) :
    ∀ a, startDecBands bs = some a → List.Forall₂ BandKept bs a ∧ ∀ b ∈ a, PreBand b := by
  induction bs with
  | nil => intro a ha; cases ha; exact ⟨.nil, by simp⟩
  | cons b bs ih =>
    intro a ha
    unfold startDecBands at ha
    rw [Option.bind_eq_some_iff] at ha
    obtain ⟨b', h1, ha⟩ := ha
    rw [Option.map_eq_some_iff] at ha
    obtain ⟨bs', h2, rfl⟩ := ha
    obtain ⟨i1, i2⟩ := ih (fun b hb => h b (by simp [hb])) (fun b hb => h0 b (by simp [hb])) bs' h2
    have hb := h b (by simp)
    have hz := h0 b (by simp)
    have key : BandKept b b' ∧ PreBand b' := by
      split at h1
      · rename_i he
        cases h1
        exact ⟨BandKept.of_empty he, hb⟩
      · rename_i he
        have he' : b.empty = false := by simpa using he
        rw [Option.map_eq_some_iff] at h1
        obtain ⟨p, h1, rfl⟩ := h1
        unfold startDec at h1
        rw [Option.bind_eq_some_iff] at h1
        obtain ⟨x, _, h1⟩ := h1
        rw [Option.map_eq_some_iff] at h1
        obtain ⟨y, _, rfl⟩ := h1
        refine ⟨⟨rfl, fun _ => forall2_map fun c hc => ?_⟩, fun _ c hc => ?_⟩
        · have := hz he' c hc
          exact ⟨⟨(hb he' c hc).short, by rw [this]; exact Nat.zero_le _, rfl⟩, this.symm, rfl⟩
        · obtain ⟨d, hd, rfl⟩ := List.mem_map.mp hc
          exact ⟨Nat.le_refl _, Nat.zero_le _, (hb he' d hd).short⟩
    refine ⟨.cons key.1 i1, fun b hb => ?_⟩
    rcases List.mem_cons.mp hb with rfl | hb
    · exact key.2
    · exact i2 b hb

theorem BandKept.self {bs : List DecBand} (h : ∀ b ∈ bs, PreBand b) : List.Forall₂ BandKept bs bs := by
  have := forall2_map (R := BandKept) (f := id) (l := bs) (fun b hb => ⟨rfl, fun he => by
    have := forall2_map (R := Kept) (f := id) (l := b.prec.cblks) fun c hc => (h b hb he c hc).kept
    rwa [List.map_id] at this⟩)
  rwa [List.map_id] at this

theorem readHeader_kept (csty sty layno : Nat) (packed : Option (List UInt8)) (bs : List DecBand) (src : List UInt8) (h : ∀ b ∈ bs, PreBand b)
    (h0 : layno = 0 → ∀ b ∈ bs, Bare b) : Gives (fun r => List.Forall₂ BandKept bs r.bands) (readHeader csty sty layno packed bs src) := by
  unfold readHeader
  have fin : ∀ (n : Nat) (p : Bool) (x : List DecBand), List.Forall₂ BandKept bs x →
      List.Forall₂ BandKept bs (endHeader csty (sopLen csty src) packed (packed.getD (src.drop (sopLen csty src))) n p x).bands := by
    intro n p x hx
    unfold endHeader
    cases packed <;> exact hx
  refine Gives.bind (Q := fun a => List.Forall₂ BandKept bs a ∧ ∀ b ∈ a, PreBand b) (Gives.opt fun a ha => ?_) fun b1 h1 => ?_
  · split at ha
    · exact startDec_kept bs h (h0 (by assumption)) a ha
    · cases ha; exact ⟨BandKept.self h, h⟩
  refine Gives.bind (Gives.true _) fun r1 _ => ?_
  dsimp only
  split
  · exact Gives.bind (Gives.true _) fun r2 _ => Gives.ok (fin _ _ _ h1.1)
  · refine Gives.bind (decBands_kept sty layno _ b1 h1.2) fun r2 h2 => ?_
    refine Gives.bind (Gives.true _) fun r3 _ => ?_
    split
    · exact Gives.err _
    · exact Gives.ok (fin _ _ _ (forall2_trans (R := BandKept) (fun _ _ _ p q => BandKept.trans p q) h1.1 h2))

theorem skipLoop_kept {c0 : DecCblk} (strict : Bool) (mx fuel : Nat) (q : SkipSt) (c : DecCblk) (i : Nat) (h : Kept c0 c) :
    Gives (fun r => Kept c0 r.2) (skipLoop strict mx fuel q c i) := by
  induction fuel generalizing q c i with
  | zero => exact Gives.err _
  | succ fuel ih =>
    unfold skipLoop
    refine Gives.bind (Q := fun sg => c.segs[i]? = some sg) (Gives.opt fun a ha => ha) fun sg hsg => ?_
    dsimp only
    split
    · split
      · exact Gives.err _
      · exact Gives.ok h
    · have h2 := h.segs.set (s := { sg with numpasses := (sg.numpasses + sg.numnewpasses) % 2 ^ 32 }) hsg rfl rfl (by have := h.segs.short.get hsg; exact this)
      split
      · exact Gives.ok ⟨h2, h.real, h.chunks⟩
      · exact ih _ _ _ ⟨h2, h.real, h.chunks⟩

theorem skipBlocks_kept (strict : Bool) (mx : Nat) (q : SkipSt) (cs ds : List DecCblk) (h : List.Forall₂ Kept cs ds) :
    Gives (fun r => List.Forall₂ Kept cs r.2) (skipBlocks strict mx q ds) := by
  induction h generalizing q with
  | nil => exact Gives.ok .nil
  | @cons c d cs ds h hs ih =>
    unfold skipBlocks
    refine Gives.bind (Q := fun r : SkipSt × DecCblk => Kept c r.2) ?_ fun r1 h1 => Gives.bind (ih r1.1) fun r2 h2 => Gives.ok (.cons h1 h2)
    unfold skipBlock
    split
    · exact Gives.ok h
    · refine Gives.bind (Gives.true _) fun r _ => ?_
      exact skipLoop_kept strict mx 165 q _ _ ⟨h.segs, h.real, h.chunks⟩

theorem skipBands_kept (strict : Bool) (mx : Nat) (q : SkipSt) (bs ds : List DecBand) (h : List.Forall₂ BandKept bs ds) :
    Gives (fun r => List.Forall₂ BandKept bs r.2) (skipBands strict mx q ds) := by
  induction h generalizing q with
  | nil => exact Gives.ok .nil
  | @cons b d bs ds h hs ih =>
    unfold skipBands
    split
    · exact Gives.bind (ih q) fun r hr => Gives.ok (.cons h hr)
    · rename_i he
      have he' : b.empty = false := by rw [← h.empty]; simpa using he
      refine Gives.bind (skipBlocks_kept strict mx q _ _ (h.blks he')) fun r1 h1 => ?_
      exact Gives.bind (ih r1.1) fun r2 h2 => Gives.ok (.cons ⟨h.empty, fun _ => h1⟩ h2)

/-- Skipping a packet leaves what the block decoder sees. -/
theorem skipPacket_kept (csty sty layno : Nat) (strict : Bool) (packed : Option (List UInt8)) (bs : List DecBand) (src : List UInt8) (h : ∀ b ∈ bs, PreBand b)
    (h0 : layno = 0 → ∀ b ∈ bs, Bare b) : Gives (fun r => List.Forall₂ BandKept bs r.2.2) (skipPacket csty sty layno strict packed bs src) := by
  unfold skipPacket
  refine Gives.bind (readHeader_kept csty sty layno packed bs src h h0) fun r hr => ?_
  split
  · exact Gives.bind (skipBands_kept strict _ _ _ _ hr) fun r2 h2 => Gives.ok h2
  · exact Gives.ok hr

/-! ## Skipping reads what decoding reads -/

theorem loop_alike (mx : Nat) (hmx : mx < 2 ^ 32) (fuel : Nat) (q : BodySt) (k : SkipSt) (c d : DecCblk) (i : Nat) (h : BlkEq c d) (hs : Short d.segs)
    (hq : q.cut = false) (hk : k.stop = false) (hr : q.rest.length + k.read = mx) :
    Alike (fun (x : BodySt × DecCblk) (y : SkipSt × DecCblk) => x.1.cut = false ∧ y.1.stop = false ∧ x.1.rest.length + y.1.read = mx ∧ BlkEq x.2 y.2)
      (dataLoop true fuel q c i) (skipLoop true mx fuel k d i) := by
  induction fuel generalizing q k c d i with
  | zero => rfl
  | succ fuel ih =>
    unfold dataLoop skipLoop
    rcases h.segs.cases i with ⟨e1, e2⟩ | ⟨x, y, e1, e2, e3⟩
    · rw [e1, e2]; rfl
    rw [e1, e2, ofOpt_some, ok_bind, ofOpt_some, ok_bind]
    obtain ⟨f1, f2, f3, f4⟩ := strip_fields e3
    have hy := hs.get e2
    obtain ⟨left, hleft⟩ : ∃ left, left = (2 ^ 32 + d.numnewpasses - y.numnewpasses) % 2 ^ 32 := ⟨_, rfl⟩
    obtain ⟨np, hnp⟩ : ∃ np, np = (y.numpasses + y.numnewpasses) % 2 ^ 32 := ⟨_, rfl⟩
    obtain ⟨r, hre⟩ : ∃ r, r = (k.read + y.newlen) % 2 ^ 32 := ⟨_, rfl⟩
    simp only [h.numnewpasses, h.numsegs, f1, f3, f4]
    simp only [← hleft, ← hnp, ← hre]
    by_cases hlt : q.rest.length < y.newlen
    · rw [if_pos (c := q.rest.length < y.newlen ∨ q.cut = true) (Or.inl hlt), if_pos (c := r < k.read ∨ mx < r) (by omega)]; rfl
    · rw [if_neg (c := q.rest.length < y.newlen ∨ q.cut = true) (by rw [hq]; simpa using hlt), if_neg (c := r < k.read ∨ mx < r) (by omega)]
      obtain ⟨x', hx'⟩ : ∃ x' : Seg, x' = ⟨(x.len + y.newlen) % 2 ^ 32, np, np, x.maxpasses, y.numnewpasses, y.newlen⟩ := ⟨_, rfl⟩
      have h2 := h.segs.set i (x := x') (y := { y with numpasses := np }) (by rw [hx']; exact strip_of ⟨rfl, f2, rfl, rfl⟩)
      have hs2 := hs.set i (s := { y with numpasses := np }) hy
      have hr2 : (q.rest.drop y.newlen).length + r = mx := by
        rw [List.length_drop]; omega
      rw [hx'] at h2
      split
      · exact ⟨hq, hk, hr2, h2, rfl, rfl, h.numlenbits, h.numbps⟩
      · exact ih ⟨q.rest.drop y.newlen, q.cut⟩ ⟨r, k.stop⟩ _ _ _ ⟨h2, rfl, rfl, h.numlenbits, h.numbps⟩ hs2 hq hk hr2

theorem dataSeg_eq {c d : DecCblk} (h : BlkEq c d) : dataSeg c = dataSeg d := by
  unfold dataSeg
  rw [h.numsegs]
  split
  · rfl
  · rcases h.segs.cases (d.numsegs - 1) with ⟨e1, e2⟩ | ⟨x, y, e1, e2, e3⟩
    · rw [e1, e2]
    · rw [e1, e2, Option.map_some, Option.map_some, (strip_fields e3).1, (strip_fields e3).2.1]

theorem blocks_alike (mx : Nat) (hmx : mx < 2 ^ 32) (q : BodySt) (k : SkipSt) (cs ds : List DecCblk) (h : List.Forall₂ BlkEq cs ds) (hs : ∀ d ∈ ds, Short d.segs)
    (hq : q.cut = false) (hk : k.stop = false) (hr : q.rest.length + k.read = mx) :
    Alike (fun (x : BodySt × List DecCblk) (y : SkipSt × List DecCblk) => x.1.cut = false ∧ y.1.stop = false ∧ x.1.rest.length + y.1.read = mx ∧ List.Forall₂ BlkEq x.2 y.2)
      (dataBlocks true q cs) (skipBlocks true mx k ds) := by
  induction h generalizing q k with
  | nil => exact ⟨hq, hk, hr, .nil⟩
  | @cons c d cs ds h _ ih =>
    unfold dataBlocks skipBlocks
    refine Alike.bind (R := fun (x : BodySt × DecCblk) (y : SkipSt × DecCblk) => x.1.cut = false ∧ y.1.stop = false ∧ x.1.rest.length + y.1.read = mx ∧ BlkEq x.2 y.2) ?_ ?_
    · unfold dataBlock skipBlock
      simp only [hq, hk, Bool.false_eq_true, if_false, false_or]
      rw [h.numnewpasses]
      split
      · exact ⟨hq, hk, hr, h⟩
      · rw [dataSeg_eq h]
        cases dataSeg d with
        | none => rfl
        | some r =>
          rw [ofOpt_some, ok_bind, ok_bind]
          have := loop_alike mx hmx 165 q k { c with numsegs := r.2, numnewpasses := d.numnewpasses } { d with numsegs := r.2 } r.1 ⟨h.segs, rfl, rfl, h.numlenbits, h.numbps⟩
            (hs d (by simp)) hq hk hr
          revert this
          generalize dataLoop true 165 q { c with numsegs := r.2, numnewpasses := d.numnewpasses } r.1 = X
          generalize skipLoop true mx 165 k { d with numsegs := r.2 } r.1 = Y
          intro this
          cases X with
          | error e => cases Y with
            | error f => exact this
            | ok _ => exact this.elim
          | ok x => cases Y with
            | error f => exact this.elim
            | ok y =>
              obtain ⟨t1, t2, t3, t4⟩ := this
              exact ⟨t1, t2, t3, t4.segs, t4.numsegs, t4.numnewpasses, t4.numlenbits, t4.numbps⟩
    · rintro ⟨q1, c1⟩ ⟨k1, d1⟩ ⟨t1, t2, t3, t4⟩
      refine Alike.bind (ih q1 k1 (fun d hd => hs d (by simp [hd])) t1 t2 t3) ?_
      rintro ⟨q2, cs2⟩ ⟨k2, ds2⟩ ⟨u1, u2, u3, u4⟩
      exact ⟨u1, u2, u3, .cons t4 u4⟩

theorem bands_alike (mx : Nat) (hmx : mx < 2 ^ 32) (q : BodySt) (k : SkipSt) (bs ds : List DecBand) (h : BandsEq bs ds)
    (hs : ∀ b ∈ ds, b.empty = false → ∀ d ∈ b.prec.cblks, Short d.segs) (hq : q.cut = false) (hk : k.stop = false) (hr : q.rest.length + k.read = mx) :
    Alike (fun (x : BodySt × List DecBand) (y : SkipSt × List DecBand) => x.1.cut = false ∧ x.1.rest.length + y.1.read = mx ∧ BandsEq x.2 y.2)
      (dataBands true q bs) (skipBands true mx k ds) := by
  induction h generalizing q k with
  | nil => exact ⟨hq, hr, .nil⟩
  | @cons b d bs ds h _ ih =>
    have ih' := fun q k => ih q k fun b hb => hs b (by simp [hb])
    unfold dataBands skipBands
    rw [h.empty]
    split
    · refine Alike.bind (ih' q k hq hk hr) ?_
      rintro ⟨q1, c1⟩ ⟨k1, d1⟩ ⟨t1, t2, t3⟩
      exact ⟨t1, t2, .cons h t3⟩
    · rename_i he
      refine Alike.bind (blocks_alike mx hmx q k _ _ h.cblks (hs d (by simp) (by simpa using he)) hq hk hr) ?_
      rintro ⟨q1, c1⟩ ⟨k1, d1⟩ ⟨t1, t2, t3, t4⟩
      refine Alike.bind (ih' q1 k1 t1 t2 t3) ?_
      rintro ⟨q2, c2⟩ ⟨k2, d2⟩ ⟨u1, u2, u3⟩
      exact ⟨u1, u2, .cons ⟨h.numbps, by first | exact h.empty | rfl, h.nodes, h.incl, h.imsb, t4⟩ u3⟩

theorem forall2_right {α : Type} {R : α → α → Prop} {l1 l2 : List α} (h : List.Forall₂ R l1 l2) : ∀ b ∈ l2, ∃ a ∈ l1, R a b := by
  induction h with
  | nil => simp
  | @cons a b l1 l2 h _ ih =>
    intro x hx
    rcases List.mem_cons.mp hx with rfl | hx
    · exact ⟨a, by simp, h⟩
    · obtain ⟨y, h1, h2⟩ := ih x hx
      exact ⟨y, by simp [h1], h2⟩

/-- In strict mode, skipping a packet reads what decoding it reads, and fails when decoding fails; the headers to come will be read
alike. -/
theorem packet_alike (csty sty layno : Nat) (packed : Option (List UInt8)) (bs ds : List DecBand) (src : List UInt8) (hsrc : src.length < 2 ^ 32)
    (h : BandsEq bs ds) (hp : ∀ b ∈ ds, PreBand b) (h0 : layno = 0 → ∀ b ∈ ds, Bare b) :
    Alike (fun x y : Nat × Option (List UInt8) × List DecBand => x.1 = y.1 ∧ x.2.1 = y.2.1 ∧ BandsEq x.2.2 y.2.2)
      (decodePacket csty sty layno true packed bs src) (skipPacket csty sty layno true packed ds src) := by
  unfold decodePacket skipPacket
  have hk := readHeader_kept csty sty layno packed ds src hp h0
  have ha := readHeader_alike csty sty layno packed bs ds src h
  revert hk ha
  generalize readHeader csty sty layno packed bs src = X
  generalize readHeader csty sty layno packed ds src = Y
  intro hk ha
  cases X with
  | error e => cases Y with
    | error f => exact ha
    | ok _ => exact ha.elim
  | ok x => cases Y with
    | error f => exact ha.elim
    | ok y =>
      obtain ⟨a1, a2, a3, a4⟩ := ha
      have hk := hk y rfl
      rw [ok_bind, ok_bind, a1, a2, a3]
      split
      · unfold readData
        rw [bind_assoc]
        refine Alike.bind (bands_alike (src.length - y.read) (by omega) ⟨src.drop y.read, false⟩ ⟨0, false⟩ _ _ a4 (fun b hb he d hd => ?_) rfl rfl ?_) ?_
        · obtain ⟨b0, _, h2⟩ := forall2_right hk b hb
          obtain ⟨d0, _, h3⟩ := forall2_right (h2.blks (h2.empty.symm.trans he)) d hd
          exact h3.segs.short
        · show (src.drop y.read).length + 0 = _
          rw [List.length_drop]; rfl
        · rintro ⟨q1, c1⟩ ⟨k1, d1⟩ ⟨t1, t2, t3⟩
          dsimp only at t1 t2 t3
          refine ⟨?_, rfl, t3⟩
          show y.read + (if q1.cut then (src.drop y.read).length else (src.drop y.read).length - q1.rest.length) = y.read + k1.read
          rw [t1, if_neg (by decide), List.length_drop]
          omega
      · exact ⟨rfl, rfl, a4⟩

end Jp2.T2

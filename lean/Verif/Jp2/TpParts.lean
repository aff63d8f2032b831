import Verif.Jp2.TpRun
/-!
# One well-formed tile-part
-/
namespace Jp2.Tp
open Jp2.Hdr (R User refuseIf be ok_bind refuse_bind next_be be_len)

/-! ## Counting -/

theorem cnt_append (a b : List Part) (i : Nat) : cnt (a ++ b) i = cnt a i + cnt b i := List.countP_append

theorem cnt_single (p : Part) (i : Nat) : cnt [p] i = if i = p.tile then 1 else 0 := by
  unfold cnt
  rw [List.countP_singleton]
  by_cases h : i = p.tile
  · subst h; simp
  · have h2 : ¬ p.tile = i := fun e => h e.symm
    simp [h, h2]

theorem dataOf_append (a b : List Part) (i : Nat) : dataOf (a ++ b) i = dataOf a i ++ dataOf b i := by
  unfold dataOf
  rw [List.filter_append, List.flatMap_append]

theorem dataOf_single (p : Part) (i : Nat) : dataOf [p] i = if i = p.tile then p.data else [] := by
  unfold dataOf
  by_cases h : i = p.tile
  · subst h; simp
  · have h2 : ¬ p.tile = i := fun e => h e.symm
    simp [h, h2]

theorem cnt_zero {ps : List Part} {i : Nat} (h : cnt ps i = 0) : ∀ p ∈ ps, p.tile ≠ i := by
  intro p hp e
  have := List.countP_eq_zero.mp h p hp
  simp [e] at this

theorem dataOf_zero {ps : List Part} {i : Nat} (h : cnt ps i = 0) : dataOf ps i = [] := by
  have := cnt_zero h
  unfold dataOf
  rw [List.filter_eq_nil_iff.mpr]
  · rfl
  · intro p hp; simp [this p hp]

/-! ## The state between tile-parts -/

/-- What is known of tile `i` after the parts `done`; `E` are the tiles already handed over. -/
structure TIs (all done : List Part) (E : List Nat) (want : Nat → Bool) (f : Nat → Par) (i : Nat) (t : Tile) : Prop where
  gone : i ∈ E → t.data = none
  tcp : i ∉ E → t.tcp = (f i).tcp
  ppt : i ∉ E → PptIs t (f i)
  part : i ∉ E → t.part + 1 = cnt done i
  nb : i ∉ E → t.nb = 0 ∨ t.nb = cnt all i
  data : i ∉ E → t.data = if want i = true ∧ dataOf done i ≠ [] then some (dataOf done i) else none

/-- The decoder after the parts `done`, with `ps` ahead. -/
structure DIs (h : Hdr.Dec) (done ps : List Part) (E : List Nat) (want : Nat → Bool) (f : Nat → Par) (d : Dec) : Prop where
  same : d.h = { h with buf := d.h.buf }
  buf : 1000 ≤ d.h.buf.length
  len : d.tiles.length = h.tw * h.th
  tiles : ∀ (i : Nat) t, d.tiles[i]? = some t → TIs (done ++ ps) done E want f i t
  only : d.only = none
  skips : ∀ i, i < h.tw * h.th → skipped d i = !want i
  ready : d.ready = false
  skip : d.skip = false
  corr : d.corr = false
  st : d.st = .tphsot
  last : ps ≠ [] → d.last = false
  emitted : ∀ i ∈ E, cnt ps i = 0 ∧ want i = true ∧ 0 < cnt done i

/-! ## `SOT` -/

/-- The body of the `SOT` segment. -/
def sotBody (p : Part) (psot : Nat) : List UInt8 := be 2 p.tile ++ (be 4 psot ++ (be 1 p.num ++ be 1 p.count))

theorem sotValues_is {p : Part} {psot : Nat} (tail : List UInt8) (h1 : p.tile < 2 ^ 16) (h2 : psot < 2 ^ 32) (h3 : p.num < 256)
    (h4 : p.count < 256) : sotValues (sotBody p psot ++ tail) 8 = .ok (p.tile, psot, p.num, p.count) := by
  unfold sotValues sotBody
  simp only [List.append_assoc]
  rw [refuse_bind (by decide), next_be _ (by omega) (by omega), ok_bind]
  dsimp only
  rw [next_be _ (by omega) (by omega), ok_bind]
  dsimp only
  rw [next_be _ (by omega) (by omega), ok_bind]
  dsimp only
  rw [next_be _ (by omega) (by omega), ok_bind]
  rfl

theorem newNb_is {d : Dec} {t : Tile} {num count total : Nat} (hc : d.corr = false) (hn : t.nb = 0 ∨ t.nb = total)
    (hcount : count = 0 ∨ count = total) (hlt : num < total) :
    newNb d t num count = .ok (if count = 0 then t.nb else total) := by
  unfold newNb
  rw [refuse_bind (by omega), hc]
  by_cases h : count = 0
  · rw [if_neg (by omega), if_pos h]; rfl
  · rw [if_pos (by omega), if_neg h]
    dsimp only
    have : count = total := by omega
    rw [if_neg (by decide), Nat.add_zero, refuse_bind (by omega), this]
    rfl

/-- What `SOT` makes of the decoder. -/
def afterSot (d : Dec) (p : Part) (psot nb : Nat) (t : Tile) : Dec :=
  { d with
    cur := p.tile, last := psot == 0, can := nb != 0 && nb == p.num + 1,
    sot := if psot = 0 then 0 else psot - 12, st := .tph, skip := skipped d p.tile,
    tiles := d.tiles.set p.tile { t with part := p.num, nb := nb } }

theorem readSot_is {d : Dec} {t : Tile} {p : Part} {psot total : Nat} (tail : List UInt8) (h1 : p.tile < 2 ^ 16) (h2 : psot < 2 ^ 32)
    (h3 : p.num < 256) (h4 : p.count < 256) (hp : psot = 0 ∨ 14 ≤ psot) (htile : p.tile < d.h.tw * d.h.th)
    (ht : d.tiles[p.tile]? = some t) (hpart : t.part + 1 = p.num) (hc : d.corr = false) (hn : t.nb = 0 ∨ t.nb = total)
    (hcount : p.count = 0 ∨ p.count = total) (hlt : p.num < total) (hlast : d.last = false) (hcan : d.can = false) :
    readSot d (sotBody p psot ++ tail) 8 = .ok (afterSot d p psot (if p.count = 0 then t.nb else total) t) := by
  unfold readSot
  rw [sotValues_is tail h1 h2 h3 h4, ok_bind]
  dsimp only
  rw [refuse_bind (by omega), tileAt_ok ht, ok_bind, refuse_bind (by intro h; exact h.2 hpart), refuse_bind (by omega),
    newNb_is hc hn hcount hlt, ok_bind, hlast, hcan, Bool.false_or]
  show Except.ok _ = Except.ok _
  congr 1
  unfold put afterSot
  dsimp only
  rw [Bool.false_or]
  have : (if (psot == 0) = true then 0 else (psot + (2 ^ 32 - 12)) % 2 ^ 32) = if psot = 0 then 0 else psot - 12 := by
    by_cases h : psot = 0
    · rw [if_pos h, if_pos (by simpa using h)]
    · rw [if_neg h, if_neg (by simpa using h)]
      omega
  rw [this]

/-- The round of the header loop that reads `SOT`. -/
theorem header_sot {u : User} {h : Hdr.Dec} {file rest : List UInt8} {d : Dec} {s : Src} {t : Tile} {p : Part} {psot total fuel : Nat}
    (hs : At file s (be 2 10 ++ (sotBody p psot ++ rest))) (hb : 1000 ≤ d.h.buf.length) (hh : d.h = { h with buf := d.h.buf })
    (hst : d.st = .tphsot)
    (h1 : p.tile < 2 ^ 16) (h2 : psot < 2 ^ 32)
    (h3 : p.num < 256) (h4 : p.count < 256) (hp : psot = 0 ∨ 14 ≤ psot) (htile : p.tile < h.tw * h.th)
    (ht : d.tiles[p.tile]? = some t) (hpart : t.part + 1 = p.num) (hc : d.corr = false) (hn : t.nb = 0 ∨ t.nb = total)
    (hcount : p.count = 0 ∨ p.count = total) (hlt : p.num < total) (hlast : d.last = false) (hcan : d.can = false) :
    ∃ buf s', At file s' rest ∧ 1000 ≤ buf.length ∧
      header u (fuel + 1) 0xFF90 d s = (do
        let (m, d, s) ← nextMarker (afterSot { d with h := { h with buf := buf } } p psot (if p.count = 0 then t.nb else total) t) s'
        header u fuel m d s) := by
  have hs1 := hs.move (n := 2) (be_len 2 _)
  have hl : (sotBody p psot).length = 8 := by unfold sotBody; simp [be_len]
  have hs2 := hs1.move (n := 8) hl
  obtain ⟨buf1, hbuf1⟩ : ∃ x, x = be 2 10 ++ d.h.buf.drop 2 := ⟨_, rfl⟩
  have hb1 : 1000 ≤ buf1.length := by rw [hbuf1]; simp [be_len]; omega
  obtain ⟨buf2, hbuf2⟩ : ∃ x, x = sotBody p psot ++ buf1.drop 8 := ⟨_, rfl⟩
  have hb2 : 1000 ≤ buf2.length := by rw [hbuf2, List.length_append, hl, List.length_drop]; omega
  refine ⟨buf2, _, hs2, hb2, ?_⟩
  rw [header, if_neg (by decide), hs.left, ok_bind, if_neg (by simp [be_len]), hs.load (be_len 2 _), ok_bind]
  dsimp only
  rw [next_two 10 (by decide), ok_bind]
  dsimp only
  rw [refuse_bind (by decide), hs1.left, ok_bind, if_neg (fun h => absurd h.1 (by decide)), ← hbuf1]
  unfold segment
  dsimp only
  rw [if_neg (by rw [hst]; decide), refuse_bind (by rw [hst]; decide), hs1.load hl, ok_bind]
  dsimp only
  rw [← hbuf2]
  have he : ∀ d : Dec, handle u 0xFF90 d buf2 8 = readSot d buf2 8 := by
    intro d; unfold handle; rw [if_pos rfl]
  have hrec : ({ d with h := { d.h with buf := buf2 } } : Dec) = { d with h := { h with buf := buf2 } } := by rw [hh]
  rw [hrec, he]
  have hr := readSot_is (d := { d with h := { h with buf := buf2 } }) (buf1.drop 8) h1 h2 h3 h4 hp htile ht hpart hc hn hcount hlt hlast hcan
  rw [← hbuf2] at hr
  rw [hr, ok_bind]

/-! ## `SOD` -/

theorem readSod_is {file rest : List UInt8} {d : Dec} {s : Src} {t : Tile} {data : List UInt8}
    (hs : At file s (data ++ rest)) (ht : d.tiles[d.cur]? = some t)
    (hroom : (t.data.getD []).length + data.length + 2 < 2 ^ 32) (hnone : ∀ x, t.data = some x → x ≠ [])
    (hsot : if d.last = true then rest.length = 2 else d.sot = data.length + 2) :
    ∃ cap sot, readSod d s = .ok ({ d with
        sot := sot, st := .tphsot
        tiles := d.tiles.set d.cur { t with
          cap := cap, data := if t.data.getD [] ++ data = [] then none else some (t.data.getD [] ++ data) } },
        { s with pos := s.pos + data.length, off := s.off + data.length }) := by
  have hn : sodLength d (data ++ rest).length = data.length := by
    unfold sodLength
    rw [List.length_append]
    split at hsot
    · next h => rw [if_pos h, hsot]; omega
    · next h => rw [if_neg h, if_pos (by omega)]; omega
  unfold readSod
  rw [tileAt_ok ht, ok_bind, hs.left, ok_bind]
  dsimp only
  rw [hn]
  by_cases h0 : data = []
  · subst h0
    refine ⟨t.cap, 0, ?_⟩
    rw [if_pos (by rfl)]
    show Except.ok _ = Except.ok _
    congr 1
    rw [List.append_nil]
    have : ({ t with cap := t.cap, data := if t.data.getD [] = [] then none else some (t.data.getD []) } : Tile) = t := by
      cases hd : t.data with
      | none => cases t; simp_all
      | some x =>
        have := hnone x hd
        cases t; simp_all
    rw [this, set_self ht]
    rfl
  · have hpos : 0 < data.length := List.length_pos_iff.2 h0
    have hroomok : ∃ cap, sodRoom { d with sot := data.length } t data.length (data ++ rest).length = .ok cap ∧
        (t.data.getD []).length + data.length ≤ cap := by
      unfold sodRoom
      dsimp only
      rw [refuse_bind (by rw [List.length_append]; omega), refuse_bind (by omega)]
      cases hd : t.data with
      | none => exact ⟨_, rfl, by simp⟩
      | some x =>
        rw [hd] at hroom
        simp only [Option.getD_some] at hroom
        dsimp only
        rw [refuse_bind (by omega)]
        exact ⟨_, rfl, by simp⟩
    obtain ⟨cap, hcap, hle⟩ := hroomok
    refine ⟨cap, data.length, ?_⟩
    rw [if_neg (by omega), hcap, ok_bind]
    unfold sodStore
    dsimp only
    rw [if_neg (by omega), hs.read rfl]
    dsimp only
    rw [if_neg (by simp [h0])]
    rfl

/-! ## The look ahead -/

/-- Parts whose numbers fit their fields. -/
def Fits (p : Part) : Prop := p.tile < 2 ^ 16 ∧ p.num < 256 ∧ p.count < 256 ∧ p.len < 2 ^ 32

theorem len_ge (p : Part) : 14 ≤ p.len := by
  unfold Part.len Part.body
  simp [be_len]; omega

theorem bytes_eq (p : Part) (psot : Nat) (rest : List UInt8) :
    p.bytes psot ++ rest = be 2 0xFF90 ++ (be 2 10 ++ (sotBody p psot ++ (p.body ++ rest))) := by
  unfold Part.bytes sotBody
  simp only [List.append_assoc]

/-- Other tiles' parts do not lead to a correction. -/
theorem needCorrection_no {file junk bs0 : List UInt8} {zero : Bool} {tile : Nat} {s0 : Src} (h0 : At file s0 bs0) :
    ∀ (ps : List Part) (s : Src) (fuel : Nat), (∀ p ∈ ps, Fits p) → (∀ p ∈ ps, p.tile ≠ tile) → ps.length < fuel →
      At file s (partsBytes zero ps ++ (be 2 0xFFD9 ++ junk)) → s0.pos ≤ s.pos →
      needCorrection tile s0.off fuel s = .ok (false, s0) := by
  intro ps
  induction ps with
  | nil =>
    intro s fuel _ _ hf hs hp
    obtain ⟨f, rfl⟩ : ∃ f, fuel = f + 1 := ⟨fuel - 1, by omega⟩
    rw [partsBytes, List.nil_append] at hs
    have hs1 := hs.move (n := 2) (be_len 2 _)
    rw [needCorrection, hs.read (be_len 2 _)]
    dsimp only
    have := next_two 0xFFD9 (by decide) []
    rw [List.append_nil] at this
    rw [this, ok_bind]
    dsimp only
    rw [if_pos (by decide), h0.seek hs1 (by show s0.pos ≤ s.pos + 2; omega)]
    rfl
  | cons p ps ih =>
    intro s fuel hfit hne hf hs hp
    obtain ⟨f, rfl⟩ : ∃ f, fuel = f + 1 := ⟨fuel - 1, by simp at hf; omega⟩
    obtain ⟨f1, f2, f3, f4⟩ := hfit p (by simp)
    have hlen := len_ge p
    obtain ⟨psot, hpsot⟩ : ∃ x, x = if zero = true ∧ ps = [] then 0 else p.len := ⟨_, rfl⟩
    rw [partsBytes, ← hpsot, List.append_assoc, bytes_eq] at hs
    have hl : (sotBody p psot).length = 8 := by unfold sotBody; simp [be_len]
    have hs1 := hs.move (n := 2) (be_len 2 _)
    have hs2 := hs1.move (n := 2) (be_len 2 _)
    have hs3 := hs2.move (n := 8) hl
    rw [needCorrection, hs.read (be_len 2 _)]
    dsimp only
    have e1 := next_two 0xFF90 (by decide) []
    have e2 := next_two 10 (by decide) []
    rw [List.append_nil] at e1 e2
    rw [e1, ok_bind]
    dsimp only
    rw [if_neg (by decide), hs1.load (be_len 2 _), ok_bind]
    dsimp only
    rw [List.drop_nil, List.append_nil, e2, ok_bind]
    dsimp only
    rw [refuse_bind (by decide), hs2.load hl, ok_bind]
    dsimp only
    rw [sotValues_is _ f1 (by rw [hpsot]; split <;> omega) f2 f3, ok_bind]
    dsimp only
    rw [if_neg (hne p (by simp))]
    by_cases hz : zero = true ∧ ps = []
    · rw [if_pos hz] at hpsot
      rw [if_pos (by omega), h0.seek hs3 (by show s0.pos ≤ s.pos + 2 + 2 + 8; omega)]
      rfl
    · rw [if_neg hz] at hpsot
      have hb : p.body.length = psot - 12 := by rw [hpsot]; unfold Part.len; omega
      rw [if_neg (by omega), hs3.skip hb]
      dsimp only
      exact ih _ f (fun q hq => hfit q (by simp [hq])) (fun q hq => hne q (by simp [hq])) (by simp at hf; omega) (hs3.move hb)
        (by show s0.pos ≤ s.pos + 2 + 2 + 8 + (psot - 12); omega)

/-! ## A whole part -/

theorem partsBytes_len {zero : Bool} : ∀ ps : List Part, 14 * ps.length ≤ (partsBytes zero ps).length
  | [] => by simp
  | p :: ps => by
    have := partsBytes_len (zero := zero) ps
    rw [partsBytes, List.length_append, List.length_cons]
    have h2 : 14 ≤ (p.bytes (if zero = true ∧ ps = [] then 0 else p.len)).length := by
      unfold Part.bytes Part.body
      simp only [List.length_append, be_len]; omega
    omega

theorem segLen_ge (l : List (Nat × List UInt8)) : 4 * l.length ≤ segLen l := by
  induction l with
  | nil => simp
  | cons s l ih => rw [segLen_cons, List.length_cons]; omega

/-- What is ahead of the decoder once the marker in front has been read: the parts `ps`, then `EOC`. -/
def ahead (zero : Bool) (junk : List UInt8) : List Part → List UInt8
  | [] => junk
  | p :: ps => be 2 10 ++ (sotBody p (if zero = true ∧ ps = [] then 0 else p.len) ++
      (p.body ++ (partsBytes zero ps ++ (be 2 0xFFD9 ++ junk))))

/-- That marker. -/
def front : List Part → Nat
  | [] => 0xFFD9
  | _ :: _ => 0xFF90

theorem front_ahead (zero : Bool) (junk : List UInt8) (ps : List Part) :
    partsBytes zero ps ++ (be 2 0xFFD9 ++ junk) = be 2 (front ps) ++ ahead zero junk ps := by
  cases ps with
  | nil => rfl
  | cons p ps =>
    rw [partsBytes, List.append_assoc, bytes_eq]
    rfl

end Jp2.Tp

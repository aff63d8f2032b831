import Verif.Jp2.BoxCut
import Verif.Jp2.BoxTwice
import Verif.Jp2.BoxProps
/-!
# C64: damaged JP2 files are refused
-/
namespace Jp2.Box
open Hdr (Fail R refuseIf be be_len ok_bind refuse_bind bind_ok)

/-- **C57.** The length of a box, however it is given, fits the 32 bits it is kept in. -/
theorem C57_box_length_fits (left : Nat) (data rest : List UInt8) (h : Head) (hr : readHead left data = (some h, rest)) : h.length < 2 ^ 32 := by
  have four : ∀ l : List UInt8, Cio.fromBe (l.take 4) < 2 ^ 32 := by
    intro l
    have h1 := Cio.fromBe_lt (l.take 4)
    have h2 : (l.take 4).length ≤ 4 := by rw [List.length_take]; omega
    refine lt_of_lt_of_le h1 ?_
    calc 256 ^ (l.take 4).length ≤ 256 ^ 4 := Nat.pow_le_pow_right (by decide) h2
      _ = 2 ^ 32 := by decide
  unfold readHead at hr
  dsimp only at hr
  split at hr
  · cases hr
  split at hr
  · split at hr
    · cases hr
    split at hr
    · cases hr
    · rename_i _ _ _ h4
      cases hr
      exact Nat.lt_of_not_le (fun h5 => h4 (Nat.lt_of_lt_of_le (by decide) h5))
  split at hr
  · split at hr
    · cases hr
    split at hr
    · cases hr
    · cases hr
      exact four _
  · cases hr
    exact four _

/-- A box that reaches to the end of 100 bytes. -/
example : readHead 100 (be 4 0 ++ be 4 (code 'j' 'p' '2' 'c') ++ [7]) = (some ⟨100, code 'j' 'p' '2' 'c', 8⟩, [7]) := by decide +kernel

/-- **C64.** A file cut anywhere before the end of its header box is refused: signature `a`, file type `b`, other
boxes `c` and header box `d`, cut to `k` bytes. -/
theorem C64_cut_refused (m : Mode) (ftyp a b c d hb : List UInt8) (x1 : List (Nat × List UInt8))
    (ha : IsBox (code 'j' 'P' ' ' ' ') magic a) (hbx : IsBox (code 'f' 't' 'y' 'p') ftyp b) (hc : Boxes x1 c) (h1 : ∀ x ∈ x1, Unknown x.1)
    (hd : IsBox (code 'j' 'p' '2' 'h') hb d) (k : Nat) (hk : k < (a ++ b ++ c ++ d).length) :
    readFile m {} (St.file ((a ++ b ++ c ++ d).take k)) = .error .refused :=
  cut_refused ha hbx hc h1 hd k hk

/-- Cut behind the file type box, and inside the header box; uncut it is read. -/
example :
    let file := exStart ++ box (code 'j' 'p' '2' 'h') exIhdr
    (readFile .checked {} (St.file (file.take 28))).map (fun r => r.1.w) = .error .refused ∧
    (readFile .checked {} (St.file (file.take (file.length - 1)))).map (fun r => r.1.w) = .error .refused ∧
    (readFile .checked {} (St.file file)).map (fun r => r.1.w) = .ok 2 := by
  refine ⟨?_, ?_, ?_⟩ <;> decide +kernel

/-- **C64.** A file whose header has two palettes, two component mappings or two channel definitions is not accepted,
whatever stands in and between them. -/
theorem C64_twice_refused (m : Mode) (ftyp cs bytes b1 b2 : List UInt8) (x1 x2 l1 l2 l3 : List (Nat × List UInt8)) (ty : Nat)
    (hty : ty ∈ [code 'p' 'c' 'l' 'r', code 'c' 'm' 'a' 'p', code 'c' 'd' 'e' 'f'])
    (h : IsFile ftyp x1 (l1 ++ (ty, b1) :: (l2 ++ (ty, b2) :: l3)) x2 cs bytes) (h1 : ∀ x ∈ x1, Unknown x.1) (h2 : ∀ x ∈ x2, Unknown x.1)
    (r : Codec × St) : readFile m {} (St.file bytes) ≠ .ok r := by
  intro hr
  obtain ⟨j, j', _, hp, hc, hs⟩ := file_header_ok h h1 h2 hr
  rw [subBoxes_append] at hs
  obtain ⟨ja, ha, hs⟩ := bind_ok hs
  rw [subBoxes] at hs
  obtain ⟨jb, hb, hs⟩ := bind_ok hs
  rw [subBoxes_append] at hs
  obtain ⟨jc, hc', hs⟩ := bind_ok hs
  rw [subBoxes] at hs
  obtain ⟨jd, hd, hs⟩ := bind_ok hs
  have c0 : Cols { j with imgState := 0 } := by
    intro pc hpc
    have : j.pclr = some pc := hpc
    rw [hp] at this; cases this
  have fa := subs_frame c0 ha
  have fb := sub_frame fa.1 hb
  have fc := subs_frame fb.1 hc'
  have fd := sub_frame fc.1 hd
  rcases List.mem_cons.1 hty with e | hty
  · have := fb.2.2.2.1 e
    have := fd.2.2.2.1 e
    omega
  rcases List.mem_cons.1 hty with e | hty
  · have := fb.2.2.2.2.1 e
    have := fd.2.2.2.2.1 e
    omega
  · have e := List.mem_singleton.1 hty
    have u := (fb.2.2.2.2.2.1 e).2
    have v := (fd.2.2.2.2.2.1 e).1
    have := fc.2.2.1 u
    rw [v] at this
    cases this

/-- **C64.** A file whose header has a component mapping without a palette in front of it is not accepted. -/
theorem C64_mapping_needs_palette (m : Mode) (ftyp cs bytes b : List UInt8) (x1 x2 l1 l2 : List (Nat × List UInt8))
    (h : IsFile ftyp x1 (l1 ++ (code 'c' 'm' 'a' 'p', b) :: l2) x2 cs bytes) (hn : ∀ x ∈ l1, x.1 ≠ code 'p' 'c' 'l' 'r')
    (h1 : ∀ x ∈ x1, Unknown x.1) (h2 : ∀ x ∈ x2, Unknown x.1) (r : Codec × St) : readFile m {} (St.file bytes) ≠ .ok r := by
  intro hr
  obtain ⟨j, j', _, hp, hc, hs⟩ := file_header_ok h h1 h2 hr
  rw [subBoxes_append] at hs
  obtain ⟨ja, ha, hs⟩ := bind_ok hs
  rw [subBoxes] at hs
  obtain ⟨jb, hb, hs⟩ := bind_ok hs
  have c0 : Cols { j with imgState := 0 } := by
    intro pc hpc
    have : j.pclr = some pc := hpc
    rw [hp] at this; cases this
  have fa := subs_frame c0 ha
  have fb := sub_frame fa.1 hb
  have s0 : stage { j with imgState := 0 } = 0 := by
    unfold stage
    dsimp only
    rw [hp]
  have := fa.2.2.2 hn s0
  have := (fb.2.2.2.2.1 rfl).1
  omega

/-- **C64.** A file type box that is not a whole number of brands is refused. -/
theorem C64_ragged_brands_refused (m : Mode) (ftyp cs bytes : List UInt8) (x1 header x2 : List (Nat × List UInt8))
    (h : IsFile ftyp x1 header x2 cs bytes) (h1 : ∀ x ∈ x1, Unknown x.1) (h2 : ∀ x ∈ x2, Unknown x.1)
    (hf : ftyp.length < 8 ∨ ¬ 4 ∣ ftyp.length) (r : Codec × St) : readFile m {} (St.file bytes) ≠ .ok r := by
  intro hr
  obtain ⟨j, _, hj, _⟩ := file_header_ok h h1 h2 hr
  unfold readFtyp at hj
  obtain ⟨_, _, hj⟩ := bind_ok hj
  obtain ⟨_, h3, hj⟩ := bind_ok hj
  have h3 := refuse_ok h3
  rw [rd_eq (by omega), ok_bind] at hj
  dsimp only at hj
  rw [rd_eq (by rw [List.length_drop]; omega), ok_bind] at hj
  dsimp only at hj
  obtain ⟨_, h4, hj⟩ := bind_ok hj
  have h4 := refuse_ok h4
  rw [List.length_drop, List.length_drop] at h4
  omega

/-- A header with two palettes, and one with a mapping first. -/
example :
    let p := (code 'p' 'c' 'l' 'r', ([0, 1, 1, 7, 9] : List UInt8))
    let file := fun hb : List UInt8 => exStart ++ box (code 'j' 'p' '2' 'h') (exIhdr ++ hb) ++ box (code 'j' 'p' '2' 'c') []
    (readFile .checked {} (St.file (file (box p.1 p.2)))).map (fun r => r.1.w) = .ok 2 ∧
    (readFile .checked {} (St.file (file (box p.1 p.2 ++ box p.1 p.2)))).map (fun r => r.1.w) = .error .refused ∧
    (readFile .checked {} (St.file (file (box (code 'c' 'm' 'a' 'p') [0, 0, 0, 0] ++ box p.1 p.2)))).map (fun r => r.1.w) = .error .refused := by
  refine ⟨?_, ?_, ?_⟩ <;> decide +kernel

end Jp2.Box

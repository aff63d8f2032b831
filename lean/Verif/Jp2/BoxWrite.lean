import Verif.Jp2.BoxFile
/-!
# The encoder's file, and reading it back: helper lemmas
-/
namespace Jp2.Box
open Hdr (Fail R refuseIf be be_len ok_bind refuse_bind refuse_no)

/-! ## Depths -/

theorem depthByte_eq {c : Source} (h : (1 ≤ c.prec ∧ c.prec ≤ 38) ∧ c.sgnd ≤ 1) : depthByte c = bits c := by
  unfold depthByte bits
  have e : (c.prec + (2 ^ 32 - 1)) % 2 ^ 32 = c.prec - 1 := by norm_num; omega
  rw [e]
  norm_num
  omega

theorem bits_lt {c : Source} (h : (1 ≤ c.prec ∧ c.prec ≤ 38) ∧ c.sgnd ≤ 1) : bits c < 255 := by unfold bits; omega

theorem bits_prec {a b : Source} (ha : (1 ≤ a.prec ∧ a.prec ≤ 38) ∧ a.sgnd ≤ 1) (hb : (1 ≤ b.prec ∧ b.prec ≤ 38) ∧ b.sgnd ≤ 1)
    (h : bits a = bits b) : a.prec = b.prec := by unfold bits at h; omega

theorem prec_dec {p : Nat} (h : 1 ≤ p ∧ p ≤ 38) : (p + (2 ^ 32 - 1)) % 2 ^ 32 = p - 1 := by norm_num; omega

/-! ## Channel definitions -/

theorem alphas_eq (cs : List Source) : alphas cs = (List.range cs.length).filter fun i => (cs[i]?.map Source.alpha).getD 0 ≠ 0 := rfl

theorem colors_eq (cs : Int) : colors (enumOf cs 0) =
    if cs = 1 ∨ cs = 3 then some 3 else if cs = 2 then some 1 else none := by
  unfold enumOf colors
  by_cases h1 : cs = 1
  · rw [if_pos h1, if_pos (Or.inl h1)]; rfl
  · rw [if_neg h1]
    by_cases h2 : cs = 2
    · rw [if_pos h2, h2]; rfl
    · rw [if_neg h2]
      by_cases h3 : cs = 3
      · rw [if_pos h3, if_pos (Or.inr h3)]; rfl
      · rw [if_neg h3, if_neg (c := cs = 1 ∨ cs = 3) (by omega), if_neg h2]; rfl

theorem defOf_eq {cs : List Source} {a : Nat} (h : alphas cs = [a]) (col : Nat) :
    (List.range cs.length).map (defOf cs col) = channelDefs cs.length col a := by
  unfold channelDefs
  apply List.map_congr_left
  intro i hi
  have e : ((cs[i]?.map Source.alpha).getD 0 ≠ 0) ↔ i = a := by
    have : i ∈ alphas cs ↔ (cs[i]?.map Source.alpha).getD 0 ≠ 0 := by
      rw [alphas_eq, List.mem_filter]
      simp only [hi, true_and, decide_eq_true_eq]
    rw [← this, h, List.mem_singleton]
  unfold defOf
  split
  · rfl
  · by_cases hia : i = a
    · rw [if_pos (e.2 hia), if_pos hia]
    · rw [if_neg (fun h => hia (e.1 h)), if_neg hia]

theorem channelDefs_ne {n col a : Nat} (h : 0 < n) : channelDefs n col a ≠ [] := by
  intro hc
  have := congrArg List.length hc
  unfold channelDefs at this
  rw [List.length_map, List.length_range] at this
  simp only [List.length_nil] at this
  omega

theorem cdefOf_eq {im : Image} (h : 1 ≤ im.comps.length) :
    cdefOf im.comps (enumOf im.colorSpace 0) = if defsFor im = [] then none else some (defsFor im) := by
  unfold cdefOf defsFor
  rw [← alphas_eq, colors_eq]
  obtain ⟨l, hl⟩ : ∃ l, l = alphas im.comps := ⟨_, rfl⟩
  rw [← hl]
  match l, hl with
  | [], _ => rfl
  | _ :: _ :: _, _ => rfl
  | [a], hl =>
    have ha : a < im.comps.length := by
      have : a ∈ alphas im.comps := by rw [← hl]; exact List.mem_singleton.2 rfl
      rw [alphas_eq, List.mem_filter, List.mem_range] at this
      exact this.1
    have go : ∀ col, 0 < col →
        (if im.comps.length < col + 1 then none else if a < col then none
          else some ((List.range im.comps.length).map (defOf im.comps col))) =
        if (if 0 < col ∧ col ≤ a then channelDefs im.comps.length col a else []) = [] then none
        else some (if 0 < col ∧ col ≤ a then channelDefs im.comps.length col a else []) := by
      intro col hc
      by_cases h2 : col ≤ a
      · rw [if_neg (c := im.comps.length < col + 1) (by omega), if_neg (c := a < col) (by omega), if_pos (show 0 < col ∧ col ≤ a from ⟨hc, h2⟩),
          if_neg (channelDefs_ne (by omega)), defOf_eq hl.symm]
      · rw [if_neg (c := 0 < col ∧ col ≤ a) (by omega), if_pos rfl]
        split
        · rfl
        · rw [if_pos (by omega)]
    dsimp only
    by_cases h1 : im.colorSpace = 1 ∨ im.colorSpace = 3
    · rw [if_pos h1, if_pos h1]; exact go 3 (by omega)
    · rw [if_neg h1, if_neg h1]
      by_cases h2 : im.colorSpace = 2
      · rw [if_pos h2, if_pos h2]; exact go 1 (by omega)
      · rw [if_neg h2, if_neg h2]; rfl

theorem defsFor_cases (im : Image) : defsFor im = [] ∨ ∃ col a, defsFor im = channelDefs im.comps.length col a := by
  unfold defsFor
  dsimp only
  generalize (if im.colorSpace = 1 ∨ im.colorSpace = 3 then 3 else if im.colorSpace = 2 then 1 else 0) = k
  split
  · by_cases hk : 0 < k ∧ k ≤ ‹ℕ›
    · rw [if_pos hk]; exact Or.inr ⟨_, _, rfl⟩
    · rw [if_neg hk]; exact Or.inl rfl
  · exact Or.inl rfl

theorem defsFor_len (im : Image) : (defsFor im).length ≤ im.comps.length := by
  rcases defsFor_cases im with h | ⟨col, a, h⟩
  · rw [h]; exact Nat.zero_le _
  · rw [h]; unfold channelDefs; rw [List.length_map, List.length_range]

theorem defsFor_lt {im : Image} (h : im.comps.length ≤ 16384) : ∀ d ∈ defsFor im, d.cn < 65536 ∧ d.typ < 65536 ∧ d.asoc < 65536 := by
  intro d hd
  rcases defsFor_cases im with e | ⟨col, a, e⟩
  · rw [e] at hd; cases hd
  · rw [e] at hd
    unfold channelDefs at hd
    obtain ⟨i, hi, rfl⟩ := List.mem_map.1 hd
    rw [List.mem_range] at hi
    split
    · dsimp only; omega
    · split
      · dsimp only; omega
      · dsimp only; omega

/-! ## Writing -/

theorem boxed_box (ty n : Nat) (body : List UInt8) (h : n = 8 + body.length) : boxed ty n body = box ty body := by
  rw [h]; rfl

theorem flat_len {α : Type} (l : List α) (k : Nat) (f : α → List UInt8) (h : ∀ x, (f x).length = k) : (l.flatMap f).length = l.length * k := by
  induction l with
  | nil => simp
  | cons a l ih => rw [List.flatMap_cons, List.length_append, ih, h, List.length_cons, Nat.succ_mul]; omega

/-- What `setup` leaves, in the terms of the standard. -/
theorem setup_eq {im : Image} (h : Encodable im) (ha : Agree im.comps) :
    setup im = .ok {
      brand := tJP2, minversion := 0, cl := [tJP2], h := im.y1 - im.y0, w := im.x1 - im.x0
      bpc := if Uniform im.comps then (im.comps.head?.map bits).getD 0 else 255
      c := 7, comps := im.comps.map bits, meth := 1, enumcs := enumerated im.colorSpace
      cdef := if defsFor im = [] then none else some (defsFor im) } := by
  have hx := h.x
  have hy := h.y
  have hc := h.comps
  unfold setup
  rw [refuse_bind (by omega)]
  rw [h.icc]
  have e1 : (im.y1 + 2 ^ 32 - im.y0) % 2 ^ 32 = im.y1 - im.y0 := by norm_num; omega
  have e2 : (im.x1 + 2 ^ 32 - im.x0) % 2 ^ 32 = im.x1 - im.x0 := by norm_num; omega
  have e3 : im.comps.map depthByte = im.comps.map bits := List.map_congr_left fun c hm => depthByte_eq (h.prec c hm)
  have e4 : cdefOf im.comps (enumOf im.colorSpace 0) = if defsFor im = [] then none else some (defsFor im) := cdefOf_eq hc.1
  have hp := h.prec
  rw [e1, e2, e3]
  obtain ⟨l, hl⟩ : ∃ l, l = im.comps := ⟨_, rfl⟩
  rw [← hl] at hp hc ha e4 ⊢
  match l with
  | [] => simp only [List.length_nil] at hc; omega
  | c0 :: cs =>
    dsimp only
    have e5 : (if cs.all (fun c => (c.prec + (2 ^ 32 - 1)) % 2 ^ 32 == (c0.prec + (2 ^ 32 - 1)) % 2 ^ 32) then depthByte c0 else 255) =
        if Uniform (c0 :: cs) then bits c0 else 255 := by
      have h0 := hp c0 (List.mem_cons_self ..)
      have key : cs.all (fun c => (c.prec + (2 ^ 32 - 1)) % 2 ^ 32 == (c0.prec + (2 ^ 32 - 1)) % 2 ^ 32) = true ↔ Uniform (c0 :: cs) := by
        rw [List.all_eq_true]
        constructor
        · intro hall
          have hpe : ∀ c ∈ c0 :: cs, c.prec = c0.prec := by
            intro c hm
            rcases List.mem_cons.1 hm with rfl | hm'
            · rfl
            · have h1 := hall c hm'
              have h2 := hp c hm
              rw [beq_iff_eq, prec_dec h2.1, prec_dec h0.1] at h1
              omega
          exact ha fun a hma b hmb => (hpe a hma).trans (hpe b hmb).symm
        · intro hu c hm
          have hm' := List.mem_cons_of_mem c0 hm
          have h2 := bits_prec (hp c hm') h0 (hu c hm' c0 (List.mem_cons_self ..))
          rw [beq_iff_eq, h2]
      by_cases hu : Uniform (c0 :: cs)
      · rw [if_pos hu, if_pos (key.2 hu), depthByte_eq h0]
      · rw [if_neg hu, if_neg (fun hh => hu (key.1 hh))]
    have z : (if (0 : Nat) ≠ 0 then 0 else enumOf im.colorSpace 0) = enumOf im.colorSpace 0 := if_neg (by decide)
    rw [e5, z, e4]
    rfl

theorem ihdr_len (im : Image) (b : Nat) :
    (be 4 (im.y1 - im.y0) ++ be 4 (im.x1 - im.x0) ++ be 2 im.comps.length ++ be 1 b ++ [7, 0, 0]).length = 14 := by
  simp only [List.length_append, be_len]; rfl

theorem be_one_zero : be 1 0 = [0] := by decide
theorem be_one_one : be 1 1 = [1] := by decide
theorem be_one_seven : be 1 7 = [7] := by decide

theorem write_eq {im : Image} (h : Encodable im) (ha : Agree im.comps) {cs : List UInt8} (hcs : cs.length + 8 < 2 ^ 32) :
    (setup im >>= fun j => writeFile j cs) = .ok (stdFile im (defsFor im) cs) := by
  rw [setup_eq h ha, ok_bind]
  have hc := h.comps
  have hx := h.x
  have hy := h.y
  unfold writeFile
  rw [refuse_bind]
  · unfold writeJp2h
    dsimp only
    have hb : (if Uniform im.comps then (im.comps.head?.map bits).getD 0 else 255) = 255 ↔ ¬ Uniform im.comps := by
      by_cases hu : Uniform im.comps
      · rw [if_pos hu]
        have hp := h.prec
        obtain ⟨l, hl⟩ : ∃ l, l = im.comps := ⟨_, rfl⟩
        rw [← hl] at hp hc hu ⊢
        match l with
        | [] => simp only [List.length_nil] at hc; omega
        | c0 :: l =>
          have := bits_lt (hp c0 (List.mem_cons_self ..))
          show bits c0 = 255 ↔ ¬ Uniform (c0 :: l)
          constructor
          · intro; omega
          · intro hn; exact absurd hu hn
      · rw [if_neg hu]
        exact ⟨fun _ => hu, fun _ => rfl⟩
    have w1 : ∀ j : Codec, j.meth = 1 → writeColr j = .ok (boxed tCOLR 15 (be 1 j.meth ++ be 1 j.precedence ++ be 1 j.approx ++ be 4 j.enumcs)) := by
      intro j hj; unfold writeColr; rw [if_pos (by rw [hj])]
    rw [w1 _ rfl, ok_bind]
    dsimp only
    have w2 : writeCdefIf (if defsFor im = [] then none else some (defsFor im)) =
        .ok (if defsFor im = [] then [] else box tCDEF (be 2 (defsFor im).length ++ (defsFor im).flatMap fun d => be 2 d.cn ++ be 2 d.typ ++ be 2 d.asoc)) := by
      by_cases hd : defsFor im = []
      · rw [if_pos hd, if_pos hd]; rfl
      · rw [if_neg hd, if_neg hd]
        unfold writeCdefIf writeCdef
        dsimp only
        rw [if_neg hd, boxed_box]
        rw [List.length_append, be_len, flat_len _ 6 _ (fun d => by simp only [List.length_append, be_len])]
        omega
    rw [w2, ok_bind]
    have w3 : ∀ j : Codec, j.comps.length = im.comps.length → j.h = im.y1 - im.y0 → j.w = im.x1 - im.x0 → j.c = 7 → j.unkC = 0 → j.ipr = 0 →
        writeIhdr j = box tIHDR (be 4 (im.y1 - im.y0) ++ be 4 (im.x1 - im.x0) ++ be 2 im.comps.length ++ be 1 j.bpc ++ [7, 0, 0]) := by
      intro j a1 a2 a3 a4 a5 a6
      unfold writeIhdr
      rw [a1, a2, a3, a4, a5, a6, boxed_box]
      · rw [be_one_zero, be_one_seven]; simp only [List.append_assoc]; rfl
      · simp only [List.length_append, be_len]
    rw [w3 _ (by dsimp only; rw [List.length_map]) rfl rfl rfl rfl rfl]
    have w4 : ∀ j : Codec, j.comps = im.comps.map bits → writeBpcc j = box tBPCC (im.comps.flatMap fun c => be 1 (bits c)) := by
      intro j hj
      unfold writeBpcc
      rw [hj, List.length_map, boxed_box, List.flatMap_map]
      rw [List.flatMap_map, flat_len _ 1 _ (fun d => be_len ..)]
      omega
    rw [w4 _ rfl]
    dsimp only
    have w5 : (if (if Uniform im.comps then (im.comps.head?.map bits).getD 0 else 255) = 255 then box tBPCC (im.comps.flatMap fun c => be 1 (bits c)) else []) =
        if Uniform im.comps then [] else box tBPCC (im.comps.flatMap fun c => be 1 (bits c)) := by
      by_cases hu : Uniform im.comps
      · rw [if_neg (fun hh => hb.1 hh hu), if_pos hu]
      · rw [if_pos (hb.2 hu), if_neg hu]
    rw [w5]
    have w6 : boxed tCOLR 15 (be 1 1 ++ be 1 0 ++ be 1 0 ++ be 4 (enumerated im.colorSpace)) =
        box tCOLR ([1, 0, 0] ++ be 4 (enumerated im.colorSpace)) := by
      rw [boxed_box, be_one_zero, be_one_one]
      · rfl
      · simp only [List.length_append, be_len]
    rw [w6]
    have w7 : ∀ j : Codec, j.brand = tJP2 → j.minversion = 0 → j.cl = [tJP2] → writeFtyp j = box tFTYP (be 4 tJP2 ++ be 4 0 ++ be 4 tJP2) := by
      intro j a1 a2 a3
      unfold writeFtyp
      rw [a1, a2, a3]
      show boxed tFTYP 20 (be 4 tJP2 ++ be 4 0 ++ (be 4 tJP2 ++ [])) = _
      rw [List.append_nil, boxed_box]
      simp only [List.length_append, be_len]
    rw [w7 _ rfl rfl rfl]
    have w8 : writeJp = box tJP magic := by decide
    rw [w8, boxed_box tJP2C _ cs (by omega)]
    rfl
  · have : valid { brand := tJP2, minversion := 0, cl := [tJP2], h := im.y1 - im.y0, w := im.x1 - im.x0
                   bpc := if Uniform im.comps then (im.comps.head?.map bits).getD 0 else 255
                   c := 7, comps := im.comps.map bits, meth := 1, enumcs := enumerated im.colorSpace
                   cdef := if defsFor im = [] then none else some (defsFor im) } = true := by
      unfold valid
      simp only [Bool.and_eq_true, decide_eq_true_eq, List.all_eq_true, List.mem_map]
      refine ⟨⟨⟨⟨⟨⟨rfl, rfl⟩, rfl⟩, by omega⟩, by omega⟩, ?_⟩, by omega⟩
      rintro x ⟨c, hm, rfl⟩
      have := h.prec c hm
      unfold bits
      omega
    rw [this]
    decide

/-! ## Reading it back -/

theorem readBytes_flat (l : List Source) (h : ∀ c ∈ l, bits c < 256) :
    readBytes l.length (l.flatMap fun c => be 1 (bits c)) = .ok (l.map bits) := by
  induction l with
  | nil => rfl
  | cons c l ih =>
    rw [List.length_cons, List.flatMap_cons]
    unfold readBytes
    rw [rd_be _ (by have := h c (List.mem_cons_self ..); omega), ok_bind]
    dsimp only
    rw [ih fun c hc => h c (List.mem_cons_of_mem _ hc)]
    rfl

theorem readDefs_flat (l : List Def) (h : ∀ d ∈ l, d.cn < 65536 ∧ d.typ < 65536 ∧ d.asoc < 65536) :
    readDefs l.length (l.flatMap fun d => be 2 d.cn ++ be 2 d.typ ++ be 2 d.asoc) = .ok l := by
  induction l with
  | nil => rfl
  | cons d l ih =>
    have hd := h d (List.mem_cons_self ..)
    rw [List.length_cons, List.flatMap_cons]
    unfold readDefs
    rw [List.append_assoc, List.append_assoc, rd_be _ (by omega), ok_bind]
    dsimp only
    rw [rd_be _ (by omega), ok_bind]
    dsimp only
    rw [rd_be _ (by omega), ok_bind]
    dsimp only
    rw [ih fun c hc => h c (List.mem_cons_of_mem _ hc)]
    rfl

/-- The boxes inside the header box of `stdFile`. -/
def stdHeader (im : Image) (defs : List Def) : List (Nat × List UInt8) :=
  [(tIHDR, be 4 (im.y1 - im.y0) ++ be 4 (im.x1 - im.x0) ++ be 2 im.comps.length ++
      be 1 (if Uniform im.comps then (im.comps.head?.map bits).getD 0 else 255) ++ [7, 0, 0])] ++
  (if Uniform im.comps then [] else [(tBPCC, im.comps.flatMap fun c => be 1 (bits c))]) ++
  [(tCOLR, [1, 0, 0] ++ be 4 (enumerated im.colorSpace))] ++
  (if defs = [] then [] else [(tCDEF, be 2 defs.length ++ defs.flatMap fun d => be 2 d.cn ++ be 2 d.typ ++ be 2 d.asoc)])

theorem boxes_flat : ∀ l : List (Nat × List UInt8), (∀ x ∈ l, x.1 < 2 ^ 32 ∧ x.2.length + 16 < 2 ^ 32) →
    Boxes l (l.flatMap fun x => box x.1 x.2)
  | [], _ => .nil
  | (ty, body) :: l, h => by
    rw [List.flatMap_cons]
    have h0 := h (ty, body) (List.mem_cons_self ..)
    exact .cons ⟨h0.1, h0.2, Or.inl rfl⟩ (boxes_flat l fun x hx => h x (List.mem_cons_of_mem _ hx))

theorem std_boxes {im : Image} (h : Encodable im) {defs : List Def} (hl : defs.length < 65536) :
    Boxes (stdHeader im defs) ((stdHeader im defs).flatMap fun x => box x.1 x.2) := by
  have hc := h.comps
  have hb1 := flat_len im.comps 1 (fun c => be 1 (bits c)) (fun c => be_len ..)
  have hb2 := flat_len defs 6 (fun d => be 2 d.cn ++ be 2 d.typ ++ be 2 d.asoc) (fun d => by simp only [List.length_append, be_len])
  apply boxes_flat
  intro x hx
  unfold stdHeader at hx
  simp only [List.mem_append, List.mem_singleton] at hx
  rcases hx with ((rfl | hx) | rfl) | hx
  · refine ⟨by show tIHDR < _; decide, ?_⟩
    dsimp only
    rw [ihdr_len]; omega
  · split at hx
    · cases hx
    · rw [List.mem_singleton] at hx
      subst hx
      refine ⟨by show tBPCC < _; decide, ?_⟩
      dsimp only
      omega
  · refine ⟨by show tCOLR < _; decide, ?_⟩
    simp only [List.length_append, be_len]
    show 3 + 4 + 16 < 2 ^ 32
    omega
  · split at hx
    · cases hx
    · rw [List.mem_singleton] at hx
      subst hx
      refine ⟨by show tCDEF < _; decide, ?_⟩
      dsimp only
      rw [List.length_append, be_len]
      omega

theorem std_flat (im : Image) (defs : List Def) :
    (stdHeader im defs).flatMap (fun x => box x.1 x.2) =
    box (code 'i' 'h' 'd' 'r') (be 4 (im.y1 - im.y0) ++ be 4 (im.x1 - im.x0) ++ be 2 im.comps.length ++
      be 1 (if Uniform im.comps then (im.comps.head?.map bits).getD 0 else 255) ++ [7, 0, 0]) ++
    (if Uniform im.comps then [] else box (code 'b' 'p' 'c' 'c') (im.comps.flatMap fun c => be 1 (bits c))) ++
    box (code 'c' 'o' 'l' 'r') ([1, 0, 0] ++ be 4 (enumerated im.colorSpace)) ++
    (if defs = [] then [] else box (code 'c' 'd' 'e' 'f') (be 2 defs.length ++ defs.flatMap fun d => be 2 d.cn ++ be 2 d.typ ++ be 2 d.asoc)) := by
  unfold stdHeader
  rw [List.flatMap_append, List.flatMap_append, List.flatMap_append]
  have s1 : ∀ (t : Nat) (x : List UInt8), [(t, x)].flatMap (fun x => box x.1 x.2) = box t x := by
    intro t x
    rw [List.flatMap_cons, List.flatMap_nil, List.append_nil]
  rw [s1, s1]
  have t1 : tIHDR = code 'i' 'h' 'd' 'r' := by decide
  have t2 : tBPCC = code 'b' 'p' 'c' 'c' := by decide
  have t3 : tCOLR = code 'c' 'o' 'l' 'r' := by decide
  have t4 : tCDEF = code 'c' 'd' 'e' 'f' := by decide
  rw [t1, t2, t3, t4]
  congr 1
  · congr 1
    congr 1
    split
    · rfl
    · rw [s1]
  · split
    · rfl
    · rw [s1]

theorem isBox_box {ty : Nat} {body : List UInt8} (h : ty < 2 ^ 32) (hb : body.length + 16 < 2 ^ 32) : IsBox ty body (box ty body) :=
  ⟨h, hb, Or.inl rfl⟩

theorem std_isFile {im : Image} (h : Encodable im) {defs : List Def} (hl : defs.length < 65536) {cs : List UInt8} (hcs : cs.length + 16 < 2 ^ 32) :
    IsFile (be 4 (code 'j' 'p' '2' ' ') ++ be 4 0 ++ be 4 (code 'j' 'p' '2' ' ')) [] (stdHeader im defs) [] cs (stdFile im defs cs) := by
  have hc := h.comps
  have hb1 := flat_len im.comps 1 (fun c => be 1 (bits c)) (fun c => be_len ..)
  have hb2 := flat_len defs 6 (fun d => be 2 d.cn ++ be 2 d.typ ++ be 2 d.asoc) (fun d => by simp only [List.length_append, be_len])
  have hbx := std_boxes h hl
  have ebx := std_flat im defs
  have c1 : code 'j' 'P' ' ' ' ' < 2 ^ 32 := by decide
  have c2 : code 'f' 't' 'y' 'p' < 2 ^ 32 := by decide
  have c3 : code 'j' 'p' '2' 'h' < 2 ^ 32 := by decide
  have c4 : code 'j' 'p' '2' 'c' < 2 ^ 32 := by decide
  have c5 : magic.length + 16 < 2 ^ 32 := by decide
  have p1 := isBox_box c1 c5
  have c6 : (be 4 (code 'j' 'p' '2' ' ') ++ be 4 0 ++ be 4 (code 'j' 'p' '2' ' ')).length + 16 < 2 ^ 32 := by
    simp only [List.length_append, be_len]; omega
  have p2 := isBox_box c2 c6
  have p4 := isBox_box c4 hcs
  have c7 : ((stdHeader im defs).flatMap fun x => box x.1 x.2).length + 16 < 2 ^ 32 := ?_
  have p3 := isBox_box c3 c7
  refine ⟨⟨_, _, _, _, _, _, _, ?_, p1, p2, .nil, hbx, p3, .nil, Or.inl p4⟩⟩
  · unfold stdFile
    rw [ebx]
    simp only [List.append_assoc, List.nil_append]
  · rw [ebx]
    have l0 : ∀ t b, (box t b).length = 8 + b.length := by intro t b; unfold box; simp only [List.length_append, be_len]
    rw [List.length_append, List.length_append, List.length_append, l0, l0, ihdr_len]
    have q1 : (if Uniform im.comps then [] else box (code 'b' 'p' 'c' 'c') (im.comps.flatMap fun c => be 1 (bits c))).length ≤ 8 + im.comps.length := by
      split
      · exact Nat.zero_le _
      · rw [l0]; omega
    have q2 : (if defs = [] then [] else box (code 'c' 'd' 'e' 'f') (be 2 defs.length ++ defs.flatMap fun d => be 2 d.cn ++ be 2 d.typ ++ be 2 d.asoc)).length
        ≤ 10 + defs.length * 6 := by
      split
      · exact Nat.zero_le _
      · rw [l0, List.length_append, be_len]; omega
    have q3 : ([1, 0, 0] ++ be 4 (enumerated im.colorSpace) : List UInt8).length = 7 := by
      rw [List.length_append, be_len]; rfl
    omega

/-- What is known after reading `stdFile im defs cs`. -/
def stdKnown (im : Image) (defs : List Def) : Codec :=
  { brand := tJP2, minversion := 0, cl := [tJP2], h := im.y1 - im.y0, w := im.x1 - im.x0
    bpc := if Uniform im.comps then (im.comps.head?.map bits).getD 0 else 255
    c := 7, comps := if Uniform im.comps then List.replicate im.comps.length 0 else im.comps.map bits, meth := 1
    enumcs := enumerated im.colorSpace, cdef := if defs = [] then none else some defs
    hasJp2h := true, hasIhdr := true, hasColr := true, ihdrW := im.x1 - im.x0, ihdrH := im.y1 - im.y0 }

theorem readFtyp_std : readFtyp { state := 1 } (be 4 (code 'j' 'p' '2' ' ') ++ be 4 0 ++ be 4 (code 'j' 'p' '2' ' ')) =
    .ok { state := 3, brand := tJP2, minversion := 0, cl := [tJP2] } := by decide

theorem readIhdr_std {j : Codec} (hj : j.comps = []) {h w n b : Nat} (hh : 1 ≤ h ∧ h < 2 ^ 32) (hw : 1 ≤ w ∧ w < 2 ^ 32)
    (hn : 1 ≤ n ∧ n ≤ 16384) (hb : b < 256) :
    readIhdr j (be 4 h ++ be 4 w ++ be 2 n ++ be 1 b ++ [7, 0, 0]) =
      .ok { j with h := h, w := w, comps := List.replicate n 0, bpc := b, c := 7, unkC := 0, ipr := 0, ihdrW := w, ihdrH := h, hasIhdr := true } := by
  unfold readIhdr
  rw [if_neg (by rw [hj]; simp)]
  rw [refuse_bind (by simp only [List.length_append, be_len]; decide)]
  simp only [List.append_assoc]
  rw [rd_be _ (by norm_num; omega), ok_bind]
  dsimp only
  rw [rd_be _ (by norm_num; omega), ok_bind]
  dsimp only
  rw [rd_be _ (by norm_num; omega), ok_bind]
  dsimp only
  rw [refuse_bind (by omega), refuse_bind (by omega), rd_be _ (by omega), ok_bind]
  rfl

theorem readColr_std {j : Codec} (hj : j.hasColr = false) {e : Nat} (he : e < 2 ^ 32) (h14 : e ≠ 14) :
    readColr j ([1, 0, 0] ++ be 4 e) = .ok { j with meth := 1, precedence := 0, approx := 0, enumcs := e, hasColr := true } := by
  unfold readColr
  rw [refuse_bind (by rw [List.length_append, be_len]; show ¬ (3 + 4 < 3); omega), if_neg (by rw [hj]; decide)]
  have r1 : rd 1 ([1, 0, 0] ++ be 4 e) = .ok (1, [0, 0] ++ be 4 e) := rd_be (nb := 1) (v := 1) ([0, 0] ++ be 4 e) (by decide)
  have r2 : rd 1 ([0, 0] ++ be 4 e) = .ok (0, [0] ++ be 4 e) := rd_be (nb := 1) (v := 0) ([0] ++ be 4 e) (by decide)
  have r3 : rd 1 ([0] ++ be 4 e) = .ok (0, be 4 e) := rd_be (nb := 1) (v := 0) (be 4 e) (by decide)
  rw [r1, ok_bind]
  dsimp only
  rw [r2, ok_bind]
  dsimp only
  rw [r3, ok_bind]
  dsimp only
  rw [if_pos rfl]
  unfold readEnum
  rw [refuse_bind (by rw [be_len]; omega)]
  have := rd_be (nb := 4) (v := e) [] (by norm_num; omega)
  rw [List.append_nil] at this
  rw [this, ok_bind]
  dsimp only
  rw [if_neg h14]
  rfl

theorem readCdef_std {j : Codec} (hj : j.cdef = none) {ds : List Def} (hne : ds ≠ []) (hl : ds.length < 65536)
    (hd : ∀ d ∈ ds, d.cn < 65536 ∧ d.typ < 65536 ∧ d.asoc < 65536) :
    readCdef j (be 2 ds.length ++ ds.flatMap fun d => be 2 d.cn ++ be 2 d.typ ++ be 2 d.asoc) = .ok { j with cdef := some ds } := by
  unfold readCdef
  have h0 : ds.length ≠ 0 := fun h => hne (List.length_eq_zero_iff.1 h)
  rw [refuse_bind (by rw [hj]; decide), refuse_bind (by rw [List.length_append, be_len]; omega), rd_be _ (by omega), ok_bind]
  dsimp only
  rw [refuse_bind h0, refuse_bind (by
    rw [flat_len _ 6 _ (fun d => by simp only [List.length_append, be_len])]; omega), readDefs_flat ds hd, ok_bind]
  rfl

theorem subBoxes_append (m : Mode) : ∀ (l l' : List (Nat × List UInt8)) (j : Codec),
    subBoxes m (l ++ l') j = subBoxes m l j >>= fun j => subBoxes m l' j
  | [], l', j => rfl
  | (ty, body) :: l, l', j => by
    rw [List.cons_append, subBoxes, subBoxes]
    cases subBox m ⟨0, ty, 0⟩ j body with
    | error f => rfl
    | ok j' => exact subBoxes_append m l l' j'

theorem subBoxes_one (m : Mode) (ty : Nat) (body : List UInt8) (j : Codec) (h : isImage ty = true) :
    subBoxes m [(ty, body)] j = readImage m ty j body := by
  unfold subBoxes subBox
  rw [if_pos h]
  cases readImage m ty j body <;> rfl

theorem std_outcome (m : Mode) {im : Image} (h : Encodable im) {defs : List Def} (hl : defs.length < 65536)
    (hd : ∀ d ∈ defs, d.cn < 65536 ∧ d.typ < 65536 ∧ d.asoc < 65536) (cs : List UInt8) :
    outcome m (be 4 (code 'j' 'p' '2' ' ') ++ be 4 0 ++ be 4 (code 'j' 'p' '2' ' ')) (stdHeader im defs) cs =
      .ok (stdKnown im defs, cs) := by
  have hc := h.comps
  have hx := h.x
  have hy := h.y
  have hbl : (if Uniform im.comps then (im.comps.head?.map bits).getD 0 else 255) < 256 := by
    split
    · have hp := h.prec
      obtain ⟨l, hl⟩ : ∃ l, l = im.comps := ⟨_, rfl⟩
      rw [← hl] at hp hc ⊢
      match l with
      | [] => simp only [List.length_nil] at hc; omega
      | c0 :: l =>
        have := bits_lt (hp c0 (List.mem_cons_self ..))
        show bits c0 < 256
        omega
    · omega
  unfold outcome
  rw [readFtyp_std, ok_bind]
  have hany : ((stdHeader im defs).any fun x => x.1 == tIHDR) = true := by
    unfold stdHeader
    rw [List.append_assoc, List.append_assoc, List.singleton_append, List.any_cons]
    rfl
  have hsub : ∀ j0 : Codec, j0.comps = [] → j0.hasColr = false → j0.cdef = none →
      subBoxes m (stdHeader im defs) j0 = .ok { j0 with
        h := im.y1 - im.y0, w := im.x1 - im.x0, bpc := if Uniform im.comps then (im.comps.head?.map bits).getD 0 else 255
        c := 7, unkC := 0, ipr := 0, comps := if Uniform im.comps then List.replicate im.comps.length 0 else im.comps.map bits
        meth := 1, precedence := 0, approx := 0, enumcs := enumerated im.colorSpace, cdef := if defs = [] then none else some defs
        hasIhdr := true, hasColr := true, ihdrW := im.x1 - im.x0, ihdrH := im.y1 - im.y0 } := by
    intro j0 a1 a2 a3
    unfold stdHeader
    rw [subBoxes_append, subBoxes_append, subBoxes_append, subBoxes_one _ _ _ _ (by decide)]
    have i1 : ∀ j b, readImage m tIHDR j b = readIhdr j b := by intro j b; unfold readImage; rw [if_pos rfl]
    rw [i1, readIhdr_std a1 (by omega) (by omega) hc hbl, ok_bind]
    obtain ⟨bb, hbb⟩ : ∃ bb, bb = if Uniform im.comps then (im.comps.head?.map bits).getD 0 else 255 := ⟨_, rfl⟩
    rw [← hbb]
    have i2 : ∀ j : Codec, j.comps = List.replicate im.comps.length 0 →
        subBoxes m (if Uniform im.comps then [] else [(tBPCC, im.comps.flatMap fun c => be 1 (bits c))]) j =
        .ok { j with comps := if Uniform im.comps then List.replicate im.comps.length 0 else im.comps.map bits } := by
      intro j hj
      by_cases hu : Uniform im.comps
      · rw [if_pos hu, if_pos hu, ← hj]; rfl
      · rw [if_neg hu, if_neg hu, subBoxes_one _ _ _ _ (by decide)]
        unfold readImage
        rw [if_neg (by decide), if_neg (by decide), if_pos rfl]
        unfold readBpcc
        rw [hj, List.length_replicate, refuse_bind, readBytes_flat]
        · rfl
        · intro c hm
          have := bits_lt (h.prec c hm)
          omega
        · rw [flat_len _ 1 _ (fun d => be_len ..)]; omega
    rw [i2 _ rfl, ok_bind, subBoxes_one _ _ _ _ (by decide)]
    have i3 : ∀ j b, readImage m tCOLR j b = readColr j b := by
      intro j b; unfold readImage; rw [if_neg (by decide), if_pos rfl]
    have he : enumerated im.colorSpace < 2 ^ 32 ∧ enumerated im.colorSpace ≠ 14 := by
      unfold enumerated; split
      · omega
      · split
        · omega
        · split <;> omega
    rw [i3, readColr_std (by exact a2) he.1 he.2, ok_bind]
    by_cases hde : defs = []
    · rw [if_pos hde, if_pos hde, ← a3]; rfl
    · rw [if_neg hde, if_neg hde, subBoxes_one _ _ _ _ (by decide)]
      have i4 : ∀ j b, readImage m tCDEF j b = readCdef j b := by
        intro j b; unfold readImage
        rw [if_neg (by decide), if_neg (by decide), if_neg (by decide), if_neg (by decide), if_pos rfl]
      rw [i4, readCdef_std (by exact a3) hde hl hd]
  rw [hsub _ rfl rfl rfl, hany]
  rfl

end Jp2.Box

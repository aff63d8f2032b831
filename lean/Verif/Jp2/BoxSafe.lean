import Verif.Jp2.BoxSpec
import Verif.Jp2.HdrMore
/-!
# Reading any bytes as a JP2 file: helper lemmas
-/
namespace Jp2.Box
open Hdr (Fail R refuseIf be)

/-- A call ends well, with `Q`, refuses, or panics under the condition `E`. -/
def Post {α : Type} (E : Prop) (r : R α) (Q : α → Prop) : Prop :=
  match r with
  | .ok a => Q a
  | .error f => f = .refused ∨ (f = .panic ∧ E)

theorem Post.ok {α : Type} {E : Prop} {a : α} {Q : α → Prop} (h : Q a) : Post E (.ok a) Q := h

theorem Post.pure {α : Type} {E : Prop} {a : α} {Q : α → Prop} (h : Q a) : Post E (Pure.pure a) Q := h

theorem Post.refused {α : Type} {E : Prop} {Q : α → Prop} : Post E (.error .refused : R α) Q := Or.inl rfl

theorem Post.bind {α β : Type} {E : Prop} {x : R α} {f : α → R β} {P : α → Prop} {Q : β → Prop}
    (hx : Post E x P) (hf : ∀ a, P a → Post E (f a) Q) : Post E (x >>= f) Q := by
  cases x with
  | ok a => exact hf a hx
  | error e => exact hx

theorem Post.mono {α : Type} {E E' : Prop} {x : R α} {P Q : α → Prop} (hx : Post E x P) (he : E → E') (h : ∀ a, P a → Q a) :
    Post E' x Q := by
  cases x with
  | ok a => exact h a hx
  | error e => exact hx.imp id (fun h => ⟨h.1, he h.2⟩)

theorem Post.of_ok {α : Type} {E : Prop} {x : R α} {P : α → Prop} {a : α} (h : Post E x P) (e : x = .ok a) : P a := by
  subst e; exact h

theorem refuseIf_post {E : Prop} (c : Prop) [Decidable c] : Post E (refuseIf c) (fun _ => ¬ c) := by
  unfold refuseIf
  split
  · exact Post.refused
  · exact Post.ok (by assumption)

theorem rd_eq {nb : Nat} {p : List UInt8} (h : nb ≤ p.length) : rd nb p = .ok (Cio.fromBe (p.take nb), p.drop nb) := by
  unfold rd; rw [if_pos h]

theorem rd_post {E : Prop} {nb : Nat} {p : List UInt8} (h : nb ≤ p.length) :
    Post E (rd nb p) (fun r => r.1 < 256 ^ nb ∧ r.2.length = p.length - nb) := by
  rw [rd_eq h]
  refine ⟨?_, by simp⟩
  have := Cio.fromBe_lt (p.take nb)
  rwa [List.length_take, Nat.min_eq_left h] at this

/-! ## What always holds of the codec -/

/-- What the boxes read so far always satisfy. -/
structure Ok (j : Codec) : Prop where
  size : j.hasIhdr = true → (1 ≤ j.w ∧ j.w < 2 ^ 32) ∧ (1 ≤ j.h ∧ j.h < 2 ^ 32) ∧ j.ihdrW = j.w ∧ j.ihdrH = j.h
  comps : j.hasIhdr = true → 1 ≤ j.comps.length
  count : j.comps.length ≤ 16384 ∧ ∀ b ∈ j.comps, b < 256
  pclr : ∀ pc, j.pclr = some pc → PclrOk pc
  cdef : ∀ ds, j.cdef = some ds → ds ≠ [] ∧ ∀ d ∈ ds, d.cn < 65536 ∧ d.typ < 65536 ∧ d.asoc < 65536

theorem Ok.new : Ok {} :=
  ⟨(fun h => nomatch h), (fun h => nomatch h), ⟨Nat.zero_le _, fun _ hb => nomatch hb⟩, (fun _ h => nomatch h), (fun _ h => nomatch h)⟩

theorem readIhdr_post {j : Codec} (hj : Ok j) (buf : List UInt8) : Post False (readIhdr j buf) Ok := by
  unfold readIhdr
  split
  · exact Post.ok hj
  refine Post.bind (refuseIf_post _) fun _ h1 => ?_
  refine Post.bind (rd_post (by omega)) fun ⟨h, p1⟩ ⟨b1, l1⟩ => ?_
  dsimp only at b1 l1 ⊢
  refine Post.bind (rd_post (by omega)) fun ⟨w, p2⟩ ⟨b2, l2⟩ => ?_
  dsimp only at b2 l2 ⊢
  refine Post.bind (rd_post (by omega)) fun ⟨n, p3⟩ ⟨b3, l3⟩ => ?_
  dsimp only at b3 l3 ⊢
  refine Post.bind (refuseIf_post _) fun _ h2 => ?_
  refine Post.bind (refuseIf_post _) fun _ h3 => ?_
  refine Post.bind (rd_post (by omega)) fun ⟨v4, p4⟩ ⟨b4, l4⟩ => ?_
  dsimp only at b4 l4 ⊢
  refine Post.bind (rd_post (by omega)) fun ⟨v5, p5⟩ ⟨b5, l5⟩ => ?_
  dsimp only at b5 l5 ⊢
  refine Post.bind (rd_post (by omega)) fun ⟨v6, p6⟩ ⟨b6, l6⟩ => ?_
  dsimp only at b6 l6 ⊢
  refine Post.bind (rd_post (by omega)) fun ⟨v7, p7⟩ ⟨b7, l7⟩ => ?_
  refine Post.pure ⟨fun _ => ⟨⟨?_, ?_⟩, ⟨?_, ?_⟩, rfl, rfl⟩, fun _ => ?_, ⟨?_, fun b hb => ?_⟩, hj.pclr, hj.cdef⟩
  · show 1 ≤ w; omega
  · show w < 2 ^ 32; omega
  · show 1 ≤ h; omega
  · show h < 2 ^ 32; omega
  · show 1 ≤ (List.replicate n 0).length; rw [List.length_replicate]; omega
  · show (List.replicate n 0).length ≤ 16384; rw [List.length_replicate]; omega
  · have := (List.mem_replicate.1 hb).2; omega

theorem readBytes_post : ∀ (n : Nat) (p : List UInt8), n ≤ p.length →
    Post False (readBytes n p) (fun l => l.length = n ∧ ∀ b ∈ l, b < 256)
  | 0, p, _ => Post.ok ⟨rfl, fun b hb => nomatch hb⟩
  | n + 1, p, h => by
    unfold readBytes
    refine Post.bind (rd_post (by omega)) fun ⟨v, p'⟩ ⟨hv, hp⟩ => ?_
    dsimp only at hv hp ⊢
    refine Post.bind (readBytes_post n p' (by omega)) fun l ⟨hl, hb⟩ => Post.pure ⟨by simp [hl], fun b hm => ?_⟩
    rcases List.mem_cons.1 hm with e | e
    · omega
    · exact hb b e

theorem readBpcc_post {j : Codec} (hj : Ok j) (buf : List UInt8) : Post False (readBpcc j buf) Ok := by
  unfold readBpcc
  refine Post.bind (refuseIf_post _) fun _ h1 => ?_
  refine Post.bind (readBytes_post _ _ (by omega)) fun l ⟨hl, hb⟩ => ?_
  refine Post.pure ⟨hj.size, fun h => ?_, ⟨?_, hb⟩, hj.pclr, hj.cdef⟩
  · show 1 ≤ l.length; rw [hl]; exact hj.comps h
  · show l.length ≤ 16384; rw [hl]; exact hj.count.1

theorem readChannels_post : ∀ (n : Nat) (p : List UInt8), n ≤ p.length →
    Post False (readChannels n p) (fun r => r.1.length = n ∧ ∀ c ∈ r.1, (1 ≤ c.1 ∧ c.1 ≤ 128) ∧ c.2 ≤ 1)
  | 0, p, _ => Post.ok ⟨rfl, fun b hb => nomatch hb⟩
  | n + 1, p, h => by
    unfold readChannels
    refine Post.bind (rd_post (by omega)) fun ⟨v, p'⟩ ⟨hv, hp⟩ => ?_
    dsimp only at hv hp ⊢
    refine Post.bind (readChannels_post n p' (by omega)) fun ⟨l, p2⟩ ⟨hl, hb⟩ => Post.pure ⟨by simpa using hl, fun b hm => ?_⟩
    rcases List.mem_cons.1 hm with rfl | e
    · show (1 ≤ v % 128 + 1 ∧ v % 128 + 1 ≤ 128) ∧ v / 128 ≤ 1
      omega
    · exact hb b e

theorem readRow_post : ∀ (cs : List (Nat × Nat)) (p : List UInt8),
    Post False (readRow cs p) (fun r => r.1.length = cs.length ∧ ∀ v ∈ r.1, v < 2 ^ 32)
  | [], p => Post.ok ⟨rfl, fun b hb => nomatch hb⟩
  | c :: cs, p => by
    unfold readRow
    refine Post.bind (refuseIf_post _) fun _ h1 => ?_
    refine Post.bind (rd_post (by omega)) fun ⟨v, p'⟩ ⟨hv, _⟩ => ?_
    dsimp only at hv ⊢
    refine Post.bind (readRow_post cs p') fun ⟨l, p2⟩ ⟨hl, hb⟩ => Post.pure ⟨by simpa using hl, fun b hm => ?_⟩
    rcases List.mem_cons.1 hm with rfl | e
    · have : 256 ^ entryBytes c.1 ≤ 256 ^ 4 := Nat.pow_le_pow_right (by omega) (by unfold entryBytes; omega)
      omega
    · exact hb b e

theorem readRows_post (cs : List (Nat × Nat)) : ∀ (n : Nat) (p : List UInt8),
    Post False (readRows cs n p) (fun l => l.length = n * cs.length ∧ ∀ v ∈ l, v < 2 ^ 32)
  | 0, p => Post.ok ⟨by simp, fun b hb => nomatch hb⟩
  | n + 1, p => by
    unfold readRows
    refine Post.bind (readRow_post cs p) fun ⟨row, p'⟩ ⟨hr, hv⟩ => ?_
    dsimp only at hr hv ⊢
    refine Post.bind (readRows_post cs n p') fun l ⟨hl, hb⟩ => Post.pure ⟨?_, fun b hm => ?_⟩
    · rw [List.length_append, hr, hl, Nat.succ_mul]; omega
    · rcases List.mem_append.1 hm with e | e
      · exact hv b e
      · exact hb b e

/-- The third byte of a palette box counts 16 columns or more, and overflow is checked. -/
def BigPal (m : Mode) (content : List UInt8) : Prop :=
  m = .checked ∧ ∃ e0 e1 k b, content = e0 :: e1 :: k :: b ∧ 16 ≤ k.toNat

theorem readPclr_post {j : Codec} (m : Mode) (hj : Ok j) (buf : List UInt8) : Post (BigPal m buf) (readPclr m j buf) Ok := by
  unfold readPclr
  refine Post.bind (refuseIf_post _) fun _ h0 => ?_
  refine Post.bind (refuseIf_post _) fun _ h1 => ?_
  match buf, h1 with
  | e0 :: e1 :: k :: b, h1 =>
    rw [rd_eq (by simp)]
    show Post _ (refuseIf _ >>= _) _
    dsimp only
    refine Post.bind (refuseIf_post _) fun _ h2 => ?_
    rw [rd_eq (by simp)]
    show Post _ (refuseIf _ >>= _) _
    have hk : Cio.fromBe [k] = k.toNat := by simp [Cio.fromBe]
    obtain ⟨n, hn⟩ : ∃ n, n = Cio.fromBe (List.take 2 (e0 :: e1 :: k :: b)) := ⟨_, rfl⟩
    have hn2 : Cio.fromBe (List.take 2 (e0 :: e1 :: k :: b)) < 65536 := by
      have := Cio.fromBe_lt (List.take 2 (e0 :: e1 :: k :: b)); simpa using this
    simp only [List.drop_succ_cons, List.drop_zero, List.take_succ_cons, List.take_zero, hk] at h2 hn ⊢
    rw [← hn] at h2 ⊢
    have hk8 : k.toNat < 256 := k.toNat_lt
    obtain ⟨kk, hkk⟩ : ∃ kk, kk = k.toNat := ⟨_, rfl⟩
    rw [← hkk] at hk8 ⊢
    refine Post.bind (refuseIf_post _) fun _ h3 => ?_
    refine Post.bind (refuseIf_post _) fun _ h4 => ?_
    refine Post.bind (P := fun _ => True) ?_ fun _ _ => ?_
    · unfold squareU8
      split
      · rename_i hb
        refine Or.inr ⟨rfl, hb.1, e0, e1, k, b, rfl, ?_⟩
        rw [← hkk]
        by_contra hc
        have : kk * kk ≤ 15 * 15 := Nat.mul_le_mul (by omega) (by omega)
        omega
      · exact Post.ok trivial
    refine Post.bind ((readChannels_post kk b (by omega)).mono (fun h => h.elim) fun _ h => h) fun ⟨cs, p⟩ ⟨hl, hc⟩ => ?_
    dsimp only at hl hc ⊢
    refine Post.bind ((readRows_post cs n p).mono (fun h => h.elim) fun _ h => h) fun es ⟨he, hr⟩ => ?_
    refine Post.pure ⟨hj.size, hj.comps, hj.count, ?_, hj.cdef⟩
    intro pc hpc
    cases hpc
    refine ⟨?_, ?_, hl, hc, ?_, hr, Or.inl rfl, fun _ h => nomatch h⟩
    · show 1 ≤ n ∧ n ≤ 1024; omega
    · show 1 ≤ kk ∧ kk ≤ 255; omega
    · rw [he, hl]
  | [], h1 => simp at h1
  | [_], h1 => simp at h1
  | [_, _], h1 => simp at h1

theorem readMaps_post : ∀ (n : Nat) (p : List UInt8), n * 4 ≤ p.length →
    Post False (readMaps n p) (fun l => l.length = n ∧ ∀ m ∈ l, m.cmp < 65536 ∧ m.mtyp < 256 ∧ m.pcol < 256)
  | 0, p, _ => Post.ok ⟨rfl, fun b hb => nomatch hb⟩
  | n + 1, p, h => by
    unfold readMaps
    refine Post.bind (rd_post (by omega)) fun ⟨v, p1⟩ ⟨hv, hp⟩ => ?_
    dsimp only at hv hp ⊢
    refine Post.bind (rd_post (by omega)) fun ⟨v2, p2⟩ ⟨hv2, hp2⟩ => ?_
    dsimp only at hv2 hp2 ⊢
    refine Post.bind (rd_post (by omega)) fun ⟨v3, p3⟩ ⟨hv3, hp3⟩ => ?_
    dsimp only at hv3 hp3 ⊢
    refine Post.bind (readMaps_post n p3 (by omega)) fun l ⟨hl, hb⟩ => Post.pure ⟨by simp [hl], fun b hm => ?_⟩
    rcases List.mem_cons.1 hm with rfl | e
    · dsimp only; omega
    · exact hb b e

theorem readCmap_post {j : Codec} (hj : Ok j) (buf : List UInt8) : Post False (readCmap j buf) Ok := by
  unfold readCmap
  cases hp : j.pclr with
  | none => exact Post.refused
  | some pc =>
    refine Post.bind (refuseIf_post _) fun _ h0 => ?_
    refine Post.bind (refuseIf_post _) fun _ h1 => ?_
    refine Post.bind (readMaps_post _ _ (by omega)) fun ms ⟨hl, hm⟩ => ?_
    refine Post.pure ⟨hj.size, hj.comps, hj.count, ?_, hj.cdef⟩
    intro pc' hpc
    cases hpc
    have := hj.pclr pc hp
    exact ⟨this.entries, this.channels, this.channel, this.sizes, this.len, this.range, Or.inr hl, hm⟩

theorem readDefs_post : ∀ (n : Nat) (p : List UInt8), n * 6 ≤ p.length →
    Post False (readDefs n p) (fun l => l.length = n ∧ ∀ d ∈ l, d.cn < 65536 ∧ d.typ < 65536 ∧ d.asoc < 65536)
  | 0, p, _ => Post.ok ⟨rfl, fun b hb => nomatch hb⟩
  | n + 1, p, h => by
    unfold readDefs
    refine Post.bind (rd_post (by omega)) fun ⟨v, p1⟩ ⟨hv, hp⟩ => ?_
    dsimp only at hv hp ⊢
    refine Post.bind (rd_post (by omega)) fun ⟨v2, p2⟩ ⟨hv2, hp2⟩ => ?_
    dsimp only at hv2 hp2 ⊢
    refine Post.bind (rd_post (by omega)) fun ⟨v3, p3⟩ ⟨hv3, hp3⟩ => ?_
    dsimp only at hv3 hp3 ⊢
    refine Post.bind (readDefs_post n p3 (by omega)) fun l ⟨hl, hb⟩ => Post.pure ⟨by simp [hl], fun b hm => ?_⟩
    rcases List.mem_cons.1 hm with rfl | e
    · dsimp only; omega
    · exact hb b e

theorem readCdef_post {j : Codec} (hj : Ok j) (buf : List UInt8) : Post False (readCdef j buf) Ok := by
  unfold readCdef
  refine Post.bind (refuseIf_post _) fun _ h0 => ?_
  refine Post.bind (refuseIf_post _) fun _ h1 => ?_
  refine Post.bind (rd_post (by omega)) fun ⟨n, p⟩ ⟨hn, hp⟩ => ?_
  dsimp only at hn hp ⊢
  refine Post.bind (refuseIf_post _) fun _ h2 => ?_
  refine Post.bind (refuseIf_post _) fun _ h3 => ?_
  refine Post.bind (readDefs_post n p (by omega)) fun ds ⟨hl, hd⟩ => ?_
  refine Post.pure ⟨hj.size, hj.comps, hj.count, hj.pclr, ?_⟩
  intro ds' h
  cases h
  exact ⟨fun e => by rw [e] at hl; exact h2 hl.symm, hd⟩

theorem cielab_post (p : List UInt8) : Post False (cielab p) (fun _ => True) := by
  unfold cielab
  split
  · refine Post.bind (rd_post (by omega)) fun ⟨_, p1⟩ ⟨_, l1⟩ => ?_
    dsimp only at l1 ⊢
    refine Post.bind (rd_post (by omega)) fun ⟨_, p2⟩ ⟨_, l2⟩ => ?_
    dsimp only at l2 ⊢
    refine Post.bind (rd_post (by omega)) fun ⟨_, p3⟩ ⟨_, l3⟩ => ?_
    dsimp only at l3 ⊢
    refine Post.bind (rd_post (by omega)) fun ⟨_, p4⟩ ⟨_, l4⟩ => ?_
    dsimp only at l4 ⊢
    refine Post.bind (rd_post (by omega)) fun ⟨_, p5⟩ ⟨_, l5⟩ => ?_
    dsimp only at l5 ⊢
    refine Post.bind (rd_post (by omega)) fun ⟨_, p6⟩ ⟨_, l6⟩ => ?_
    dsimp only at l6 ⊢
    refine Post.bind (rd_post (by omega)) fun ⟨_, p7⟩ ⟨_, l7⟩ => ?_
    exact Post.pure trivial
  · split
    · exact Post.ok trivial
    · exact Post.ok trivial

theorem readEnum_post {j : Codec} (hj : Ok j) (p : List UInt8) : Post False (readEnum j p) Ok := by
  unfold readEnum
  refine Post.bind (refuseIf_post _) fun _ h1 => ?_
  refine Post.bind (rd_post (by omega)) fun ⟨e, p1⟩ ⟨_, l1⟩ => ?_
  dsimp only at l1 ⊢
  split
  · refine Post.bind (cielab_post p1) fun icc _ => ?_
    exact Post.pure ⟨hj.size, hj.comps, hj.count, hj.pclr, hj.cdef⟩
  · exact Post.pure ⟨hj.size, hj.comps, hj.count, hj.pclr, hj.cdef⟩

theorem readColr_post {j : Codec} (hj : Ok j) (buf : List UInt8) : Post False (readColr j buf) Ok := by
  unfold readColr
  refine Post.bind (refuseIf_post _) fun _ h1 => ?_
  split
  · exact Post.pure hj
  refine Post.bind (rd_post (by omega)) fun ⟨_, p1⟩ ⟨_, l1⟩ => ?_
  dsimp only at l1 ⊢
  refine Post.bind (rd_post (by omega)) fun ⟨_, p2⟩ ⟨_, l2⟩ => ?_
  dsimp only at l2 ⊢
  refine Post.bind (rd_post (by omega)) fun ⟨_, p3⟩ ⟨_, l3⟩ => ?_
  dsimp only at l3 ⊢
  split
  · apply readEnum_post; exact ⟨hj.size, hj.comps, hj.count, hj.pclr, hj.cdef⟩
  · split
    · exact Post.pure ⟨hj.size, hj.comps, hj.count, hj.pclr, hj.cdef⟩
    · exact Post.pure ⟨hj.size, hj.comps, hj.count, hj.pclr, hj.cdef⟩

theorem readJp_post {j : Codec} (hj : Ok j) (buf : List UInt8) : Post False (readJp j buf) Ok := by
  unfold readJp
  refine Post.bind (refuseIf_post _) fun _ h0 => ?_
  refine Post.bind (refuseIf_post _) fun _ h1 => ?_
  refine Post.bind (rd_post (by omega)) fun ⟨_, p1⟩ ⟨_, l1⟩ => ?_
  dsimp only at l1 ⊢
  refine Post.bind (refuseIf_post _) fun _ h2 => ?_
  exact Post.pure ⟨hj.size, hj.comps, hj.count, hj.pclr, hj.cdef⟩

theorem readCl_post : ∀ (n : Nat) (p : List UInt8), n * 4 ≤ p.length → Post False (readCl n p) (fun _ => True)
  | 0, p, _ => Post.ok trivial
  | n + 1, p, h => by
    unfold readCl
    refine Post.bind (rd_post (by omega)) fun ⟨v, p'⟩ ⟨hv, hp⟩ => ?_
    dsimp only at hv hp ⊢
    exact Post.bind (readCl_post n p' (by omega)) fun l _ => Post.pure trivial

theorem readFtyp_post {j : Codec} (hj : Ok j) (buf : List UInt8) : Post False (readFtyp j buf) Ok := by
  unfold readFtyp
  refine Post.bind (refuseIf_post _) fun _ h0 => ?_
  refine Post.bind (refuseIf_post _) fun _ h1 => ?_
  refine Post.bind (rd_post (by omega)) fun ⟨_, p1⟩ ⟨_, l1⟩ => ?_
  dsimp only at l1 ⊢
  refine Post.bind (rd_post (by omega)) fun ⟨_, p2⟩ ⟨_, l2⟩ => ?_
  dsimp only at l2 ⊢
  refine Post.bind (refuseIf_post _) fun _ h2 => ?_
  refine Post.bind (readCl_post _ _ (by omega)) fun _ _ => ?_
  exact Post.pure ⟨hj.size, hj.comps, hj.count, hj.pclr, hj.cdef⟩

theorem weaken {α : Type} {E : Prop} {x : R α} {Q : α → Prop} (h : Post False x Q) : Post E x Q :=
  h.mono (fun h => h.elim) fun _ h => h

theorem readImage_post {j : Codec} (m : Mode) (ty : Nat) (hj : Ok j) (buf : List UInt8) :
    Post (ty = tPCLR ∧ BigPal m buf) (readImage m ty j buf) Ok := by
  unfold readImage
  split
  · exact weaken (readIhdr_post hj buf)
  split
  · exact weaken (readColr_post hj buf)
  split
  · exact weaken (readBpcc_post hj buf)
  split
  · rename_i h; exact (readPclr_post m hj buf).mono (fun e => ⟨h, e⟩) fun _ h => h
  split
  · exact weaken (readCdef_post hj buf)
  split
  · exact weaken (readCmap_post hj buf)
  · exact Post.ok hj

/-! ## Boxes -/

theorem Wide.infix {m : Mode} {x y : List UInt8} (h : Wide m x) (hi : x <:+: y) : Wide m y := by
  obtain ⟨hm, a, c, k, b, e, hc, hk⟩ := h
  obtain ⟨s, t, hst⟩ := hi
  refine ⟨hm, s ++ a, c, k, b ++ t, ?_, hc, hk⟩
  rw [← hst, e]
  simp [List.append_assoc]

theorem readHead_len {n : Nat} {p q : List UInt8} {o : Option Head} (h : readHead n p = (o, q)) :
    q <:+ p ∧ (o ≠ none → q.length + 8 ≤ p.length) := by
  unfold readHead at h
  split at h
  · cases h; exact ⟨List.nil_suffix, fun h => absurd rfl h⟩
  rename_i hl
  dsimp only at h
  have h8 : (p.drop 8).length + 8 = p.length := by rw [List.length_drop]; omega
  have s8 : p.drop 8 <:+ p := List.drop_suffix 8 p
  split at h
  · split at h
    · cases h; exact ⟨s8, fun _ => by omega⟩
    · split at h
      · cases h; exact ⟨s8, fun _ => by omega⟩
      · cases h; exact ⟨s8, fun _ => by omega⟩
  · split at h
    · split at h
      · cases h; exact ⟨List.nil_suffix, fun h => absurd rfl h⟩
      · have s16 : (p.drop 8).drop 8 <:+ p := (List.drop_suffix 8 _).trans s8
        have h16 : ((p.drop 8).drop 8).length + 8 ≤ p.length := by rw [List.length_drop]; omega
        split at h
        · cases h; exact ⟨s16, fun _ => h16⟩
        · cases h; exact ⟨s16, fun _ => h16⟩
    · cases h; exact ⟨s8, fun _ => by omega⟩

/-- The bytes of a box header: the type stands behind the length, and 8 more bytes follow in a long header. -/
theorem readHead_bytes {n : Nat} {p q : List UInt8} {h : Head} (e : readHead n p = (some h, q)) :
    ∃ a x, p = a ++ be 4 h.ty ++ x ++ q ∧ a.length = 4 ∧ (x.length = 0 ∨ x.length = 8) := by
  unfold readHead at e
  split at e
  · cases e
  rename_i hl
  dsimp only at e
  have hty : be 4 (Cio.fromBe ((p.drop 4).take 4)) = (p.drop 4).take 4 := by
    have := Cio.toBe_fromBe ((p.drop 4).take 4)
    have hl4 : ((p.drop 4).take 4).length = 4 := by rw [List.length_take, List.length_drop]; omega
    rw [hl4] at this
    exact this
  have hp : p = p.take 4 ++ (p.drop 4).take 4 ++ p.drop 8 := by
    conv_lhs => rw [← List.take_append_drop 4 p, ← List.take_append_drop 4 (p.drop 4), List.drop_drop]
    rw [List.append_assoc]
  have ha : (p.take 4).length = 4 := by rw [List.length_take]; omega
  split at e
  · split at e
    · cases e
    · split at e
      · cases e
      · cases e
        refine ⟨p.take 4, [], ?_, ha, Or.inl rfl⟩
        dsimp only
        rw [hty, List.append_nil]
        exact hp
  · split at e
    · split at e
      · cases e
      · rename_i hq
        split at e
        · cases e
        · cases e
          refine ⟨p.take 4, (p.drop 8).take 8, ?_, ha, Or.inr (by rw [List.length_take]; omega)⟩
          dsimp only
          rw [hty, List.append_assoc _ ((p.drop 8).take 8), List.take_append_drop]
          exact hp
    · cases e
      refine ⟨p.take 4, [], ?_, ha, Or.inl rfl⟩
      dsimp only
      rw [hty, List.append_nil]
      exact hp

/-- A wide palette in a box is one in the bytes. -/
theorem BigPal.wide {m : Mode} {n k : Nat} {p q : List UInt8} {h : Head} (e : readHead n p = (some h, q)) (ht : h.ty = tPCLR)
    (hb : BigPal m (q.take k)) : Wide m p := by
  obtain ⟨hm, e0, e1, c, b, hc, hk⟩ := hb
  obtain ⟨a, x, hp, _, hx⟩ := readHead_bytes e
  refine ⟨hm, a, x ++ [e0, e1], c, b ++ q.drop k, ?_, ?_, hk⟩
  · rw [hp, ht]
    conv_lhs => rw [← List.take_append_drop k q, hc]
    simp [List.append_assoc]
  · rw [List.length_append]; simp only [List.length_cons, List.length_nil]; omega

theorem subBox_post {j : Codec} (m : Mode) (h : Head) (hj : Ok j) (buf : List UInt8) :
    Post (h.ty = tPCLR ∧ BigPal m buf) (subBox m h j buf) Ok := by
  unfold subBox
  split
  · exact readImage_post m h.ty hj buf
  · exact Post.ok ⟨hj.size, hj.comps, hj.count, hj.pclr, hj.cdef⟩

theorem readSubs_post (m : Mode) : ∀ (fuel : Nat) (seen : Bool) (j : Codec) (buf : List UInt8), buf.length < fuel → Ok j →
    Post (Wide m buf) (readSubs m fuel seen j buf) (fun r => Ok r.1)
  | 0, _, _, buf, h, _ => absurd h (Nat.not_lt_zero _)
  | fuel + 1, seen, j, buf, hf, hj => by
    unfold readSubs
    split
    · exact Post.ok hj
    · split
      · exact Post.refused
      · rename_i h p e
        have hlen := readHead_len e
        have hl8 := hlen.2 (by simp)
        refine Post.bind (refuseIf_post _) fun _ h1 => ?_
        refine Post.bind (refuseIf_post _) fun _ h2 => ?_
        refine Post.bind ((subBox_post m h hj _).mono (fun hw => BigPal.wide e hw.1 hw.2) fun _ h => h) fun j' hj' => ?_
        refine (readSubs_post m fuel _ j' _ (by rw [List.length_drop]; omega) hj').mono (fun hw => ?_) fun _ h => h
        exact hw.infix (((List.drop_suffix _ p).trans hlen.1).isInfix)

theorem readJp2h_post {j : Codec} (m : Mode) (hj : Ok j) (buf : List UInt8) : Post (Wide m buf) (readJp2h m j buf) Ok := by
  unfold readJp2h
  refine Post.bind (refuseIf_post _) fun _ h0 => ?_
  refine Post.bind (readSubs_post m _ false _ buf (Nat.lt_succ_self _) ⟨hj.size, hj.comps, hj.count, hj.pclr, hj.cdef⟩)
    fun ⟨j', seen⟩ hj' => ?_
  dsimp only at hj' ⊢
  refine Post.bind (refuseIf_post _) fun _ h1 => ?_
  exact Post.pure ⟨hj'.size, hj'.comps, hj'.count, hj'.pclr, hj'.cdef⟩

theorem readContent_post {j : Codec} (m : Mode) (ty : Nat) (hj : Ok j) (buf : List UInt8) :
    Post (Wide m buf ∨ (ty = tPCLR ∧ BigPal m buf)) (readContent m ty j buf) Ok := by
  unfold readContent
  split
  · exact weaken (readJp_post hj buf)
  split
  · exact weaken (readFtyp_post hj buf)
  split
  · exact (readJp2h_post m hj buf).mono Or.inl fun _ h => h
  · exact (readImage_post m ty hj buf).mono Or.inr fun _ h => h

/-- The stream knows its length. -/
def St.Sound (s : St) : Prop := s.off + s.rest.length = s.len

theorem St.left_eq {s : St} (h : s.Sound) : s.left = .ok s.rest.length := by
  unfold St.Sound at h
  unfold St.left
  rw [if_neg (by omega)]
  split <;> congr 1 <;> omega

theorem St.to_sound {s : St} (h : s.Sound) {q : List UInt8} (hq : q.length ≤ s.rest.length) : (s.to q).Sound := by
  unfold St.Sound at h ⊢
  show s.off + (s.rest.length - q.length) + q.length = s.len
  omega

theorem St.skip_eq {s : St} (h : s.Sound) (hne : 0 < s.len) (n : Nat) :
    s.skip n = if s.rest.length < n then none else some { s with rest := s.rest.drop n, off := s.off + n } := by
  unfold St.Sound at h
  unfold St.skip
  by_cases hc : s.rest.length < n
  · rw [if_pos hc, if_pos (by omega)]
  · rw [if_neg hc, if_neg (by omega)]

/-- How the loop goes on behind a box. -/
def NextOk (s : St) : Next → Prop
  | .more j s' => Ok j ∧ s'.Sound ∧ s'.rest <:+ s.rest ∧ s'.len = s.len
  | .done j s' => Ok j ∧ s'.Sound ∧ s'.rest <:+ s.rest ∧ s'.len = s.len

theorem drop_state {s : St} (h : s.Sound) {n : Nat} (hn : n ≤ s.rest.length) :
    NextOk s (.more {} { s with rest := s.rest.drop n, off := s.off + n }) := by
  refine ⟨Ok.new, ?_, List.drop_suffix n _, rfl⟩
  unfold St.Sound at h ⊢
  show s.off + n + (s.rest.drop n).length = s.len
  rw [List.length_drop]; omega

theorem fileBox_post {j : Codec} {s : St} {p : List UInt8} {n : Nat} (m : Mode) (h : Head) (hj : Ok j) (hs : s.Sound)
    (e : readHead n p = (some h, s.rest)) : Post (Wide m p) (fileBox m h j s) (NextOk s) := by
  unfold fileBox
  rw [St.left_eq hs]
  show Post _ (refuseIf _ >>= _) _
  refine Post.bind (refuseIf_post _) fun _ h1 => ?_
  refine Post.bind (refuseIf_post _) fun _ h2 => ?_
  refine Post.bind ((readContent_post m h.ty hj _).mono ?_ fun _ h => h) fun j' hj' => ?_
  · rintro (hw | ⟨ht, hb⟩)
    · exact hw.infix ((List.take_prefix _ s.rest).isInfix.trans (readHead_len e).1.isInfix)
    · exact BigPal.wide e ht hb
  · refine Post.pure ⟨hj', ?_, List.drop_suffix _ _, rfl⟩
    refine St.to_sound hs ?_
    rw [List.length_drop]; omega

theorem withState {j : Codec} (hj : Ok j) (v : Nat) : Ok { j with state := v } :=
  ⟨hj.size, hj.comps, hj.count, hj.pclr, hj.cdef⟩

theorem misplaced_post {j : Codec} {s : St} (h : Head) (hj : Ok j) (hs : s.Sound) (hne : 0 < s.len) :
    Post False (misplaced h j s) (NextOk s) := by
  unfold misplaced
  rw [St.skip_eq hs hne]
  split
  · exact Post.refused
  · rename_i s' he
    split at he
    · cases he
    · cases he
      have := drop_state hs (n := h.length - h.hlen) (by omega)
      exact Post.ok ⟨withState hj _, this.2⟩

theorem otherBox_post {j : Codec} {s : St} (h : Head) (hj : Ok j) (hs : s.Sound) (hne : 0 < s.len) :
    Post False (otherBox h j s) (NextOk s) := by
  unfold otherBox
  refine Post.bind (refuseIf_post _) fun _ h1 => ?_
  refine Post.bind (refuseIf_post _) fun _ h2 => ?_
  dsimp only
  rw [St.skip_eq hs hne]
  split
  · split
    · exact Post.pure ⟨withState hj _, hs, List.suffix_refl _, rfl⟩
    · exact Post.refused
  · rename_i s' he
    split at he
    · cases he
    · cases he
      have := drop_state hs (n := h.length - h.hlen) (by omega)
      exact Post.pure ⟨withState hj _, this.2⟩

theorem oneBox_post {j : Codec} {s : St} {p : List UInt8} {n : Nat} (m : Mode) (h : Head) (hj : Ok j) (hs : s.Sound)
    (hne : 0 < s.len) (e : readHead n p = (some h, s.rest)) : Post (Wide m p) (oneBox m h j s) (NextOk s) := by
  unfold oneBox
  split
  · refine Post.bind (refuseIf_post _) fun _ h1 => ?_
    exact Post.pure ⟨withState hj _, hs, List.suffix_refl _, rfl⟩
  · refine Post.bind (refuseIf_post _) fun _ h1 => ?_
    refine Post.bind (refuseIf_post _) fun _ h2 => ?_
    split
    · exact fileBox_post m h hj hs e
    · split
      · split
        · exact fileBox_post m h hj hs e
        · exact weaken (misplaced_post h hj hs hne)
      · exact weaken (otherBox_post h hj hs hne)

theorem readBoxes_post (m : Mode) : ∀ (fuel : Nat) (j : Codec) (s : St), s.rest.length < fuel → Ok j → s.Sound →
    Post (Wide m s.rest) (readBoxes m fuel j s) (fun r => Ok r.1 ∧ r.2.Sound ∧ r.2.rest <:+ s.rest ∧ r.2.len = s.len)
  | 0, _, _, h, _, _ => absurd h (Nat.not_lt_zero _)
  | fuel + 1, j, s, hf, hj, hs => by
    unfold readBoxes
    rw [St.left_eq hs]
    show Post _ (match readHead s.rest.length s.rest with | (none, p) => _ | (some h, p) => _) _
    split
    · rename_i p e
      have hlen := (readHead_len e).1
      exact Post.pure ⟨hj, St.to_sound hs hlen.length_le, hlen, rfl⟩
    · rename_i h p e
      have hlen := readHead_len e
      have hl8 := hlen.2 (by simp)
      have hs' : (s.to p).Sound := St.to_sound hs hlen.1.length_le
      have hne : 0 < (s.to p).len := by unfold St.Sound at hs; show 0 < s.len; omega
      refine Post.bind (oneBox_post m h hj hs' hne e) fun nx hnx => ?_
      cases nx with
      | done j' s' =>
        exact Post.pure ⟨hnx.1, hnx.2.1, hnx.2.2.1.trans hlen.1, hnx.2.2.2⟩
      | more j' s' =>
        have hsl := hnx.2.2.1.length_le
        have : (s.to p).rest = p := rfl
        rw [this] at hsl
        refine (readBoxes_post m fuel j' s' (by omega) hnx.1 hnx.2.1).mono (fun hw => ?_) fun r hr => ?_
        · exact hw.infix ((hnx.2.2.1.trans hlen.1).isInfix)
        · exact ⟨hr.1, hr.2.1, hr.2.2.1.trans (hnx.2.2.1.trans hlen.1), hr.2.2.2.trans hnx.2.2.2⟩

theorem file_sound (data : List UInt8) : (St.file data).Sound := by
  unfold St.Sound St.file; simp

theorem readFile_post (m : Mode) {j : Codec} {s : St} (hj : Ok j) (hs : s.Sound) :
    Post (Wide m s.rest) (readFile m j s) (fun r => Ok r.1 ∧ r.2.rest <:+ s.rest ∧ r.1.hasJp2h = true ∧ r.1.hasIhdr = true) := by
  unfold readFile
  refine Post.bind (readBoxes_post m _ j s (Nat.lt_succ_self _) hj hs) fun ⟨j', s'⟩ hr => ?_
  dsimp only at hr ⊢
  refine Post.bind (refuseIf_post _) fun _ h1 => ?_
  refine Post.bind (refuseIf_post _) fun _ h2 => ?_
  exact Post.pure ⟨hr.1, hr.2.2.1, by simpa using h1, by simpa using h2⟩

end Jp2.Box

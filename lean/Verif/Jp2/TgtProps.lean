import Verif.Jp2.TgtShape
/-!
# Property theorems about tag trees (C30, C31)
-/
namespace Jp2.Tgt
open Jp2.Bio

/-! ## Operations -/

/-- What the encoder does with one tree and one bit stream: set a leaf, code a query, code a whole value
(threshold 999, as for the number of zero bit planes), or write an unrelated header element in between. -/
inductive Op where
  | set (leaf : Nat) (v : Int)
  | query (leaf : Nat) (thr : Int)
  | full (leaf : Nat)
  | item (x : Item)

def encOp (s : Bio) (t : Mem Node) : Op → Option (Bio × Mem Node)
  | .set leaf v => (setvalue t leaf v).map fun t => (s, t)
  | .query leaf thr => encode s t leaf thr
  | .full leaf => encode s t leaf 999
  | .item x => (x.put s).map fun s => (s, t)

def encOps : Bio → Mem Node → List Op → Option (Bio × Mem Node)
  | s, t, [] => some (s, t)
  | s, t, o :: os => (encOp s t o).bind fun (s, t) => encOps s t os

/-- The decoder's side. It is not told about `set`; a whole value is found by raising the threshold from 0. -/
def decOp (s : Bio) (t : Mem Node) : Op → Option (List Int × Bio × Mem Node)
  | .set _ _ => some ([], s, t)
  | .query leaf thr => (decode s t leaf thr).map fun (b, s, t) => ([if b then 1 else 0], s, t)
  | .full leaf => (firstTrue 1001 0 s t leaf).map fun (i, s, t) => ([i], s, t)
  | .item x => (x.get s).map fun (v, s) => ([(v : Int)], s, t)

def decOps : Bio → Mem Node → List Op → Option (List Int × Bio × Mem Node)
  | s, t, [] => some ([], s, t)
  | s, t, o :: os =>
    (decOp s t o).bind fun (a, s, t) => (decOps s t os).map fun (as, s, t) => (a ++ as, s, t)

/-! ## Specification -/

/-- The value of each leaf after a `set`: the smallest value set so far. -/
def setVal (val : Nat → Int) (leaf : Nat) (v : Int) : Nat → Int :=
  fun k => if k = leaf then min (val k) v else val k

/-- What the decoder should answer: for a query whether the leaf's current value is below the threshold; for a whole
value, the first threshold above it. -/
def answers (val : Nat → Int) : List Op → List Int
  | [] => []
  | .set leaf v :: os => answers (setVal val leaf v) os
  | .query leaf thr :: os => (if val leaf < thr then 1 else 0) :: answers val os
  | .full leaf :: os => (val leaf + 1) :: answers val os
  | .item x :: os => (x.value : Int) :: answers val os

/-- Sensible use of a tree with `n` leaves: leaves exist, a value set after a query is not below the thresholds
already queried (`M` is the largest), and no query asks an unset leaf (999) about a threshold above 999. -/
def Sensible (n : Nat) (M : Int) (val : Nat → Int) : List Op → Prop
  | [] => True
  | .set leaf v :: os => leaf < n ∧ M ≤ v ∧ Sensible n M (setVal val leaf v) os
  | .query leaf thr :: os => leaf < n ∧ (thr ≤ 999 ∨ val leaf < 999) ∧ Sensible n (max M thr) val os
  | .full leaf :: os => leaf < n ∧ val leaf < 999 ∧ Sensible n (max M 999) val os
  | .item x :: os => x.Ok ∧ Sensible n M val os

/-! ## Helpers -/

structure St (n : Nat) (M : Int) (val : Nat → Int) (t : Mem Node) : Prop where
  inv : Inv M t
  nonneg : 0 ≤ M
  mono : Mono t
  up : Up t
  reach : ∀ leaf, leaf < n → Reaches t leaf
  leafs : ∀ leaf, leaf < n → ∀ (j : Nat) nd, t j = some nd → nd.parent ≠ some leaf
  vals : ∀ leaf, leaf < n → ∃ nd, t leaf = some nd ∧ nd.value = val leaf

theorem leafs_congr {t t' : Mem Node} (h : ∀ i, (t' i).map (·.parent) = (t i).map (·.parent)) (k : Nat)
    (hl : ∀ (j : Nat) nd, t j = some nd → nd.parent ≠ some k) : ∀ (j : Nat) nd, t' j = some nd → nd.parent ≠ some k := by
  intro j nd hj
  have := h j
  rw [hj] at this
  cases h' : t j with
  | none => rw [h'] at this; simp at this
  | some x => rw [h'] at this; simp only [Option.map_some, Option.some.injEq] at this
              rw [this]; exact hl j x h'

theorem St.same {n : Nat} {M M' : Int} {val : Nat → Int} {t t' : Mem Node} (h : St n M val t) (hM : M ≤ M')
    (hi : Inv M' t') (hs : SameV t t') : St n M' val t' where
  inv := hi
  nonneg := by have := h.nonneg; omega
  mono := h.mono.congr hs
  up := h.up.congr hs.parents
  reach := fun leaf hl => (h.reach leaf hl).congr hs
  leafs := fun leaf hl => leafs_congr hs.parents leaf (h.leafs leaf hl)
  vals := fun leaf hl => by
    obtain ⟨nd, h1, h2⟩ := h.vals leaf hl
    obtain ⟨nd', g1, _, g3⟩ := hs.get leaf nd h1
    exact ⟨nd', g1, by omega⟩

theorem ops_spec (n : Nat) (ops : List Op) (M : Int) (val : Nat → Int) (t d : Mem Node) (hst : St n M val t)
    (hrel : Rel t d) (hok : Sensible n M val ops) :
    ∃ bits t', (∀ s, encOps s t ops = (putBits s bits).map fun s => (s, t')) ∧
      ∀ s, DecSafe s → Starts s bits → ∃ s' d', decOps s d ops = some (answers val ops, s', d') ∧
        Adv s s' bits.length := by
  induction ops generalizing M val t d with
  | nil => exact ⟨[], t, fun s => rfl, fun s hs _ => ⟨s, d, rfl, Adv.refl s hs⟩⟩
  | cons o os ih =>
    cases o with
    | set leaf v =>
      obtain ⟨h1, h2, h3⟩ := hok
      obtain ⟨t1, g1, g2, g3, g4, g5, g6⟩ := setvalue_spec M v t leaf hst.inv hst.mono h2 (hst.reach leaf h1)
      have hst1 : St n M (setVal val leaf v) t1 := by
        refine ⟨g2, hst.nonneg, g3, hst.up.congr g4.parents, ?_, ?_, ?_⟩
        · intro k hk
          obtain ⟨r, l, e⟩ := hst.reach k hk
          exact ⟨r, l, by rw [climb_congr t t1 g4.parents]; exact e⟩
        · exact fun k hk => leafs_congr g4.parents k (hst.leafs k hk)
        · intro k hk
          obtain ⟨nd, e1, e2⟩ := hst.vals k hk
          unfold setVal
          by_cases e : k = leaf
          · subst e
            rw [if_pos rfl, ← e2]; exact g5 nd e1
          · rw [if_neg e, g6 k e (hst.leafs k hk)]; exact ⟨nd, e1, e2⟩
      obtain ⟨bits, t', k1, k2⟩ := ih M _ t1 d hst1 (Rel.lowered hst.inv h2 g4 hrel) h3
      refine ⟨bits, t', fun s => ?_, fun s hs hb => ?_⟩
      · simp only [encOps, encOp, g1, Option.map_some, Option.bind_some]; exact k1 s
      · obtain ⟨s', d', e1, e2⟩ := k2 s hs hb
        refine ⟨s', d', ?_, e2⟩
        simp only [decOps, decOp, Option.bind_some, e1, Option.map_some, List.nil_append]
        rfl
    | query leaf thr =>
      obtain ⟨h1, h2, h3⟩ := hok
      obtain ⟨nd, v1, v2⟩ := hst.vals leaf h1
      have henc := encode_eq M (max M thr) thr t leaf hst.inv hst.mono (by omega) (by omega) hst.nonneg (hst.reach leaf h1)
      have hd := decode_eq M (max M thr) thr t d leaf hst.inv hst.mono (by omega) (by omega) hst.nonneg (hst.reach leaf h1)
        hrel nd v1 (by rw [v2]; exact h2)
      have hany := henc ⟨[], 0, 0, 0⟩
      have hst1 := hst.same (M' := max M thr) (by omega) hany.2.1 hany.2.2
      generalize hq : queryRun t leaf thr = q at *
      -- any decoder tree in the relation will do; pick the mirror image
      obtain ⟨bits, t', k1, k2⟩ := ih (max M thr) val q.2 (fun i => (q.2 i).map decView) hst1 (fun _ => rfl) h3
      refine ⟨q.1 ++ bits, t', fun s => ?_, fun s hs hb => ?_⟩
      · simp only [encOps, encOp]
        rw [(henc s).1, putBits_append]
        cases putBits s q.1 with
        | none => rfl
        | some s1 => simp only [Option.map_some, Option.bind_some]; exact k1 s1
      · obtain ⟨s1, d1, e1, e2, e3⟩ := hd s hs hb.left
        have : d1 = fun i => (q.2 i).map decView := funext e2
        subst this
        obtain ⟨s2, d2, f1, f2⟩ := k2 s1 e3.1 (Adv.starts hb e3)
        refine ⟨s2, d2, ?_, by rw [List.length_append]; exact e3.trans f2⟩
        simp only [decOps, decOp, e1, Option.map_some, Option.bind_some, f1, answers, v2, decide_eq_true_eq]
        rfl
    | full leaf =>
      obtain ⟨h1, h2, h3⟩ := hok
      obtain ⟨nd, v1, v2⟩ := hst.vals leaf h1
      have hlow0 := hst.inv.low0 leaf nd v1
      have hlowv := hst.inv.lowv leaf nd v1
      have henc := encode_eq M (max M 999) 999 t leaf hst.inv hst.mono (by omega) (by omega) hst.nonneg (hst.reach leaf h1)
      have hab := query_above M 999 (nd.value + 1) t leaf hst.inv hst.mono (hst.reach leaf h1) nd v1 (by omega) (by omega)
      have hd := fun s hs hb => firstTrue_spec M (nd.value + 1).toNat 0 t d leaf hst.inv hst.mono hst.up (hst.reach leaf h1) hrel nd v1
        (by omega) (by omega) hst.nonneg s hs hb 1001 (by omega)
      rw [← hab] at hd
      have hany := henc ⟨[], 0, 0, 0⟩
      have hst1 := hst.same (M' := max M 999) (by omega) hany.2.1 hany.2.2
      generalize hq : queryRun t leaf 999 = q at *
      obtain ⟨bits, t', k1, k2⟩ := ih (max M 999) val q.2 (fun i => (q.2 i).map decView) hst1 (fun _ => rfl) h3
      refine ⟨q.1 ++ bits, t', fun s => ?_, fun s hs hb => ?_⟩
      · simp only [encOps, encOp]
        rw [(henc s).1, putBits_append]
        cases putBits s q.1 with
        | none => rfl
        | some s1 => simp only [Option.map_some, Option.bind_some]; exact k1 s1
      · obtain ⟨s1, d1, e1, e2, e3⟩ := hd s hs hb.left
        have : d1 = fun i => (q.2 i).map decView := funext e2
        subst this
        obtain ⟨s2, d2, f1, f2⟩ := k2 s1 e3.1 (Adv.starts hb e3)
        refine ⟨s2, d2, ?_, by rw [List.length_append]; exact e3.trans f2⟩
        simp only [decOps, decOp, e1, Option.map_some, Option.bind_some, f1, answers, v2]
        rfl
    | item x =>
      obtain ⟨h1, h3⟩ := hok
      obtain ⟨bits, t', k1, k2⟩ := ih M val t d hst hrel h3
      refine ⟨x.bits ++ bits, t', fun s => ?_, fun s hs hb => ?_⟩
      · simp only [encOps, encOp]
        rw [Item.put_eq s x h1, putBits_append]
        cases putBits s x.bits with
        | none => rfl
        | some s1 => simp only [Option.map_some, Option.bind_some]; exact k1 s1
      · obtain ⟨s1, e1, e2, e3, e4⟩ := Item.get_spec s hs x h1 hb.left
        obtain ⟨s2, d2, f1, f2⟩ := k2 s1 e2 (Adv.starts hb ⟨e2, e3, e4⟩)
        refine ⟨s2, d2, ?_, by rw [List.length_append]; exact Adv.trans ⟨e2, e3, e4⟩ f2⟩
        simp only [decOps, decOp, e1, Option.map_some, Option.bind_some, f1, answers]
        rfl

theorem st_create (m : Mode) (w h n : Nat) (t : Mem Node) (hw : 0 < w) (hh : 0 < h) (hp : w * h ≤ 2 ^ 30)
    (hc : create m w h = some (some (n, t))) : St (w * h) 0 (fun _ => 999) t ∧ Rel t t := by
  obtain ⟨L, n', t', h1, hs, hf⟩ := create_eq m w h hw hh hp
  rw [hc] at h1
  simp only [Option.some.injEq, Prod.mk.injEq] at h1
  obtain ⟨rfl, rfl⟩ := h1
  constructor
  · constructor
    · constructor
      · intro i nd hi; have := hf i nd hi; omega
      · intro i nd hi; have := hf i nd hi; omega
      · intro i nd hi; have := hf i nd hi; omega
      · intro i nd hi; have := hf i nd hi; omega
      · intro i nd hi hk; have := (hf i nd hi).2.2; rw [hk] at this; simp at this
    · omega
    · intro i nd p hi hpar
      rcases hs.up i nd hi with e | ⟨q, e1, _, _, e4⟩
      · rw [hpar] at e; simp at e
      · rw [hpar] at e1; simp only [Option.some.injEq] at e1; subst e1
        obtain ⟨np, hnp⟩ := Option.isSome_iff_exists.mp ((hs.dom p).mpr e4)
        exact ⟨np, hnp, by have := hf i nd hi; have := hf p np hnp; omega⟩
    · intro i nd p hi hpar
      rcases hs.up i nd hi with e | ⟨q, e1, e2, _, _⟩
      · rw [hpar] at e; simp at e
      · rw [hpar] at e1; simp only [Option.some.injEq] at e1; subst e1; exact e2
    · exact fun leaf hl => shape_reaches w h L n t hs hw leaf hl
    · intro leaf hl j nd hj hpar
      rcases hs.up j nd hj with e | ⟨q, e1, _, e3, _⟩
      · rw [hpar] at e; simp at e
      · rw [hpar] at e1; simp only [Option.some.injEq] at e1; omega
    · intro leaf hl
      obtain ⟨nd, hnd⟩ := (shape_reaches w h L n t hs hw leaf hl).isSome
      exact ⟨nd, hnd, (hf leaf nd hnd).1⟩
  · intro i
    cases hi : t i with
    | none => rfl
    | some nd =>
      obtain ⟨a, b, c⟩ := hf i nd hi
      simp only [Option.map_some, Option.some.injEq]
      unfold decView
      cases nd; simp only at a b c; subst a b c; rfl

/-! ## C31 -/

/-- **C31.** A tree over `w × h` leaves is built without an out-of-bounds access or overflow, has exactly the nodes of all its levels,
and each node's parent is the node covering its 2×2 quad on the next level; the single top node has no parent. -/
theorem C31_shape (m : Mode) (w h : Nat) (hw : 0 < w) (hh : 0 < h) (hp : w * h ≤ 2 ^ 30) :
    ∃ L t, IsDepth w h L ∧ create m w h = some (some (below w h L, t)) ∧
      (∀ i, (t i).isSome ↔ i < below w h L) ∧
      (∀ l x y, l + 1 < L → x < across w l → y < across h l →
        (t (nodeAt w h l x y)).map (·.parent) = some (some (nodeAt w h (l + 1) (x / 2) (y / 2)))) ∧
      (t (nodeAt w h (L - 1) 0 0)).map (·.parent) = some none := by
  obtain ⟨L, n, t, h1, hs, _⟩ := create_eq m w h hw hh hp
  have := hs.count
  subst this
  exact ⟨L, t, hs.depth, h1, hs.dom, hs.inside, hs.root⟩

/-- **C31.** From every leaf the climb used by coding and decoding goes through the leaf's ancestors to the root and fits the 31-entry
stack. -/
theorem C31_leaf_reaches_root (m : Mode) (w h : Nat) (hw : 0 < w) (hh : 0 < h) (hp : w * h ≤ 2 ^ 30) (n : Nat) (t : Mem Node)
    (hc : create m w h = some (some (n, t))) (x y : Nat) (hx : x < w) (hy : y < h) :
    ∃ L, IsDepth w h L ∧ climb t 31 (y * w + x) [] = some (nodeAt w h (L - 1) 0 0,
      ((List.range (L - 1)).map fun l => nodeAt w h l (x / 2 ^ l) (y / 2 ^ l)).reverse) := by
  obtain ⟨L, n', t', h1, hs, _⟩ := create_eq m w h hw hh hp
  rw [hc] at h1
  simp only [Option.some.injEq, Prod.mk.injEq] at h1
  obtain ⟨rfl, rfl⟩ := h1
  have hL := hs.depth.1
  have h31 := hs.le31
  refine ⟨L, hs.depth, ?_⟩
  have := climb_shape w h L n t hs (L - 1) 0 x y (by omega) (by rw [across_zero]; exact hx) (by rw [across_zero]; exact hy)
    31 (by omega) []
  rw [List.append_nil] at this
  simp only [Nat.zero_add] at this
  rw [← this]
  congr 1
  unfold nodeAt; rw [below_zero, across_zero]; omega

/-- **C31.** With no leaves there is no tree. -/
theorem C31_no_leaves (m : Mode) (w h : Nat) (h0 : w * h = 0) : create m w h = some none := by
  have : levels m 31 w h = some [(w, h)] := by
    rw [levels]
    have e : ((w : Int) * h) = 0 := by exact_mod_cast h0
    rw [e, ar_of_I32 m 0 (by unfold I32; omega)]; rfl
  unfold create
  rw [this]
  simp [h0]

example : ∃ t, create .checked 5 3 = some (some (24, t)) := by
  obtain ⟨L, t, h1, h2, _⟩ := C31_shape .checked 5 3 (by omega) (by omega) (by omega)
  have : L = 4 := by
    obtain ⟨a, b, c⟩ := h1
    by_contra hne
    rcases Nat.lt_or_ge L 4 with h | h
    · match L, a, h with
      | 1, _, _ => simp [across] at b
      | 2, _, _ => simp [across] at b
      | 3, _, _ => simp [across] at b
    · have := c 3 (by omega); simp [across] at this
  subst this
  exact ⟨t, h2⟩

/-! ## C30 -/

/-- **C30.** Whatever values are set and queries coded (also mixed with other header elements), the decoder starting from a fresh tree of
the same size answers every query with whether the leaf's value is below the threshold, finds every whole value, and stays in step with
the stream, whatever follows it. -/
theorem C30_round_trip (m : Mode) (w h n : Nat) (t : Mem Node) (hw : 0 < w) (hh : 0 < h) (hp : w * h ≤ 2 ^ 30)
    (hc : create m w h = some (some (n, t))) (ops : List Op) (hok : Sensible (w * h) 0 (fun _ => 999) ops)
    (mem : List UInt8) (s s' : Bio) (t' : Mem Node) (he : encOps (initEnc mem) t ops = some (s, t'))
    (hf : flush s = some (s', true)) (tail : List UInt8) :
    ∃ u d, decOps (initDec (s'.mem.take (numbytes s') ++ tail)) t ops = some (answers (fun _ => 999) ops, u, d) := by
  obtain ⟨hst, hrel⟩ := st_create m w h n t hw hh hp hc
  obtain ⟨bits, t'', k1, k2⟩ := ops_spec (w * h) ops 0 _ t t hst hrel hok
  rw [k1] at he
  simp only [Option.map_eq_some_iff, Prod.mk.injEq] at he
  obtain ⟨s0, he, rfl, rfl⟩ := he
  obtain ⟨u, d, e, _⟩ := k2 _ (decSafe_init _) (flush_starts mem bits s0 s' he hf tail)
  exact ⟨u, d, e⟩

/-- The encoder never fails on such a run. -/
theorem C30_encoder_total (m : Mode) (w h n : Nat) (t : Mem Node) (hw : 0 < w) (hh : 0 < h) (hp : w * h ≤ 2 ^ 30)
    (hc : create m w h = some (some (n, t))) (ops : List Op) (hok : Sensible (w * h) 0 (fun _ => 999) ops) (mem : List UInt8) :
    ∃ s t', encOps (initEnc mem) t ops = some (s, t') := by
  obtain ⟨hst, hrel⟩ := st_create m w h n t hw hh hp hc
  obtain ⟨bits, t'', k1, k2⟩ := ops_spec (w * h) ops 0 _ t t hst hrel hok
  obtain ⟨s', h1, _⟩ := putBits_spec (initEnc mem) [] bits (encSafe_init mem) (fun _ => encInv_init mem)
  exact ⟨s', t'', by rw [k1, h1]; rfl⟩

/-- An inclusion tree over two layers: blocks 0 and 2 come in at layer 0, block 1 at layer 1; then zero-bit-plane counts. -/
def demoOps : List Op :=
  [.set 0 0, .set 2 0, .query 0 1, .query 1 1, .item (.passes 5), .query 2 1, .set 1 1, .query 1 2, .item (.comma 3),
   .query 0 2]

example : Sensible (3 * 1) 0 (fun _ => 999) demoOps := by
  simp [demoOps, Sensible, setVal, Item.Ok]
example : answers (fun _ => 999) demoOps = [1, 0, 5, 1, 1, 3, 1] := by
  simp [demoOps, answers, setVal, Item.value]
example : Sensible 3 0 (fun _ => 999) [.set 0 4, .set 1 2, .set 2 7, .full 1, .full 0, .item (.field 5 3), .full 2] := by
  simp [Sensible, setVal, Item.Ok]
example : (create .checked 3 1).bind (fun r => r.bind fun (_, t) =>
    (encOps (initEnc (List.replicate 8 7)) t demoOps).bind fun (s, _) => (flush s).bind fun (s', ok) =>
    (decOps (initDec (s'.mem.take (numbytes s'))) t demoOps).map fun r => (ok, numbytes s', r.1)) =
      some (true, 2, [1, 0, 5, 1, 1, 3, 1]) := by decide +kernel

/-! ### Any bytes at all -/

theorem decLoop_any (k : Nat) (s : Bio) (hs : DecSafe s) (nd : Node) (low : Int) (hv : nd.value ≤ 999) :
    ∃ s' nd' low', decLoop k s nd low = some (s', nd', low') ∧ (DecSafe s' ∧ s'.mem = s.mem) ∧ nd'.value ≤ 999 ∧ nd'.parent = nd.parent := by
  induction k generalizing s low with
  | zero => exact ⟨s, nd, low, rfl, ⟨hs, rfl⟩, hv, rfl⟩
  | succ k ih =>
    simp only [decLoop]
    by_cases h : low < nd.value
    · rw [if_pos h]
      obtain ⟨t, g1, g2, g3, _⟩ := read_spec s hs 1 (by omega) (by omega)
      rw [g1]
      simp only [Option.bind_some]
      split
      · exact ⟨t, _, low, rfl, ⟨g2, g3⟩, by simp only; omega, rfl⟩
      · rw [← g3]; exact ih t g2 (low + 1)
    · rw [if_neg h]; exact ⟨s, nd, low, rfl, ⟨hs, rfl⟩, hv, rfl⟩

/-- Same nodes and parents, values at most 999. -/
def Tame (t d : Mem Node) : Prop :=
  (∀ i, (d i).map (·.parent) = (t i).map (·.parent)) ∧ ∀ (i : Nat) nd, d i = some nd → nd.value ≤ 999

theorem decPath_any (thr : Int) (s : Bio) (hs : DecSafe s) (t d : Mem Node) (low : Int) (l : List Nat) (hd : Tame t d)
    (hl : ∀ i ∈ l, (t i).isSome) : ∃ s' d', decPath thr s d low l = some (s', d') ∧ (DecSafe s' ∧ s'.mem = s.mem) ∧ Tame t d' := by
  induction l generalizing s d low with
  | nil => exact ⟨s, d, rfl, ⟨hs, rfl⟩, hd⟩
  | cons i l ih =>
    have hsome : (d i).isSome := by
      have h1 := hd.1 i
      have h2 := hl i (by simp)
      cases hdi : d i with
      | none =>
        obtain ⟨x, hx⟩ := Option.isSome_iff_exists.mp h2
        rw [hdi, hx] at h1; simp at h1
      | some _ => rfl
    obtain ⟨nd, hnd⟩ := Option.isSome_iff_exists.mp hsome
    simp only [decPath, hnd, Option.bind_some]
    obtain ⟨s1, nd1, low1, g1, ⟨g2, gm⟩, g3, g4⟩ := decLoop_any
      (thr - if low > nd.low then low else nd.low).toNat s hs nd (if low > nd.low then low else nd.low) (hd.2 i nd hnd)
    rw [g1]
    simp only [Option.bind_some]
    rw [wr_eq_upd d i _ nd hnd]
    simp only [Option.bind_some]
    rw [← gm]
    apply ih s1 g2
    · constructor
      · intro k
        unfold upd
        split
        · rename_i e; subst e; rw [← hd.1, hnd]; simp [g4]
        · exact hd.1 k
      · intro k x hx
        unfold upd at hx
        split at hx
        · simp only [Option.some.injEq] at hx; subst hx; exact g3
        · exact hd.2 k x hx
    · exact fun j hj => hl j (by simp [hj])

theorem climb_isSome (t : Mem Node) (hcl : ∀ (i : Nat) nd p, t i = some nd → nd.parent = some p → (t p).isSome)
    (room i : Nat) (stk : List Nat) (hi : (t i).isSome)
    (hs : ∀ j ∈ stk, (t j).isSome) (r : Nat) (l : List Nat) (h : climb t room i stk = some (r, l)) :
    ∀ j ∈ r :: l, (t j).isSome := by
  induction room generalizing i stk with
  | zero =>
    unfold climb at h
    simp only [Option.bind_eq_some_iff] at h
    obtain ⟨nd, _, h⟩ := h
    split at h
    · simp only [Option.some.injEq, Prod.mk.injEq] at h; obtain ⟨rfl, rfl⟩ := h
      intro j hj
      rcases List.mem_cons.mp hj with rfl | hj
      · exact hi
      · exact hs j hj
    · simp at h
  | succ room ih =>
    unfold climb at h
    simp only [Option.bind_eq_some_iff] at h
    obtain ⟨nd, hnd, h⟩ := h
    split at h
    · simp only [Option.some.injEq, Prod.mk.injEq] at h; obtain ⟨rfl, rfl⟩ := h
      intro j hj
      rcases List.mem_cons.mp hj with rfl | hj
      · exact hi
      · exact hs j hj
    · rename_i p hp
      apply ih p (i :: stk) (hcl i nd p hnd hp) _ h
      intro j hj
      rcases List.mem_cons.mp hj with rfl | hj
      · exact hi
      · exact hs j hj

theorem decode_any (t d : Mem Node) (hm : Mono t) (leaf : Nat) (hr : Reaches t leaf) (hd : Tame t d) (thr : Int) (s : Bio)
    (hs : DecSafe s) : ∃ b s' d', decode s d leaf thr = some (b, s', d') ∧ (DecSafe s' ∧ s'.mem = s.mem) ∧ Tame t d' ∧
      (999 < thr → b = true) := by
  obtain ⟨nd, hnd⟩ := hr.isSome
  obtain ⟨r, l, e⟩ := hr
  have hl := climb_isSome t (fun i nd p hi hp => by
    obtain ⟨np, g, _⟩ := hm i nd p hi hp
    rw [g]; rfl) 31 leaf [] (by rw [hnd]; rfl) (by simp) r l e
  obtain ⟨s', d', g1, g2, g3⟩ := decPath_any thr s hs t d 0 (r :: l) hd hl
  have hleaf : (d' leaf).isSome := by
    have h1 := g3.1 leaf
    cases hdi : d' leaf with
    | none => rw [hdi, hnd] at h1; simp at h1
    | some _ => rfl
  obtain ⟨x, hx⟩ := Option.isSome_iff_exists.mp hleaf
  refine ⟨decide (x.value < thr), s', d', ?_, g2, g3, fun h => ?_⟩
  · unfold decode
    rw [climb_congr t d hd.1, e]
    simp only [Option.bind_some, g1, hx, Option.map_some]
  · have := g3.2 leaf x hx
    exact decide_eq_true (by omega)

theorem firstTrue_any (t d : Mem Node) (hm : Mono t) (leaf : Nat) (hr : Reaches t leaf) (hd : Tame t d) (s : Bio)
    (hs : DecSafe s) (fuel : Nat) (i : Int) (hf : 1001 ≤ i + fuel) (hi : i ≤ 1000) :
    ∃ j s' d', firstTrue fuel i s d leaf = some (j, s', d') ∧ (i ≤ j ∧ j ≤ 1000) ∧ (DecSafe s' ∧ s'.mem = s.mem) ∧ Tame t d' := by
  induction fuel generalizing i s d with
  | zero => omega
  | succ fuel ih =>
    obtain ⟨b, s', d', g1, ⟨g2, gm⟩, g3, g4⟩ := decode_any t d hm leaf hr hd i s hs
    simp only [firstTrue, g1, Option.bind_some]
    by_cases hb : b = true
    · rw [if_pos hb]; exact ⟨i, s', d', rfl, by omega, ⟨g2, gm⟩, g3⟩
    · rw [if_neg hb]
      have : ¬ 999 < i := fun h => hb (g4 h)
      obtain ⟨j, s2, d2, k1, k2, k3, k4⟩ := ih d' g3 s' g2 (i + 1) (by omega) (by omega)
      exact ⟨j, s2, d2, k1, by omega, ⟨k3.1, k3.2.trans gm⟩, k4⟩

/-- **C30.** Fed arbitrary bytes, any sequence of queries and whole-value searches on existing leaves stays within the tree, the stack and the
buffer, and every search ends, after at most 1001 thresholds. -/
theorem C30_any_bytes (m : Mode) (w h n : Nat) (t : Mem Node) (hw : 0 < w) (hh : 0 < h) (hp : w * h ≤ 2 ^ 30)
    (hc : create m w h = some (some (n, t))) (qs : List (Nat × Option Int)) (hq : ∀ q ∈ qs, q.1 < w * h)
    (bytes : List UInt8) :
    (decOps (initDec bytes) t (qs.map fun q => match q.2 with | some thr => .query q.1 thr | none => .full q.1)).isSome := by
  obtain ⟨hst, _⟩ := st_create m w h n t hw hh hp hc
  have key : ∀ (qs : List (Nat × Option Int)) (s : Bio) (d : Mem Node), (∀ q ∈ qs, q.1 < w * h) → DecSafe s → Tame t d →
      (decOps s d (qs.map fun q => match q.2 with | some thr => .query q.1 thr | none => .full q.1)).isSome := by
    intro qs
    induction qs with
    | nil => intros; rfl
    | cons q qs ih =>
      intro s d hq hs hd
      obtain ⟨leaf, o⟩ := q
      have hl := hst.reach leaf (hq (leaf, o) (by simp))
      cases o with
      | some thr =>
        obtain ⟨b, s', d', g1, ⟨g2, _⟩, g3, _⟩ := decode_any t d hst.mono leaf hl hd thr s hs
        simp only [List.map_cons, decOps, decOp, g1, Option.map_some, Option.bind_some, Option.isSome_map]
        exact ih s' d' (fun q h => hq q (by simp [h])) g2 g3
      | none =>
        obtain ⟨j, s', d', g1, _, ⟨g2, _⟩, g3⟩ := firstTrue_any t d hst.mono leaf hl hd s hs 1001 0 (by omega) (by omega)
        simp only [List.map_cons, decOps, decOp, g1, Option.map_some, Option.bind_some, Option.isSome_map]
        exact ih s' d' (fun q h => hq q (by simp [h])) g2 g3
  exact key qs _ t hq (decSafe_init _) ⟨fun _ => rfl, fun i nd hi => hst.inv.v999 i nd hi⟩

/-- **C30.** The limit on thresholds is needed: asking about threshold 1000 while the leaf is unset (as happens in layer 999 of a
code-block not yet included) leaves the decoder one bit behind, so the next header element is misread. -/
theorem C30_threshold_1000_desynchronises :
    (create .checked 1 1).bind (fun r => r.bind fun (_, t) =>
      (encOps (initEnc (List.replicate 200 0)) t [.query 0 1000, .item (.field 0 1)]).bind fun (s, _) =>
      (flush s).bind fun (s', ok) =>
      (decOps (initDec (s'.mem.take (numbytes s'))) t [.query 0 1000, .item (.field 0 1)]).map fun r => (ok, r.1)) =
        some (true, [1, 1]) ∧
    answers (fun _ => 999) [.query 0 1000, .item (.field 0 1)] = [1, 0] := by
  constructor
  · decide +kernel
  · decide

end Jp2.Tgt

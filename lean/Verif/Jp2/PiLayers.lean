import Verif.Jp2.PiProps
import Verif.Jp2.T2SafeLoop
/-!
# Every order goes through the layers of a precinct one after the other
-/
namespace Jp2.Pi
open Spec
open T2 (key count)

/-- Of two packets of one precinct, the one of the lower layer comes first. -/
def Later (p q : Pkt) : Prop := key p = key q → p.layno < q.layno

theorem pw_flatMap {α : Type} {S : α → α → Prop} {xs : List α} {V : α → List Pkt} (h : xs.Pairwise S)
    (h1 : ∀ x ∈ xs, (V x).Pairwise Later)
    (h2 : ∀ x ∈ xs, ∀ y ∈ xs, S x y → ∀ p ∈ V x, ∀ q ∈ V y, Later p q) : (xs.flatMap V).Pairwise Later := by
  induction xs with
  | nil => simp
  | cons x xs ih =>
    rw [List.flatMap_cons, List.pairwise_append]
    rw [List.pairwise_cons] at h
    refine ⟨h1 x (by simp), ih h.2 (fun z hz => h1 z (by simp [hz])) (fun z hz w hw s p a q b =>
      h2 z (by simp [hz]) w (by simp [hw]) s p a q b), ?_⟩
    intro p hp q hq
    obtain ⟨z, hz, hqz⟩ := List.mem_flatMap.mp hq
    exact h2 x (by simp) z (by simp [hz]) (h.1 z hz) p hp q hqz

theorem upto_lt (a b : Nat) : (upto a b).Pairwise (· < ·) := List.pairwise_lt_range'

theorem pw_map {α : Type} {S : α → α → Prop} {xs : List α} {f : α → Pkt} (h : xs.Pairwise S)
    (h2 : ∀ x y, S x y → Later (f x) (f y)) : (xs.map f).Pairwise Later :=
  List.Pairwise.map f (fun x y hxy => h2 x y hxy) h

variable {t : Tile} {cs : List CompParams} (b : Bounds)

theorem later_lrcp : (lrcp t cs b).Pairwise Later := by
  unfold lrcp
  refine pw_flatMap (upto_lt _ _) (fun l _ => pw_flatMap (upto_lt _ _) (fun r _ =>
    pw_flatMap (upto_lt _ _) (fun c _ => pw_map List.nodup_range ?_) ?_) ?_) ?_
  · intro k k' e e'; injection e' with _ e'; injection e' with _ e'; exact absurd e' e
  · intro c _ c' _ hlt p hp q hq; simp only [List.mem_map] at hp hq
    obtain ⟨k, _, rfl⟩ := hp; obtain ⟨k', _, rfl⟩ := hq
    intro e; injection e with e; simp only at e; omega
  · intro r _ r' _ hlt p hp q hq; simp only [List.mem_map, List.mem_flatMap] at hp hq
    obtain ⟨c, _, k, _, rfl⟩ := hp; obtain ⟨c', _, k', _, rfl⟩ := hq
    intro e; injection e with _ e; injection e with e; simp only at e; omega
  · intro l _ l' _ hlt p hp q hq; simp only [List.mem_map, List.mem_flatMap] at hp hq
    obtain ⟨_, _, c, _, k, _, rfl⟩ := hp; obtain ⟨_, _, c', _, k', _, rfl⟩ := hq
    intro _; exact hlt

theorem later_rlcp : (rlcp t cs b).Pairwise Later := by
  unfold rlcp
  refine pw_flatMap (upto_lt _ _) (fun l _ => pw_flatMap (upto_lt _ _) (fun r _ =>
    pw_flatMap (upto_lt _ _) (fun c _ => pw_map List.nodup_range ?_) ?_) ?_) ?_
  · intro k k' e e'; injection e' with _ e'; injection e' with _ e'; exact absurd e' e
  · intro c _ c' _ hlt p hp q hq; simp only [List.mem_map] at hp hq
    obtain ⟨k, _, rfl⟩ := hp; obtain ⟨k', _, rfl⟩ := hq
    intro e; injection e with e; simp only at e; omega
  · intro l _ l' _ hlt p hp q hq; simp only [List.mem_map, List.mem_flatMap] at hp hq
    obtain ⟨c, _, k, _, rfl⟩ := hp; obtain ⟨c', _, k', _, rfl⟩ := hq
    intro _; exact hlt
  · intro r _ r' _ hlt p hp q hq; simp only [List.mem_map, List.mem_flatMap] at hp hq
    obtain ⟨_, _, c, _, k, _, rfl⟩ := hp; obtain ⟨_, _, c', _, k', _, rfl⟩ := hq
    intro e; injection e with _ e; injection e with e; simp only at e; omega

theorem later_at (c r x y : Nat) : ((precAt t cs c r x y).flatMap fun k =>
    (upto b.lay0 b.lay1).map fun l => (⟨l, r, c, k⟩ : Pkt)).Pairwise Later := by
  refine pw_flatMap (precAt_nodup _ _ _ _) (fun k _ => pw_map (upto_lt _ _) fun l l' hlt _ => hlt) ?_
  intro k _ k' _ hne p hp q hq
  simp only [List.mem_map] at hp hq
  obtain ⟨l, _, rfl⟩ := hp; obtain ⟨l', _, rfl⟩ := hq
  intro e; injection e with _ e; injection e with _ e; exact absurd e hne

theorem later_rpcl (h : TileOk t cs) : (rpcl t cs b).Pairwise Later := by
  unfold rpcl
  refine pw_flatMap (upto_lt _ _) (fun r _ => pw_flatMap (upto_lt _ _) (fun y hy =>
    pw_flatMap (upto_lt _ _) (fun x hx => pw_flatMap (upto_lt _ _)
      (fun c _ => later_at b c r x y) ?_) ?_) ?_) ?_
  · intro c _ c' _ hlt p hp q hq; simp only [List.mem_map, List.mem_flatMap] at hp hq
    obtain ⟨k, _, l, _, rfl⟩ := hp; obtain ⟨k', _, l', _, rfl⟩ := hq
    intro e; injection e with e; simp only at e; omega
  · intro x hx x' hx' hlt p hp q hq; simp only [List.mem_map, List.mem_flatMap] at hp hq
    obtain ⟨c, _, k, hk, l, _, rfl⟩ := hp; obtain ⟨c', _, k', hk', l', _, rfl⟩ := hq
    intro e; injection e with e1 e; injection e with e2 e3
    simp only at e1 e2 e3; subst e1 e3
    rw [mem_upto] at hx hx' hy
    have := (precAt_inj h hx hy hx' hy hk hk').1; omega
  · intro y hy y' hy' hlt p hp q hq; simp only [List.mem_map, List.mem_flatMap] at hp hq
    obtain ⟨x, hx, c, _, k, hk, l, _, rfl⟩ := hp; obtain ⟨x', hx', c', _, k', hk', l', _, rfl⟩ := hq
    intro e; injection e with e1 e; injection e with e2 e3
    simp only at e1 e2 e3; subst e1 e3
    rw [mem_upto] at hx hx' hy hy'
    have := (precAt_inj h hx hy hx' hy' hk hk').2; omega
  · intro r _ r' _ hlt p hp q hq; simp only [List.mem_map, List.mem_flatMap] at hp hq
    obtain ⟨y, hy, x, hx, c, _, k, hk, l, _, rfl⟩ := hp; obtain ⟨y', hy', x', hx', c', _, k', hk', l', _, rfl⟩ := hq
    intro e; injection e with e1 e; injection e with e2 e3
    simp only at e2; omega

theorem later_pcrl (h : TileOk t cs) : (pcrl t cs b).Pairwise Later := by
  unfold pcrl
  refine pw_flatMap (upto_lt _ _) (fun y hy => pw_flatMap (upto_lt _ _) (fun x hx => pw_flatMap (upto_lt _ _)
      (fun c _ => pw_flatMap (upto_lt _ _) (fun r _ => later_at b c r x y) ?_) ?_) ?_) ?_
  · intro r _ r' _ hlt p hp q hq; simp only [List.mem_map, List.mem_flatMap] at hp hq
    obtain ⟨k, _, l, _, rfl⟩ := hp; obtain ⟨k', _, l', _, rfl⟩ := hq
    intro e; injection e with _ e; injection e with e; simp only at e; omega
  · intro c _ c' _ hlt p hp q hq; simp only [List.mem_map, List.mem_flatMap] at hp hq
    obtain ⟨_, _, k, _, l, _, rfl⟩ := hp; obtain ⟨_, _, k', _, l', _, rfl⟩ := hq
    intro e; injection e with e; simp only at e; omega
  · intro x hx x' hx' hlt p hp q hq; simp only [List.mem_map, List.mem_flatMap] at hp hq
    obtain ⟨c, _, r, _, k, hk, l, _, rfl⟩ := hp; obtain ⟨c', _, r', _, k', hk', l', _, rfl⟩ := hq
    intro e; injection e with e1 e; injection e with e2 e3
    simp only at e1 e2 e3; subst e1 e2 e3
    rw [mem_upto] at hx hx' hy
    have := (precAt_inj h hx hy hx' hy hk hk').1; omega
  · intro y hy y' hy' hlt p hp q hq; simp only [List.mem_map, List.mem_flatMap] at hp hq
    obtain ⟨x, hx, c, _, r, _, k, hk, l, _, rfl⟩ := hp; obtain ⟨x', hx', c', _, r', _, k', hk', l', _, rfl⟩ := hq
    intro e; injection e with e1 e; injection e with e2 e3
    simp only at e1 e2 e3; subst e1 e2 e3
    rw [mem_upto] at hx hx' hy hy'
    have := (precAt_inj h hx hy hx' hy' hk hk').2; omega

theorem later_cprl (h : TileOk t cs) : (cprl t cs b).Pairwise Later := by
  unfold cprl
  refine pw_flatMap (upto_lt _ _) (fun c _ => pw_flatMap (upto_lt _ _) (fun y hy =>
    pw_flatMap (upto_lt _ _) (fun x hx => pw_flatMap (upto_lt _ _)
      (fun r _ => later_at b c r x y) ?_) ?_) ?_) ?_
  · intro r _ r' _ hlt p hp q hq; simp only [List.mem_map, List.mem_flatMap] at hp hq
    obtain ⟨k, _, l, _, rfl⟩ := hp; obtain ⟨k', _, l', _, rfl⟩ := hq
    intro e; injection e with _ e; injection e with e; simp only at e; omega
  · intro x hx x' hx' hlt p hp q hq; simp only [List.mem_map, List.mem_flatMap] at hp hq
    obtain ⟨r, _, k, hk, l, _, rfl⟩ := hp; obtain ⟨r', _, k', hk', l', _, rfl⟩ := hq
    intro e; injection e with e1 e; injection e with e2 e3
    simp only at e1 e2 e3; subst e2 e3
    rw [mem_upto] at hx hx' hy
    have := (precAt_inj h hx hy hx' hy hk hk').1; omega
  · intro y hy y' hy' hlt p hp q hq; simp only [List.mem_map, List.mem_flatMap] at hp hq
    obtain ⟨x, hx, r, _, k, hk, l, _, rfl⟩ := hp; obtain ⟨x', hx', r', _, k', hk', l', _, rfl⟩ := hq
    intro e; injection e with e1 e; injection e with e2 e3
    simp only at e1 e2 e3; subst e2 e3
    rw [mem_upto] at hx hx' hy hy'
    have := (precAt_inj h hx hy hx' hy' hk hk').2; omega
  · intro c _ c' _ hlt p hp q hq; simp only [List.mem_map, List.mem_flatMap] at hp hq
    obtain ⟨y, hy, x, hx, r, _, k, hk, l, _, rfl⟩ := hp; obtain ⟨y', hy', x', hx', r', _, k', hk', l', _, rfl⟩ := hq
    intro e; injection e with e1 e; simp only at e1; omega

theorem order_later (hf : TileFit t cs) (prg : Int) : (order t cs b prg).Pairwise Later := by
  unfold order
  split_ifs
  · exact later_lrcp b
  · exact later_rlcp b
  · exact later_rpcl b hf.ok
  · exact later_pcrl b hf.ok
  · exact later_cprl b hf.ok
  · exact List.Pairwise.nil

/-- The packets of every precinct come one layer after the other, from the first on, none missing: before the packet of
layer `l` there are exactly `l` packets of its precinct. -/
def InTurn (ps : List Pkt) : Prop := ∀ a p b, ps = a ++ p :: b → p.layno = count a (key p)

theorem inTurn_of {ps : List Pkt} (hl : ps.Pairwise Later)
    (hc : ∀ p ∈ ps, ∀ l, l < p.layno → { p with layno := l } ∈ ps) : InTurn ps := by
  rintro a p b rfl
  rw [List.pairwise_append, List.pairwise_cons] at hl
  obtain ⟨ha, ⟨hpb, _⟩, hab⟩ := hl
  have hnd : ((a.filter fun q => decide (key q = key p)).map Pkt.layno).Pairwise (· < ·) := by
    have h1 := ha.sublist (List.filter_sublist (l := a) (p := fun q => decide (key q = key p)))
    rw [List.pairwise_map]
    have : ∀ q ∈ a.filter (fun q => decide (key q = key p)), key q = key p := by
      intro q hq; simpa using (List.mem_filter.mp hq).2
    revert h1 this
    generalize a.filter _ = xs
    intro h1 h2
    exact h1.imp_of_mem fun {x y} hx hy hxy => hxy (by rw [h2 x hx, h2 y hy])
  have hmem : ∀ l, l ∈ (a.filter fun q => decide (key q = key p)).map Pkt.layno ↔ l < p.layno := by
    intro l
    simp only [List.mem_map, List.mem_filter, decide_eq_true_eq]
    constructor
    · rintro ⟨q, ⟨h1, h2⟩, rfl⟩
      exact hab q h1 p (by simp) h2
    · intro hlt
      have h1 := hc p (by simp) l hlt
      rw [List.mem_append, List.mem_cons] at h1
      rcases h1 with h1 | h1 | h1
      · exact ⟨_, ⟨h1, rfl⟩, rfl⟩
      · have := congrArg Pkt.layno h1
        simp only at this
        omega
      · have := hpb _ h1 rfl
        simp only at this
        omega
  have hperm : ((a.filter fun q => decide (key q = key p)).map Pkt.layno).Perm (List.range p.layno) := by
    rw [List.perm_ext_iff_of_nodup (hnd.imp fun {x y} h => Nat.ne_of_lt h) List.nodup_range]
    intro l
    rw [hmem, List.mem_range]
  have := hperm.length_eq
  rw [List.length_map, List.length_range] at this
  unfold count
  exact this.symm

theorem order_inTurn (hf : TileFit t cs) {prg : Int} (hp : 0 ≤ prg ∧ prg ≤ 4) (h0 : b.lay0 = 0) : InTurn (order t cs b prg) := by
  refine inTurn_of (order_later b hf prg) fun p h1 l hl => ?_
  rw [mem_order hf b hp] at h1 ⊢
  unfold IsPacket at h1 ⊢
  exact ⟨by omega, by show l < _; omega, h1.2.2⟩

end Jp2.Pi

namespace Jp2.Pi
open Spec
open T2 (key count)

/-- With a packet, the packets of the same precinct in lower layers are there as well. -/
def Down (ps : List Pkt) : Prop := ∀ p ∈ ps, ∀ l, l < p.layno → { p with layno := l } ∈ ps

theorem pkt_of_key {p q : Pkt} (h : key p = key q) : { p with layno := q.layno } = q := by
  unfold key at h
  simp only [Prod.mk.injEq] at h
  obtain ⟨h1, h2, h3⟩ := h
  cases p; cases q
  simp_all

/-- Progressions one after the other, packets seen before left out. -/
theorem later_volumes (vs : List (List Pkt)) : (∀ v ∈ vs, v.Pairwise Later ∧ v.Nodup ∧ Down v) →
    vs.flatten.eraseDups.Pairwise Later ∧ Down vs.flatten.eraseDups := by
  intro h
  constructor
  · induction vs using List.reverseRecOn with
    | nil => simp
    | append_singleton vs v ih =>
      rw [List.flatten_append, List.flatten_singleton, List.eraseDups_append, List.pairwise_append]
      obtain ⟨h1, h2, h3⟩ := h v (by simp)
      have hsub : (List.removeAll v vs.flatten).eraseDups.Sublist v := by
        unfold List.removeAll
        rw [eraseDups_nodup _ _ (le_refl _) (h2.sublist List.filter_sublist)]
        exact List.filter_sublist
      refine ⟨ih fun w hw => h w (by simp [hw]), h1.sublist hsub, ?_⟩
      intro p hp q hq e
      rw [List.mem_eraseDups] at hp hq
      unfold List.removeAll at hq
      rw [List.mem_filter] at hq
      have hq2 : q ∉ vs.flatten := by simpa using hq.2
      by_contra hlt
      apply hq2
      obtain ⟨w, hw, hpw⟩ := List.mem_flatten.mp hp
      obtain ⟨_, _, hd⟩ := h w (by simp [hw])
      rcases Nat.lt_or_ge q.layno p.layno with hl | hl
      · have := hd p hpw q.layno hl
        rw [pkt_of_key e] at this
        exact List.mem_flatten.mpr ⟨w, hw, this⟩
      · have : p = q := by
          have h3 := pkt_of_key e
          rw [show q.layno = p.layno by omega] at h3
          exact h3
        exact this ▸ hp
  · intro p hp l hl
    rw [List.mem_eraseDups] at hp ⊢
    obtain ⟨w, hw, hpw⟩ := List.mem_flatten.mp hp
    exact List.mem_flatten.mpr ⟨w, hw, (h w hw).2.2 p hpw l hl⟩

variable {t : Tile} {cs : List CompParams}

theorem order_down (hf : TileFit t cs) (b : Bounds) {prg : Int} (hp : 0 ≤ prg ∧ prg ≤ 4) (h0 : b.lay0 = 0) :
    Down (order t cs b prg) := by
  intro p h1 l hl
  rw [mem_order hf b hp] at h1 ⊢
  unfold IsPacket at h1 ⊢
  exact ⟨by omega, by show l < _; omega, h1.2.2⟩

theorem volumes_in_turn {p : TileParams} {n : Nat} (h : ParamsFit p n)
    (ho : ∀ v ∈ volumes p, OrderOk (tileRect p n) p.comps v.2) :
    ((volumes p).flatMap fun v => order (tileRect p n) p.comps v.1 v.2).eraseDups.Pairwise Later ∧
    Down ((volumes p).flatMap fun v => order (tileRect p n) p.comps v.1 v.2).eraseDups := by
  rw [List.flatMap_def]
  refine later_volumes _ fun v hv => ?_
  rw [List.mem_map] at hv
  obtain ⟨w, hw, rfl⟩ := hv
  have h0 : w.1.lay0 = 0 := by
    unfold volumes at hw
    split_ifs at hw
    · rw [List.mem_singleton] at hw; rw [hw]; rfl
    · rw [List.mem_map] at hw; obtain ⟨q, _, rfl⟩ := hw; rfl
  exact ⟨order_later _ h.tile _, order_nodup h.tile _ _, order_down h.tile _ ⟨(ho w hw).1, (ho w hw).2.1⟩ h0⟩

/-- How many packets of a precinct there are. -/
theorem count_order (hf : TileFit t cs) (b : Bounds) {prg : Int} (hp : 0 ≤ prg ∧ prg ≤ 4) (h0 : b.lay0 = 0) (c r k : Nat)
    (hr : b.res0 ≤ r ∧ r < b.res1) (hc : b.comp0 ≤ c ∧ c < b.comp1) (hk : k < numPrec t cs c r) :
    count (order t cs b prg) (c, r, k) = b.lay1 := by
  have hl := order_later (t := t) (cs := cs) b hf prg
  have hnd : (((order t cs b prg).filter fun q => decide (key q = (c, r, k))).map Pkt.layno).Pairwise (· < ·) := by
    have h1 := hl.sublist (List.filter_sublist (l := order t cs b prg) (p := fun q => decide (key q = (c, r, k))))
    rw [List.pairwise_map]
    have : ∀ q ∈ (order t cs b prg).filter (fun q => decide (key q = (c, r, k))), key q = (c, r, k) := by
      intro q hq; simpa using (List.mem_filter.mp hq).2
    revert h1 this
    generalize (order t cs b prg).filter _ = xs
    intro h1 h2
    exact h1.imp_of_mem fun {x y} hx hy hxy => hxy (by rw [h2 x hx, h2 y hy])
  have hperm : (((order t cs b prg).filter fun q => decide (key q = (c, r, k))).map Pkt.layno).Perm (List.range b.lay1) := by
    rw [List.perm_ext_iff_of_nodup (hnd.imp fun {x y} h => Nat.ne_of_lt h) List.nodup_range]
    intro l
    simp only [List.mem_map, List.mem_filter, decide_eq_true_eq, List.mem_range]
    constructor
    · rintro ⟨q, ⟨h1, h2⟩, rfl⟩
      rw [mem_order hf b hp] at h1
      exact h1.2.1
    · intro hlt
      refine ⟨⟨l, r, c, k⟩, ⟨?_, rfl⟩, rfl⟩
      rw [mem_order hf b hp]
      exact ⟨by omega, hlt, hr.1, hr.2, hc.1, hc.2, hk⟩
  have := hperm.length_eq
  rw [List.length_map, List.length_range] at this
  exact this

theorem inTurn_filter {ps : List Pkt} (h : InTurn ps) (ml : Nat) : InTurn (ps.filter fun p => decide (p.layno < ml)) := by
  intro a p b e
  rw [List.filter_eq_append_iff] at e
  obtain ⟨a0, r0, e1, e2, e3⟩ := e
  rw [List.filter_eq_cons_iff] at e3
  obtain ⟨a1, b0, e4, e5, e6, e7⟩ := e3
  have hsplit : ps = (a0 ++ a1) ++ p :: b0 := by rw [e1, e4]; simp
  have hp := h _ _ _ hsplit
  rw [hp, ← e2]
  have hall : ∀ q ∈ a0 ++ a1, key q = key p → q.layno < ml := by
    intro q hq hk
    obtain ⟨x, y, hxy⟩ := List.append_of_mem hq
    have h2 := h x q (y ++ p :: b0) (by rw [hsplit, hxy]; simp)
    have h3 : count (a0 ++ a1) (key p) = count x (key p) + count (q :: y) (key p) := by
      rw [hxy]; unfold count; rw [List.filter_append, List.length_append]
    have h4 : 0 < count (q :: y) (key p) := by
      unfold count
      rw [List.filter_cons_of_pos (by simpa using hk)]
      simp
    simp only [decide_eq_true_eq] at e6
    rw [hk] at h2
    omega
  unfold count
  rw [List.filter_append, List.length_append]
  have z : (a1.filter fun q => decide (key q = key p)) = [] := by
    rw [List.filter_eq_nil_iff]
    intro q hq hk
    exact e5 q hq (by simpa using hall q (by simp [hq]) (by simpa using hk))
  rw [z, List.length_nil, Nat.add_zero, List.filter_filter]
  congr 1
  refine List.filter_congr fun q hq => ?_
  by_cases hk : key q = key p
  · simp [hk, hall q (by simp [hq]) hk]
  · simp [hk]

end Jp2.Pi

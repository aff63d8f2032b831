import Verif.Jp2.Sparse
import Mathlib.Tactic.Ring
import Mathlib.Tactic.Linarith
/-!
# Lemmas about sparse arrays
-/
namespace Jp2.Sparse

/-! ## Copying a rectangle -/

/-- What a loop of `n` cell copies does, when the destinations are distinct and allocated and the sources defined. -/
structure Copied (src : Nat → Option Int) (dst : Nat → Nat) (n : Nat) (d d' : Mem Int) : Prop where
  hit : ∀ k, k < n → d' (dst k) = src k
  miss : ∀ i, (∀ k, k < n → i ≠ dst k) → d' i = d i

theorem cell_some {d : Mem Int} {i : Nat} {v : Int} (h : (d i).isSome) : cell d i (some v) = some (fun k => if k = i then some v else d k) := by
  unfold cell wr
  rw [Option.bind_some, if_pos h]

theorem rowLoop_spec {src : Nat → Option Int} {dst : Nat → Nat} (d : Mem Int) (n : Nat) (hs : ∀ k, k < n → (src k).isSome)
    (hd : ∀ k, k < n → (d (dst k)).isSome) (hinj : ∀ k l, k < n → l < n → dst k = dst l → k = l) :
    ∃ d', rowLoop src dst n 0 d = some d' ∧ Copied src dst n d d' := by
  obtain ⟨d', h, hp⟩ := loopM_inv (fun k d => cell d (dst k) (src k)) n 0 d
    (fun k e => Copied src dst k d e ∧ ∀ i, (e i).isSome = (d i).isSome)
    ⟨⟨fun k hk => absurd hk (by omega), fun _ _ => rfl⟩, fun _ => rfl⟩ (by
      intro k e _ hk ⟨he, hsz⟩
      obtain ⟨v, hv⟩ := Option.isSome_iff_exists.mp (hs k (by omega))
      rw [hv, cell_some (by rw [hsz]; exact hd k (by omega))]
      refine ⟨_, rfl, ⟨?_, ?_⟩, ?_⟩
      · intro l hl
        by_cases hlk : l = k
        · subst hlk; simp [hv]
        · have hne : dst l ≠ dst k := fun h => hlk (hinj l k (by omega) (by omega) h)
          rw [if_neg hne, he.hit l (by omega)]
      · intro i hi
        rw [if_neg (hi k (by omega)), he.miss i (fun l hl => hi l (by omega))]
      · intro i
        by_cases hi : i = dst k
        · subst hi; simp [hd k (by omega)]
        · rw [if_neg hi, hsz])
  rw [Nat.zero_add] at hp
  exact ⟨d', h, hp.1⟩

theorem loopM_add {σ : Type} (body : Nat → σ → Option σ) (a b i : Nat) (s : σ) :
    loopM body (a + b) i s = (loopM body a i s).bind fun s => loopM body b (i + a) s := by
  induction a generalizing i s with
  | zero => simp [loopM]
  | succ a ih =>
    rw [show a + 1 + b = (a + b) + 1 by omega]
    simp only [loopM]
    cases body i s with
    | none => rfl
    | some s' =>
      simp only [Option.bind_some]
      rw [ih]
      congr 1
      funext s
      rw [show i + (a + 1) = i + 1 + a by omega]

theorem rowUnrolled_eq (src : Nat → Option Int) (dst : Nat → Nat) (n : Nat) (d : Mem Int) : rowUnrolled src dst n d = rowLoop src dst n 0 d := by
  have h4 : ∀ g i d, loopM (fun g d =>
      (cell d (dst (4 * g)) (src (4 * g))).bind fun d => (cell d (dst (4 * g + 1)) (src (4 * g + 1))).bind fun d =>
      (cell d (dst (4 * g + 2)) (src (4 * g + 2))).bind fun d => cell d (dst (4 * g + 3)) (src (4 * g + 3))) g i d =
      loopM (fun k d => cell d (dst k) (src k)) (4 * g) (4 * i) d := by
    intro g
    induction g with
    | zero => intro i d; rfl
    | succ g ih =>
      intro i d
      conv_rhs => rw [show 4 * (g + 1) = 4 + 4 * g by ring, loopM_add]
      have e1 : 4 * (i + 1) = 4 * i + 4 := by ring
      simp only [loopM, ih, e1, Nat.add_assoc, Nat.reduceAdd]
      simp only [Option.bind_assoc, Option.bind_some]
  unfold rowUnrolled rowLoop
  rw [h4 (n / 4) 0 d]
  conv_rhs => rw [show n = 4 * (n / 4) + n % 4 by omega, loopM_add]
  rw [show 0 + 4 * (n / 4) = n / 4 * 4 by ring, Nat.mul_zero]

/-- The general form of every branch. -/
def copy2 (src : Nat → Nat → Option Int) (dst : Nat → Nat → Nat) (xi yi : Nat) (d : Mem Int) : Option (Mem Int) :=
  loopM (fun j d => rowLoop (src j) (dst j) xi 0 d) yi 0 d

structure Copied2 (src : Nat → Nat → Option Int) (dst : Nat → Nat → Nat) (xi yi : Nat) (d d' : Mem Int) : Prop where
  hit : ∀ j k, j < yi → k < xi → d' (dst j k) = src j k
  miss : ∀ i, (∀ j k, j < yi → k < xi → i ≠ dst j k) → d' i = d i

theorem copy2_spec {src : Nat → Nat → Option Int} {dst : Nat → Nat → Nat} (d : Mem Int) (xi yi : Nat)
    (hs : ∀ j k, j < yi → k < xi → (src j k).isSome) (hd : ∀ j k, j < yi → k < xi → (d (dst j k)).isSome)
    (hinj : ∀ j k j' k', j < yi → k < xi → j' < yi → k' < xi → dst j k = dst j' k' → j = j' ∧ k = k') :
    ∃ d', copy2 src dst xi yi d = some d' ∧ Copied2 src dst xi yi d d' := by
  obtain ⟨d', h, hp⟩ := loopM_inv (fun j d => rowLoop (src j) (dst j) xi 0 d) yi 0 d
    (fun j e => Copied2 src dst xi j d e ∧ ∀ j' k', j' < yi → k' < xi → (e (dst j' k')).isSome)
    ⟨⟨fun j k hj => absurd hj (by omega), fun _ _ => rfl⟩, hd⟩ (by
      intro j e _ hj ⟨he, hsz⟩
      obtain ⟨e', h1, h2⟩ := rowLoop_spec (src := src j) (dst := dst j) e xi (fun k hk => hs j k (by omega) hk) (fun k hk => hsz j k (by omega) hk)
        (fun k l hk hl hh => (hinj j k j l (by omega) hk (by omega) hl hh).2)
      have hit' : ∀ j' k', j' < yi → k' < xi → j' ≠ j → e' (dst j' k') = e (dst j' k') := by
        intro j' k' hj' hk' hne
        apply h2.miss
        intro k hk hh
        exact hne (hinj j' k' j k hj' hk' (by omega) hk hh).1
      refine ⟨e', h1, ⟨?_, ?_⟩, ?_⟩
      · intro j' k' hj' hk'
        by_cases hjj : j' = j
        · subst hjj; exact h2.hit k' hk'
        · rw [hit' j' k' (by omega) hk' hjj, he.hit j' k' (by omega) hk']
      · intro i hi
        rw [h2.miss i (fun k hk => hi j k (by omega) hk), he.miss i (fun j' k' hj' hk' => hi j' k' (by omega) hk')]
      · intro j' k' hj' hk'
        by_cases hjj : j' = j
        · subst hjj; rw [h2.hit k' hk']; exact hs j' k' hj' hk'
        · rw [hit' j' k' hj' hk' hjj]; exact hsz j' k' hj' hk')
  rw [Nat.zero_add] at hp
  exact ⟨d', h, hp.1⟩

theorem loopM_congr {σ : Type} {f g : Nat → σ → Option σ} (n i : Nat) (s : σ) (h : ∀ j s, i ≤ j → j < i + n → f j s = g j s) : loopM f n i s = loopM g n i s := by
  induction n generalizing i s with
  | zero => rfl
  | succ n ih =>
    simp only [loopM]
    rw [h i s (by omega) (by omega)]
    congr 1
    funext s'
    exact ih (i + 1) s' (fun j s h1 h2 => h j s (by omega) (by omega))

theorem rowLoop_congr {src src' : Nat → Option Int} {dst dst' : Nat → Nat} (n k : Nat) (d : Mem Int) (hs : ∀ j, k ≤ j → j < k + n → src j = src' j)
    (hd : ∀ j, k ≤ j → j < k + n → dst j = dst' j) : rowLoop src dst n k d = rowLoop src' dst' n k d := by
  unfold rowLoop
  exact loopM_congr n k d (fun j s h1 h2 => by rw [hs j h1 h2, hd j h1 h2])

theorem rowLoop_one (src : Nat → Option Int) (dst : Nat → Nat) (d : Mem Int) : rowLoop src dst 1 0 d = cell d (dst 0) (src 0) := by
  unfold rowLoop
  simp only [loopM, Option.bind_fun_some]

/-- Every branch of the read is the general copy. -/
theorem readBlock_eq (b : Option (Mem Int)) (bw so bo cs ls xi yi : Nat) (hxi : xi < 2 ^ 32) (d : Mem Int) :
    readBlock b bw so bo cs ls xi yi d = copy2 (fun j k => match b with | none => some 0 | some b => b (so + j * bw + k))
      (fun j k => bo + j * ls + k * cs % 2 ^ 32) xi yi d := by
  have h1 : ∀ k, k < xi → k * 1 % 2 ^ 32 = k := fun k hk => by rw [Nat.mul_one, Nat.mod_eq_of_lt (by omega)]
  unfold readBlock copy2
  cases b with
  | none =>
    simp only
    split
    · rename_i hcs
      rw [hcs]
      refine loopM_congr _ _ _ (fun j s _ _ => rowLoop_congr _ _ _ (fun _ _ _ => rfl) (fun k _ hk => ?_))
      rw [h1 k (by omega)]
    · rfl
  | some b =>
    simp only
    split
    · rename_i hcs
      rw [hcs]
      refine loopM_congr _ _ _ (fun j s _ _ => rowLoop_congr _ _ _ (fun _ _ _ => rfl) (fun k _ hk => ?_))
      rw [h1 k (by omega)]
    · split
      · rename_i hx1
        rw [hx1]
        refine loopM_congr _ _ _ (fun j s _ _ => ?_)
        rw [rowLoop_one]
        simp
      · split
        · rename_i hy
          rw [hy.1, rowUnrolled_eq]
          simp [loopM]
        · split
          · exact loopM_congr _ _ _ (fun j s _ _ => rowUnrolled_eq _ _ _ _)
          · rfl

/-- Every branch of the write is the general copy. -/
theorem writeBlock_eq (b : Mem Int) (bw dO bo cs ls xi yi : Nat) (hxi : xi < 2 ^ 32) (s : Mem Int) :
    writeBlock b bw dO bo cs ls xi yi s = copy2 (fun j k => s (bo + j * ls + k * cs % 2 ^ 32)) (fun j k => dO + j * bw + k) xi yi b := by
  have h1 : ∀ k, k < xi → k * 1 % 2 ^ 32 = k := fun k hk => by rw [Nat.mul_one, Nat.mod_eq_of_lt (by omega)]
  unfold writeBlock copy2
  split
  · rename_i hcs
    rw [hcs]
    refine loopM_congr _ _ _ (fun j _ _ _ => rowLoop_congr _ _ _ (fun k _ hk => ?_) (fun _ _ _ => rfl))
    show _ = s (bo + j * ls + k * 1 % 2 ^ 32)
    rw [h1 k (by omega)]
  · split
    · rename_i hx1
      rw [hx1]
      refine loopM_congr _ _ _ (fun j s _ _ => ?_)
      rw [rowLoop_one]
      simp
    · split
      · exact loopM_congr _ _ _ (fun j s _ _ => rowUnrolled_eq _ _ _ _)
      · rfl

/-! ## The array as a plane -/

/-- The value of cell `(X, Y)`: 0 when its block has not been allocated. -/
def get (sa : Sa) (X Y : Nat) : Option Int :=
  (sa.blocks (Y / sa.bh * sa.bch + X / sa.bw)).bind fun p => match p with
    | none => some 0
    | some b => b (Y % sa.bh * sa.bw + X % sa.bw)

structure WF (sa : Sa) : Prop where
  bw : 0 < sa.bw
  bh : 0 < sa.bh
  h : sa.bch = ceildiv sa.width sa.bw
  v : sa.bcv = ceildiv sa.height sa.bh
  small : sa.bch * sa.bcv < 2 ^ 32
  wsmall : sa.width < 2 ^ 32
  hsmall : sa.height < 2 ^ 32
  dom : ∀ i, i < sa.bch * sa.bcv → (sa.blocks i).isSome
  blk : ∀ i b, sa.blocks i = some (some b) → ∀ k, k < sa.bw * sa.bh → (b k).isSome

theorem div_lt_ceildiv {a b x : Nat} (hb : 0 < b) (hx : x < a) : x / b < ceildiv a b := by
  unfold ceildiv
  rw [Nat.div_lt_iff_lt_mul hb]
  have h1 := Nat.div_add_mod (a + b - 1) b
  have h2 := Nat.mod_lt (a + b - 1) hb
  have : (a + b - 1) / b * b = b * ((a + b - 1) / b) := Nat.mul_comm _ _
  omega

theorem idx_lt {sa : Sa} (h : WF sa) {X Y : Nat} (hX : X < sa.width) (hY : Y < sa.height) :
    Y / sa.bh * sa.bch + X / sa.bw < sa.bch * sa.bcv ∧ X / sa.bw < sa.bch := by
  have h1 : X / sa.bw < sa.bch := by rw [h.h]; exact div_lt_ceildiv h.bw hX
  have h2 : Y / sa.bh < sa.bcv := by rw [h.v]; exact div_lt_ceildiv h.bh hY
  refine ⟨?_, h1⟩
  calc Y / sa.bh * sa.bch + X / sa.bw < Y / sa.bh * sa.bch + sa.bch := by omega
    _ = (Y / sa.bh + 1) * sa.bch := by ring
    _ ≤ sa.bcv * sa.bch := Nat.mul_le_mul_right _ h2
    _ = sa.bch * sa.bcv := Nat.mul_comm _ _

theorem idx_inj {n a b c d : Nat} (hb : b < n) (hd : d < n) (h : a * n + b = c * n + d) : a = c ∧ b = d := by
  have hn : 0 < n := by omega
  have h1 : (a * n + b) / n = a := by rw [Nat.mul_comm, Nat.mul_add_div hn, Nat.div_eq_of_lt hb, Nat.add_zero]
  have h2 : (c * n + d) / n = c := by rw [Nat.mul_comm, Nat.mul_add_div hn, Nat.div_eq_of_lt hd, Nat.add_zero]
  have : a = c := by rw [← h1, ← h2, h]
  subst this
  exact ⟨rfl, by omega⟩

theorem off_lt {n m a b : Nat} (ha : a < m) (hb : b < n) : a * n + b < n * m := by
  calc a * n + b < a * n + n := by omega
    _ = (a + 1) * n := by ring
    _ ≤ m * n := Nat.mul_le_mul_right _ ha
    _ = n * m := Nat.mul_comm _ _

/-- Every cell of the plane has a value. -/
theorem get_some {sa : Sa} (h : WF sa) {X Y : Nat} (hX : X < sa.width) (hY : Y < sa.height) : (get sa X Y).isSome := by
  obtain ⟨p, hp⟩ := Option.isSome_iff_exists.mp (h.dom _ (idx_lt h hX hY).1)
  unfold get
  rw [hp, Option.bind_some]
  cases p with
  | none => rfl
  | some b => exact h.blk _ b hp _ (off_lt (Nat.mod_lt _ h.bh) (Nat.mod_lt _ h.bw))

/-- Where cell `(X, Y)` of the region sits in the buffer. -/
def pos (x0 y0 cs ls X Y : Nat) : Nat := (Y - y0) * ls + (X - x0) * cs

end Jp2.Sparse

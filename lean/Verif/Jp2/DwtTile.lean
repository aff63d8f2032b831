import Verif.Jp2.DwtInv
import Verif.Jp2.DwtCols2
import Mathlib.Tactic.Ring
import Mathlib.Tactic.Linarith
namespace Jp2.Dwt

theorem div_mod_of {w j i : Nat} (hi : i < w) : (j * w + i) / w = j ∧ (j * w + i) % w = i := by
  constructor
  · rw [Nat.add_comm, Nat.add_mul_div_right _ _ (by omega), Nat.div_eq_of_lt hi]; omega
  · rw [Nat.add_comm, Nat.add_mul_mod_self_right, Nat.mod_eq_of_lt hi]

theorem div_mod_eq (w q : Nat) : q / w * w + q % w = q := by rw [Nat.mul_comm]; exact Nat.div_add_mod q w

/-- `m` holds `x` on the top-left `rw × rh` region of a `w`-wide image and agrees with `m0` elsewhere. -/
def Holds (w rw rh : Nat) (m0 : Mem Int) (x : Nat → Nat → Int) (m : Mem Int) : Prop :=
  ∀ q, m q = if q % w < rw ∧ q / w < rh then some (x (q / w) (q % w)) else m0 q

/-- A two-part description of the effect of a step on some cells gives `Holds`. -/
theorem Holds.upd {w rw rh : Nat} {m0 m m' : Mem Int} {x y : Nat → Nat → Int} (h : Holds w rw rh m0 x m) (hw : rw ≤ w)
    (S : Nat → Nat → Prop) [∀ j i, Decidable (S j i)]
    (h1 : ∀ j < rh, ∀ i < rw, S j i → m' (j * w + i) = some (y j i))
    (h2 : ∀ q, (∀ j < rh, ∀ i < rw, S j i → q ≠ j * w + i) → m' q = m q) :
    Holds w rw rh m0 (fun j i => if S j i then y j i else x j i) m' := by
  intro q
  by_cases hq : q % w < rw ∧ q / w < rh
  · rw [if_pos hq]
    simp only
    by_cases hs : S (q / w) (q % w)
    · rw [if_pos hs]
      have := h1 _ hq.2 _ hq.1 hs
      rwa [div_mod_eq] at this
    · rw [if_neg hs, h2, h q, if_pos hq]
      rintro j hj i hi hsi rfl
      rw [(div_mod_of (by omega)).1, (div_mod_of (by omega)).2] at hs
      exact hs hsi
  · rw [if_neg hq, h2, h q, if_neg hq]
    rintro j hj i hi hsi rfl
    rw [(div_mod_of (by omega)).1, (div_mod_of (by omega)).2] at hq
    exact hq ⟨hi, hj⟩

theorem Holds.get {w rw rh : Nat} {m0 m : Mem Int} {x : Nat → Nat → Int} (h : Holds w rw rh m0 x m) (hw : rw ≤ w)
    {j i : Nat} (hj : j < rh) (hi : i < rw) : m (j * w + i) = some (x j i) := by
  rw [h, (div_mod_of (by omega)).1, (div_mod_of (by omega)).2, if_pos ⟨hi, hj⟩]

theorem Holds.congr {w rw rh : Nat} {m0 m : Mem Int} {x y : Nat → Nat → Int} (h : Holds w rw rh m0 x m)
    (hxy : ∀ j < rh, ∀ i < rw, x j i = y j i) : Holds w rw rh m0 y m := by
  intro q
  rw [h q]
  split
  · rename_i hq; rw [hxy _ hq.2 _ hq.1]
  · rfl

/-- The vertical transform of a region, then the horizontal one: one level of the specification. -/
def vert (rh casy : Nat) (x : Nat → Nat → Int) : Nat → Nat → Int := fun j i => fwd1 rh casy (fun k => x k i) j
def horiz (rw casx : Nat) (x : Nat → Nat → Int) : Nat → Nat → Int := fun j i => fwd1 rw casx (fun k => x j k) i

theorem pos_lt {n cas i : Nat} (hc : cas ≤ 1) (hi : i < n) : pos (lowCount n cas) cas i < n := by
  unfold pos lowCount; split <;> omega

theorem fwd1_bd {n cas : Nat} (hc : cas ≤ 1) {x : Nat → Int} {B : Int} (hx : ∀ k < n, -B ≤ x k ∧ x k ≤ B) (i : Nat) (hi : i < n) :
    -(2 * B) ≤ fwd1 n cas x i ∧ fwd1 n cas x i ≤ 2 * B := lift_bd hx _ (pos_lt hc hi)

theorem beq0 (a : Nat) : (if (a % 2 == 0) = true then 0 else 1) = a % 2 := by
  by_cases h : a % 2 = 0
  · simp [h]
  · have : a % 2 = 1 := by omega
    simp [this]

/-- One step of the vertical pass. -/
theorem vstep {A : Arith} {B K : Int} (hA : Good A K) (hK : 4 * B + 2 ≤ K) {w rw rh y0 : Nat} (hw : rw ≤ w) (hn : y0 % 2 = 1 → 1 ≤ rh)
    {x : Nat → Nat → Int} (hx : ∀ j < rh, ∀ i < rw, -B ≤ x j i ∧ x j i ≤ B) {m0 m t : Mem Int} {b cols : Nat}
    (h : Holds w rw rh m0 (fun j i => if i < b then vert rh (y0 % 2) x j i else x j i) m)
    (hb : b + cols ≤ rw) (h1 : 1 ≤ cols) (h8 : cols ≤ 8) (ht : ∀ q < 8 * rh, (t q).isSome) :
    ∃ m' t', at_ (encodeCols A rh (y0 % 2 == 0) w cols) b (m, t) = some (m', t') ∧
      Holds w rw rh m0 (fun j i => if i < b + cols then vert rh (y0 % 2) x j i else x j i) m' ∧
      (∀ q, (t' q).isSome = (t q).isSome) := by
  obtain ⟨a', t', e, p1, p2, p3⟩ := encodeCols_ok hA hK rh (y0 % 2 == 0) w cols (fun he => hn (by simp at he; omega)) h1 h8 (by omega)
    (fun c k => x k (b + c)) (fun c hc k hk => hx k hk _ (by omega)) (fun i => m (b + i)) t
    (fun c hc k hk => by
      rw [show b + (k * w + c) = k * w + (b + c) by omega, h.get hw hk (by omega), if_neg (by omega)]) ht
  rw [beq0] at p1
  refine ⟨fun k => if b ≤ k then a' (k - b) else m k, t', ?_, ?_, p3⟩
  · unfold at_; simp only [e, Option.map_some]
  · have := h.upd hw (m' := fun k => if b ≤ k then a' (k - b) else m k) (S := fun _ i => b ≤ i ∧ i < b + cols)
      (y := vert rh (y0 % 2) x) (by
        intro j hj i hi hs
        rw [if_pos (by omega), show j * w + i - b = j * w + (i - b) by omega, p1 j hj (i - b) (by omega)]
        unfold vert
        rw [show b + (i - b) = i by omega]) (by
        intro q hq
        by_cases hbq : b ≤ q
        · rw [if_pos hbq, p2]
          · rw [show b + (q - b) = q by omega]
          · intro k hk c hc he
            exact hq k hk (b + c) (by omega) (by omega) (by omega)
        · rw [if_neg hbq])
    refine this.congr (fun j hj i hi => ?_)
    by_cases hi1 : i < b
    · rw [if_neg (by omega), if_pos hi1, if_pos (by omega)]
    · by_cases hi2 : i < b + cols
      · rw [if_pos (by omega), if_pos hi2]
      · rw [if_neg (by omega), if_neg hi1, if_neg hi2]

/-- The horizontal pass of one row. -/
theorem hstep {A : Arith} {B K : Int} (hA : Good A K) (hK : 4 * B + 2 ≤ K) {w rw rh x0 : Nat} (hw : rw ≤ w) (hn : x0 % 2 = 1 → 1 ≤ rw)
    {x : Nat → Nat → Int} (hx : ∀ j < rh, ∀ i < rw, -B ≤ x j i ∧ x j i ≤ B) {m0 m t : Mem Int} {b : Nat}
    (h : Holds w rw rh m0 (fun j i => if j < b then horiz rw (x0 % 2) x j i else x j i) m)
    (hb : b < rh) (ht : ∀ q < rw, (t q).isSome) :
    ∃ m' t', at_ (encodeRow A rw (x0 % 2 == 0)) (b * w) (m, t) = some (m', t') ∧
      Holds w rw rh m0 (fun j i => if j < b + 1 then horiz rw (x0 % 2) x j i else x j i) m' ∧
      (∀ q, (t' q).isSome = (t q).isSome) := by
  obtain ⟨a', t', e, p1, p3⟩ := encodeRow_ok hA hK rw (x0 % 2 == 0) (fun he => hn (by simp at he; omega))
    (fun k => x b k) (fun k hk => hx b hb k hk) (fun i => m (b * w + i)) t
    (fun k hk => by rw [h.get hw hb hk, if_neg (by omega)]) ht
  rw [beq0] at p1
  refine ⟨fun k => if b * w ≤ k then a' (k - b * w) else m k, t', ?_, ?_, p3⟩
  · unfold at_; simp only [e, Option.map_some]
  · have := h.upd hw (m' := fun k => if b * w ≤ k then a' (k - b * w) else m k) (S := fun j _ => j = b)
      (y := horiz rw (x0 % 2) x) (by
        intro j hj i hi hs
        subst hs
        rw [if_pos (by omega), show j * w + i - j * w = i by omega, p1 i, if_pos hi]; rfl) (by
        intro q hq
        by_cases hbq : b * w ≤ q
        · rw [if_pos hbq, p1]
          by_cases hlt : q - b * w < rw
          · exact absurd (show q = b * w + (q - b * w) by omega) (hq b hb (q - b * w) hlt rfl)
          · rw [if_neg hlt, show b * w + (q - b * w) = q by omega]
        · rw [if_neg hbq])
    refine this.congr (fun j hj i hi => ?_)
    by_cases hj1 : j < b
    · rw [if_neg (by omega), if_pos hj1, if_pos (by omega)]
    · by_cases hj2 : j < b + 1
      · rw [if_pos (by omega), if_pos hj2]
      · rw [if_neg (by omega), if_neg hj1, if_neg hj2]

/-- One level computes the specified coefficients on its region and leaves the rest alone. -/
theorem encodeLevel_ok {A : Arith} {B K : Int} (hA : Good A K) (hK : 8 * B + 2 ≤ K) (hB : 0 ≤ B) (w : Nat) (r : Res) (hw : r.w ≤ w)
    (hox : r.x0 % 2 = 1 → 1 ≤ r.w) (hoy : r.y0 % 2 = 1 → 1 ≤ r.h) (h32 : r.h * w < 2 ^ 32)
    {x : Nat → Nat → Int} (hx : ∀ j < r.h, ∀ i < r.w, -B ≤ x j i ∧ x j i ≤ B) {m0 m t : Mem Int}
    (h : Holds w r.w r.h m0 x m) (ht : ∀ q < 8 * max r.w r.h, (t q).isSome) :
    ∃ m' t', encodeLevel A w r (m, t) = some (m', t') ∧
      Holds w r.w r.h m0 (horiz r.w (r.x0 % 2) (vert r.h (r.y0 % 2) x)) m' ∧
      (∀ q, (t' q).isSome = (t q).isSome) := by
  unfold encodeLevel
  simp only
  generalize r.w = rw' at *
  generalize r.h = rh at *
  have hK' : 4 * B + 2 ≤ K := by omega
  obtain ⟨s1, e1, p1, d1⟩ := loopM_inv (fun g s => at_ (encodeCols A rh (r.y0 % 2 == 0) w 8) (8 * g) s) (rw' / 8) 0 (m, t)
    (fun g s => Holds w rw' rh m0 (fun j i => if i < 8 * g then vert rh (r.y0 % 2) x j i else x j i) s.1 ∧
      (∀ q, (s.2 q).isSome = (t q).isSome))
    ⟨h.congr (fun j hj i hi => by rw [if_neg (by omega)]), fun _ => rfl⟩ (by
      rintro g ⟨m1, t1⟩ - hg ⟨h1, d1⟩
      obtain ⟨m2, t2, e2, p2, d2⟩ := vstep hA hK' hw hoy hx h1 (cols := 8) (by omega) (by omega) (by omega)
        (fun q hq => by rw [d1]; exact ht q (by omega))
      exact ⟨(m2, t2), e2, p2, fun q => by rw [d2, d1]⟩)
  rw [e1]
  simp only [Option.bind_some, Nat.zero_add] at p1 d1 ⊢
  obtain ⟨s2, e2, p2, d2⟩ : ∃ s2, (if 8 * (rw' / 8) < rw' then
      at_ (encodeCols A rh (r.y0 % 2 == 0) w (rw' - 8 * (rw' / 8))) (8 * (rw' / 8)) s1 else some s1) = some s2 ∧
      Holds w rw' rh m0 (vert rh (r.y0 % 2) x) s2.1 ∧ (∀ q, (s2.2 q).isSome = (t q).isSome) := by
    by_cases hlt : 8 * (rw' / 8) < rw'
    · rw [if_pos hlt]
      obtain ⟨m2, t2, e2, p2, d2⟩ := vstep hA hK' hw hoy hx p1 (cols := rw' - 8 * (rw' / 8)) (by omega) (by omega) (by omega)
        (fun q hq => by rw [d1]; exact ht q (by omega))
      exact ⟨(m2, t2), e2, p2.congr (fun j hj i hi => if_pos (by omega)), fun q => by rw [d2, d1]⟩
    · rw [if_neg hlt]
      exact ⟨s1, rfl, p1.congr (fun j hj i hi => if_pos (by omega)), d1⟩
  rw [e2]
  simp only [Option.bind_some]
  have hv : ∀ j < rh, ∀ i < rw', -(2 * B) ≤ vert rh (r.y0 % 2) x j i ∧ vert rh (r.y0 % 2) x j i ≤ 2 * B :=
    fun j hj i hi => fwd1_bd (by omega) (fun k hk => hx k hk i hi) j hj
  obtain ⟨s3, e3, p3, d3⟩ := loopM_inv (fun j s => at_ (encodeRow A rw' (r.x0 % 2 == 0)) (j * w % 2 ^ 32) s) rh 0 s2
    (fun b s => Holds w rw' rh m0 (fun j i => if j < b then horiz rw' (r.x0 % 2) (vert rh (r.y0 % 2) x) j i else vert rh (r.y0 % 2) x j i) s.1 ∧
      (∀ q, (s.2 q).isSome = (t q).isSome))
    ⟨p2.congr (fun j hj i hi => by rw [if_neg (by omega)]), d2⟩ (by
      rintro b ⟨m1, t1⟩ - hb ⟨h1, d1⟩
      rw [Nat.zero_add] at hb
      have hlt : b * w < 2 ^ 32 := by
        have := Nat.mul_le_mul_right w (Nat.le_of_lt hb); omega
      rw [Nat.mod_eq_of_lt hlt]
      obtain ⟨m2, t2, e2, p2, d2⟩ := hstep hA (B := 2 * B) (by omega) hw hox hv h1 hb
        (fun q hq => by rw [d1]; exact ht q (by omega))
      exact ⟨(m2, t2), e2, p2, fun q => by rw [d2, d1]⟩)
  rw [Nat.zero_add] at p3
  exact ⟨s3.1, s3.2, e3, p3.congr (fun j hj i hi => if_pos hj), d3⟩

/-! ### Inverse level -/

theorem decodeLevel_ok {A : Arith} {B K : Int} (hA : Good A K) (hK : 8 * B + 2 ≤ K) (hB : 0 ≤ B) (w : Nat) (hw0 : 0 < w) (lo r : Res) (hw : r.w ≤ w)
    (hlw : lo.w = lowCount r.w (r.x0 % 2)) (hlh : lo.h = lowCount r.h (r.y0 % 2))
    {x : Nat → Nat → Int} (hx : ∀ j < r.h, ∀ i < r.w, -B ≤ x j i ∧ x j i ≤ B) {m0 m t : Mem Int}
    (h : Holds w r.w r.h m0 (horiz r.w (r.x0 % 2) (vert r.h (r.y0 % 2) x)) m) (ht : ∀ q < max r.w r.h, (t q).isSome) :
    ∃ m' t', decodeLevel A w lo r (m, t) = some (m', t') ∧ Holds w r.w r.h m0 x m' ∧
      (∀ q, (t' q).isSome = (t q).isSome) := by
  unfold decodeLevel
  rw [hlw, hlh]
  clear hlw hlh
  generalize r.w = rw' at *
  generalize r.h = rh at *
  have hK' : 4 * B + 2 ≤ K := by omega
  obtain ⟨V, hV⟩ : ∃ V, V = vert rh (r.y0 % 2) x := ⟨_, rfl⟩
  rw [← hV] at h
  have hv : ∀ j < rh, ∀ i < rw', -(2 * B) ≤ V j i ∧ V j i ≤ 2 * B :=
    fun j hj i hi => by rw [hV]; exact fwd1_bd (by omega) (fun k hk => hx k hk i hi) j hj
  obtain ⟨s1, e1, p1, d1⟩ := loopM_inv
    (fun j s => at_ (idwtLine A 1 (lowCount rw' (r.x0 % 2)) (rw' - lowCount rw' (r.x0 % 2)) (r.x0 % 2)) (j * w) s) rh 0 (m, t)
    (fun b s => Holds w rw' rh m0 (fun j i => if j < b then V j i else horiz rw' (r.x0 % 2) V j i) s.1 ∧
      (∀ q, (s.2 q).isSome = (t q).isSome))
    ⟨h.congr (fun j hj i hi => by rw [if_neg (by omega)]), fun _ => rfl⟩ (by
      rintro b ⟨m1, t1⟩ - hb ⟨h1, d1⟩
      rw [Nat.zero_add] at hb
      simp only at h1 d1
      obtain ⟨a', t', e, q1, q2, q3⟩ := idwtLine_ok hA (B := 2 * B) (by omega) rw' (r.x0 % 2) 1 (by omega) (by omega) (fun k => V b k)
        (fun k hk => hv b hb k hk) (fun i => m1 (b * w + i)) t1
        (fun i hi => by rw [Nat.mul_one, h1.get hw hb hi, if_neg (by omega)]; rfl) (fun k hk => by rw [d1]; exact ht k (by omega))
      refine ⟨(fun k => if b * w ≤ k then a' (k - b * w) else m1 k, t'), ?_, ?_, fun q => by rw [q3, d1]⟩
      · unfold at_; simp only [e, Option.map_some]
      · have := h1.upd hw (m' := fun k => if b * w ≤ k then a' (k - b * w) else m1 k) (S := fun j _ => j = b)
          (y := V) (by
            intro j hj i hi hs
            subst hs
            have := q1 i hi
            rw [Nat.mul_one] at this
            rw [if_pos (by omega), show j * w + i - j * w = i by omega, this]) (by
            intro q hq
            by_cases hbq : b * w ≤ q
            · rw [if_pos hbq, q2]
              · rw [show b * w + (q - b * w) = q by omega]
              · intro k hk he
                exact hq b hb k hk rfl (by omega)
            · rw [if_neg hbq])
        refine this.congr (fun j hj i hi => ?_)
        by_cases hj1 : j < b
        · rw [if_neg (by omega), if_pos hj1, if_pos (by omega)]
        · by_cases hj2 : j < b + 1
          · rw [if_pos (by omega), if_pos hj2]
          · rw [if_neg (by omega), if_neg hj1, if_neg hj2])
  rw [e1]
  simp only [Option.bind_some, Nat.zero_add] at p1 d1 ⊢
  obtain ⟨s2, e2, p2, d2⟩ := loopM_inv
    (fun j s => at_ (idwtLine A w (lowCount rh (r.y0 % 2)) (rh - lowCount rh (r.y0 % 2)) (r.y0 % 2)) j s) rw' 0 s1
    (fun b s => Holds w rw' rh m0 (fun j i => if i < b then x j i else V j i) s.1 ∧
      (∀ q, (s.2 q).isSome = (t q).isSome))
    ⟨p1.congr (fun j hj i hi => by rw [if_pos hj, if_neg (by omega)]), d1⟩ (by
      rintro b ⟨m1, t1⟩ - hb ⟨h1, d1⟩
      rw [Nat.zero_add] at hb
      simp only at h1 d1
      obtain ⟨a', t', e, q1, q2, q3⟩ := idwtLine_ok hA hK' rh (r.y0 % 2) w (by omega) hw0 (fun k => x k b)
        (fun k hk => hx k hk b hb) (fun i => m1 (b + i)) t1
        (fun i hi => by rw [Nat.add_comm, h1.get hw hi hb, if_neg (by omega), hV]; rfl) (fun k hk => by rw [d1]; exact ht k (by omega))
      refine ⟨(fun k => if b ≤ k then a' (k - b) else m1 k, t'), ?_, ?_, fun q => by rw [q3, d1]⟩
      · unfold at_; simp only [e, Option.map_some]
      · have := h1.upd hw (m' := fun k => if b ≤ k then a' (k - b) else m1 k) (S := fun _ i => i = b)
          (y := x) (by
            intro j hj i hi hs
            subst hs
            rw [if_pos (by omega), show j * w + i - i = j * w by omega, q1 j hj]) (by
            intro q hq
            by_cases hbq : b ≤ q
            · rw [if_pos hbq, q2]
              · rw [show b + (q - b) = q by omega]
              · intro k hk he
                exact hq k hk b hb rfl (by omega)
            · rw [if_neg hbq])
        refine this.congr (fun j hj i hi => ?_)
        by_cases hj1 : i < b
        · rw [if_neg (by omega), if_pos hj1, if_pos (by omega)]
        · by_cases hj2 : i < b + 1
          · rw [if_pos (by omega), if_pos hj2]
          · rw [if_neg (by omega), if_neg hj1, if_neg hj2])
  rw [Nat.zero_add] at p2
  exact ⟨s2.1, s2.2, e2, p2.congr (fun j hj i hi => if_pos hi), d2⟩

end Jp2.Dwt

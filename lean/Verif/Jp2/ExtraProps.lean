import Verif.Jp2.ExtraSpec
import Mathlib.Tactic.IntervalCases
/-!
# C73: extra options of the encoder
-/
namespace Jp2.Setup
open Jp2.Hdr (R)

theorem digits_of : ∀ (ds : List Nat) (acc : Nat), (∀ d ∈ ds, d ≤ 9) → digits acc (ds.map fun d => (48 + d).toUInt8) = some (ds.foldl (fun a d => 10 * a + d) acc)
  | [], _, _ => rfl
  | d :: ds, acc, h => by
    have hd := h d (by simp)
    have : digit (48 + d).toUInt8 = some d := by
      interval_cases d <;> rfl
    simp only [List.map_cons, digits, this, Option.bind_some, List.foldl_cons]
    exact digits_of ds _ fun x hx => h x (by simp [hx])

theorem of_digits : ∀ (t : List UInt8) (acc n : Nat), digits acc t = some n → ∃ ds : List Nat, ds.length = t.length ∧ (∀ d ∈ ds, d ≤ 9) ∧ t = ds.map (fun d => (48 + d).toUInt8)
  | [], _, _, _ => ⟨[], rfl, by simp, rfl⟩
  | b :: t, acc, n, h => by
    unfold digits at h
    rw [Option.bind_eq_some_iff] at h
    obtain ⟨d, hd, h⟩ := h
    obtain ⟨ds, h1, h2, h3⟩ := of_digits t _ n h
    unfold digit at hd
    split at hd
    · rename_i hb
      obtain rfl := Option.some.inj hd
      refine ⟨(b.toNat - 48) :: ds, by simp [h1], ?_, ?_⟩
      · intro x hx
        rcases List.mem_cons.1 hx with rfl | hx
        · omega
        · exact h2 x hx
      · rw [List.map_cons, ← h3]
        congr 1
        apply UInt8.toNat_inj.1
        rw [Nat.toUInt8, UInt8.toNat_ofNat']
        omega
    · cases hd

/-- What is parsed is a numeral, and every numeral that fits is parsed. -/
theorem parse_iff (t : List UInt8) (v : Int) : parseI32 t = some v ↔ Numeral t v ∧ -2 ^ 31 ≤ v ∧ v < 2 ^ 31 := by
  constructor
  · intro h
    unfold parseI32 at h
    cases t with
    | nil => cases h
    | cons b t =>
      simp only at h
      split at h
      · rename_i hb
        split at h
        · cases h
        · rename_i hne
          rw [Option.bind_eq_some_iff] at h
          obtain ⟨n, hn, h⟩ := h
          split at h
          · rename_i hle
            obtain rfl := Option.some.inj h
            obtain ⟨ds, h1, h2, h3⟩ := of_digits t _ _ hn
            have hd := digits_of ds 0 h2
            rw [← h3, hn] at hd
            refine ⟨⟨[b], ds, ?_, h2, by rw [h3]; rfl, Or.inr ⟨by rw [hb]; rfl, by rw [← Option.some.inj hd]⟩⟩, by omega, by omega⟩
            rintro rfl
            exact hne (by simpa using h3)
          · cases h
      · split at h
        · rename_i hb
          split at h
          · cases h
          · rename_i hne
            rw [Option.bind_eq_some_iff] at h
            obtain ⟨n, hn, h⟩ := h
            split at h
            · rename_i hle
              obtain rfl := Option.some.inj h
              obtain ⟨ds, h1, h2, h3⟩ := of_digits t _ _ hn
              have hd := digits_of ds 0 h2
              rw [← h3, hn] at hd
              refine ⟨⟨[b], ds, ?_, h2, by rw [h3]; rfl, Or.inl ⟨Or.inr (by rw [hb]; rfl), by rw [← Option.some.inj hd]⟩⟩, by omega, by omega⟩
              rintro rfl
              exact hne (by simpa using h3)
            · cases h
        · rw [Option.bind_eq_some_iff] at h
          obtain ⟨n, hn, h⟩ := h
          split at h
          · rename_i hle
            obtain rfl := Option.some.inj h
            obtain ⟨ds, h1, h2, h3⟩ := of_digits (b :: t) _ _ hn
            have hd := digits_of ds 0 h2
            rw [← h3, hn] at hd
            refine ⟨⟨[], ds, ?_, h2, h3, Or.inl ⟨Or.inl rfl, by rw [← Option.some.inj hd]⟩⟩, by omega, by omega⟩
            rintro rfl
            cases h3
          · cases h
  · rintro ⟨⟨s, ds, hne, h2, rfl, h⟩, l1, l2⟩
    obtain ⟨d, ds', rfl⟩ : ∃ d ds', ds = d :: ds' := by
      cases ds with
      | nil => exact absurd rfl hne
      | cons d ds' => exact ⟨d, ds', rfl⟩
    have hd := digits_of (d :: ds') 0 h2
    obtain ⟨n, hn⟩ : ∃ n, n = (d :: ds').foldl (fun a d => 10 * a + d) 0 := ⟨_, rfl⟩
    rw [← hn] at hd h
    have hdig : (48 + d).toUInt8 ≠ 45 ∧ (48 + d).toUInt8 ≠ 43 := by
      have := h2 d (by simp)
      interval_cases d <;> decide
    rcases h with ⟨rfl | rfl, rfl⟩ | ⟨rfl, rfl⟩
    · rw [List.nil_append]
      rw [List.map_cons] at hd ⊢
      unfold parseI32
      simp only
      rw [if_neg hdig.1, if_neg hdig.2, hd, Option.bind_some, if_pos (by omega)]
    · show parseI32 (43 :: (d :: ds').map _) = _
      unfold parseI32
      simp only
      rw [if_neg (by decide), if_pos trivial, if_neg (by simp), hd, Option.bind_some, if_pos (by omega)]
    · show parseI32 (45 :: (d :: ds').map _) = _
      unfold parseI32
      simp only
      rw [if_pos trivial, if_neg (by simp), hd, Option.bind_some, if_pos (by omega)]

theorem extraOne_guard (t : List UInt8) (r : Primed) : extraOne (sGuard ++ t) r =
    if 0 ≤ (parseI32 t).getD 0 ∧ (parseI32 t).getD 0 ≤ 7 then .ok { r with coding := setGuard ((parseI32 t).getD 0).toNat r.coding } else .error .refused := by
  unfold extraOne
  rw [if_neg (by simp [sPlt, sGuard]), if_neg (by simp [sTlm, sGuard]), if_pos (List.prefix_append _ _)]
  rfl

theorem guard_text {n : Nat} (h : n ≤ 7) : (Opt.guard n).text = sGuard ++ [(48 + n).toUInt8] ∧ parseI32 [(48 + n).toUInt8] = some (n : Int) := by
  interval_cases n <;> exact ⟨by decide, by decide⟩

theorem guard_guard (a : Option Nat) (n : Nat) : (fun t : Hdr.Tccp => { t with numgbits := n }) ∘ withGuard a = withGuard (some n) := by
  funext t; rfl

theorem guard_tile (a : Option Nat) (n : Nat) : (fun t : Tile => ({ t with tccps := t.tccps.map fun t => { t with numgbits := n } } : Tile)) ∘
    (fun t : Tile => ({ t with tccps := t.tccps.map (withGuard a) } : Tile)) = fun t : Tile => ({ t with tccps := t.tccps.map (withGuard (some n)) } : Tile) := by
  funext t
  simp only [Function.comp_apply, List.map_map, guard_guard]

/-- **C73.** Options that make sense are all accepted, and the last one of its kind counts: whether packet lengths and tile-part lengths are
written, and the guard bits in every component of every tile; nothing else is changed. -/
theorem C73_options_set (l : List Opt) (hl : ∀ o ∈ l, o.Valid) (c : Coding) (plt : Bool) :
    extra (l.map Opt.text) ⟨c, plt⟩ = .ok
      { coding := { c with
          enc := { c.enc with tccps := c.enc.tccps.map (withGuard (lastGuard none l)) }
          tlm := lastTlm c.tlm l
          tiles := c.tiles.map fun t => { t with tccps := t.tccps.map (withGuard (lastGuard none l)) } }
        plt := lastPlt plt l } := by
  have id1 : ∀ ts : List Hdr.Tccp, ts.map (withGuard none) = ts := fun ts => by
    rw [show withGuard none = id from funext fun t => rfl, List.map_id]
  suffices h : ∀ (l : List Opt), (∀ o ∈ l, o.Valid) → ∀ (g : Option Nat) (tlm plt : Bool),
      extra (l.map Opt.text) ⟨{ c with
          enc := { c.enc with tccps := c.enc.tccps.map (withGuard g) }
          tlm := tlm
          tiles := c.tiles.map fun t => { t with tccps := t.tccps.map (withGuard g) } }, plt⟩ = .ok
      { coding := { c with
          enc := { c.enc with tccps := c.enc.tccps.map (withGuard (lastGuard g l)) }
          tlm := lastTlm tlm l
          tiles := c.tiles.map fun t => { t with tccps := t.tccps.map (withGuard (lastGuard g l)) } }
        plt := lastPlt plt l } by
    have := h l hl none c.tlm plt
    simp only [id1, List.map_id'] at this
    rw [this]
  clear hl l plt
  intro l
  induction l with
  | nil => intro _ g tlm plt; rfl
  | cons o l ih =>
    intro hl g tlm plt
    have hl' : ∀ o ∈ l, o.Valid := fun x hx => hl x (by simp [hx])
    rw [List.map_cons]
    unfold extra
    cases o with
    | plt b =>
      have : extraOne (Opt.plt b).text = fun r => .ok { r with plt := b } := by
        cases b <;> (funext r; rfl)
      rw [this]
      exact ih hl' g tlm b
    | tlm b =>
      have : extraOne (Opt.tlm b).text = fun r => .ok { r with coding := { r.coding with tlm := b } } := by
        cases b <;> (funext r; rfl)
      rw [this]
      exact ih hl' g b plt
    | guard n =>
      have hn : (Opt.guard n).Valid := hl _ (by simp)
      change n ≤ 7 at hn
      obtain ⟨h1, h2⟩ := guard_text hn
      rw [h1, extraOne_guard, h2, Option.getD_some, if_pos (by omega), Int.toNat_natCast]
      refine Eq.trans ?_ (ih hl' (some n) tlm plt)
      show extra (l.map Opt.text) _ = _
      unfold setGuard
      simp only [List.map_map, guard_guard, guard_tile]

/-- **C73.** Nothing else is accepted, but for one thing: what follows `GUARD_BITS=` need not be a number. -/
theorem C73_options_refused (s : List UInt8) (l : List (List UInt8)) (r r' : Primed) (h : extra l r = .ok r') (hs : s ∈ l) :
    (∃ b, s = (Opt.plt b).text ∨ s = (Opt.tlm b).text) ∨
    ∃ t, s = ascii ['G', 'U', 'A', 'R', 'D', '_', 'B', 'I', 'T', 'S', '='] ++ t ∧ ∀ v, Numeral t v → -2 ^ 31 ≤ v ∧ v < 2 ^ 31 → 0 ≤ v ∧ v ≤ 7 := by
  induction l generalizing r with
  | nil => cases hs
  | cons a l ih =>
    unfold extra at h
    cases ha : extraOne a r with
    | error e => rw [ha] at h; cases h
    | ok r1 =>
      rw [ha] at h
      rcases List.mem_cons.1 hs with rfl | hs
      · unfold extraOne at ha
        split at ha
        · split at ha
          · rename_i h1; exact Or.inl ⟨true, Or.inl h1⟩
          · split at ha
            · rename_i h1; exact Or.inl ⟨false, Or.inl h1⟩
            · cases ha
        · split at ha
          · split at ha
            · rename_i h1; exact Or.inl ⟨true, Or.inr h1⟩
            · split at ha
              · rename_i h1; exact Or.inl ⟨false, Or.inr h1⟩
              · cases ha
          · split at ha
            · rename_i hp
              obtain ⟨t, rfl⟩ := hp
              refine Or.inr ⟨t, rfl, fun v hv hr => ?_⟩
              have hpv := (parse_iff t v).2 ⟨hv, hr⟩
              have e : (sGuard ++ t).drop 11 = t := rfl
              simp only [e, hpv, Option.getD_some] at ha
              split at ha
              · assumption
              · cases ha
            · cases ha
      · exact ih _ h hs

/-- **False of the code.** `GUARD_BITS=` followed by anything that is not a number, or by a number of more than 31 bits, is not refused: the
image is then coded without guard bits. -/
theorem C73_nonsense_accepted (t : List UInt8) (ht : ∀ v, Numeral t v → v < -2 ^ 31 ∨ 2 ^ 31 ≤ v) (r : Primed) :
    extra [ascii ['G', 'U', 'A', 'R', 'D', '_', 'B', 'I', 'T', 'S', '='] ++ t] r = .ok { r with coding := setGuard 0 r.coding } := by
  have hn : parseI32 t = none := by
    cases h : parseI32 t with
    | none => rfl
    | some v =>
      obtain ⟨h1, h2⟩ := (parse_iff t v).1 h
      have := ht v h1
      omega
  show extra [sGuard ++ t] r = _
  unfold extra
  rw [extraOne_guard, hn]
  rfl

/-! ## The conditions are met -/

-- packet lengths, then no packet lengths, seven guard bits, tile-part lengths
example : [Opt.plt true, .guard 7, .tlm true, .plt false].map Opt.text = [
    [80, 76, 84, 61, 89, 69, 83], [71, 85, 65, 82, 68, 95, 66, 73, 84, 83, 61, 55], [84, 76, 77, 61, 89, 69, 83], [80, 76, 84, 61, 78, 79]] ∧
    (∀ o ∈ [Opt.plt true, .guard 7, .tlm true, .plt false], o.Valid) ∧ lastGuard none [Opt.plt true, .guard 7, .tlm true, .plt false] = some 7 ∧
    lastPlt true [Opt.plt true, .guard 7, .tlm true, .plt false] = false := by
  refine ⟨by decide, fun o ho => ?_, rfl, rfl⟩
  simp at ho
  rcases ho with rfl | rfl | rfl | rfl <;> simp [Opt.Valid]

-- `GUARD_BITS=many` is accepted, `GUARD_BITS=8` and `GUARD_BIT=3` are not
example (r : Primed) : (∃ r', extra [sGuard ++ ascii ['m', 'a', 'n', 'y']] r = .ok r' ∧ r'.coding = setGuard 0 r.coding) ∧
    extra [sGuard ++ ascii ['8']] r = .error .refused ∧ extra [ascii ['G', 'U', 'A', 'R', 'D', '_', 'B', 'I', 'T', '=', '3']] r = .error .refused := by
  refine ⟨⟨_, rfl, rfl⟩, rfl, rfl⟩

example : ∀ v, Numeral (ascii ['m', 'a', 'n', 'y']) v → v < -2 ^ 31 ∨ 2 ^ 31 ≤ v := by
  intro v hv
  by_contra hc
  have := (parse_iff _ v).2 ⟨hv, by omega⟩
  rw [show parseI32 (ascii ['m', 'a', 'n', 'y']) = none from rfl] at this
  cases this

end Jp2.Setup

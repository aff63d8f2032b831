import Verif.Jp2.SetupComp
/-!
# What the setup of the encoder comes to
-/
namespace Jp2.Setup
open Jp2.Hdr (R refuseIf Comp Tccp Dec Enc cdiv levelShift ok_bind refuse_bind Writable SharedStyle StyleOk QuantOk)

/-- A component as it is set up. -/
structure Made (p : Params) (i : Nat) (c : Comp) (t : Tccp) : Prop where
  asked : CompAsked p i c t
  csty : t.csty = u32 (p.csty % 2)
  style : StyleOk {} t
  quant : QuantOk t
  prcs_len : t.prcs.length = 33
  prcs : precincts p (u32 p.numres) = .ok t.prcs

theorem pow_le_15 {w : Nat} {s : Int} (h : (2 : Int) ^ w ≤ s) (h' : s < 2 ^ 16) : w ≤ 15 := by
  by_contra hc
  have : (2 : Int) ^ 16 ≤ 2 ^ w := pow_le_pow_right₀ (by omega) (by omega)
  omega

theorem pow_pos' {w : Nat} {s : Int} (h : s < (2 : Int) ^ (w + 1)) (h' : 2 ≤ s) : 0 < w := by
  rcases Nat.eq_zero_or_pos w with rfl | h0
  · norm_num at h; omega
  · exact h0

theorem component_spec {p : Params} {im : Image} (hf : Fits p im) (i : Nat) {c : Comp} (hc : c ∈ im.comps) :
    ∃ t, component p i c = .ok t ∧ Made p i c t := by
  obtain ⟨⟨p1, p2⟩, hs, _⟩ := hf.comps c hc
  obtain ⟨a, b, ea, eb, ha, hb, hab⟩ := hf.cblk
  have hr := hf.res
  have hmode := hf.mode
  have hroi := hf.roi
  have hcs := hf.csty
  obtain ⟨n, hn⟩ : ∃ n, n = u32 p.numres := ⟨_, rfl⟩
  have hn' : (n : Int) = p.numres := by rw [hn]; exact u32_of (by omega) (by omega)
  have hprec : c.prec ≤ 29 := by split at p2 <;> omega
  have hsh : shift c = .ok (levelShift c) := by
    unfold shift levelShift
    split
    · rw [if_neg (by omega)]
      have h1 : (2 : Int) ^ (c.prec - 1) ≤ 2 ^ 28 := pow_le_pow_right₀ (by omega) (by omega)
      have h2 : (0 : Int) < 2 ^ (c.prec - 1) := by positivity
      have h3 : (2 : Int) ^ 28 < 2 ^ 31 := by norm_num
      rw [wrap32_of_I32 _ (by unfold I32; exact ⟨by linarith, by linarith⟩)]
    · rfl
  obtain ⟨l, hl, hlen, hprs⟩ := precincts_spec hf hn'
  have hst : ∃ s, steps (if p.irreversible ≠ 0 then 2 else 0) (if p.irreversible ≠ 0 then 0 else 1) n c.prec = .ok s ∧ s.length = 97 ∧
      (∀ x ∈ s, x.1 ≤ 31 ∧ x.2 ≤ 2047) ∧
      ∀ b < 3 * n - 2, ∃ x, s[b]? = some x ∧ StepFor (p.irreversible != 0) n c.prec b x := by
    by_cases hi : p.irreversible = 0
    · rw [if_neg (by simpa using hi), if_neg (by simpa using hi)]
      have : (p.irreversible != 0) = false := by simp [hi]
      rw [this]
      exact steps_spec (by omega) (fun b => bandStep_rev n c.prec b hprec)
    · rw [if_pos hi, if_pos hi]
      have : (p.irreversible != 0) = true := by simp [hi]
      rw [this]
      rw [if_neg hi] at p2
      exact steps_spec (by omega) (fun b => bandStep_irr n c.prec b p2)
  obtain ⟨s, hs1, hs2, hs3, hs4⟩ := hst
  have hcw : log2 p.cblockw = .ok a := by rw [ea]; exact log2_pow (by omega)
  have hch : log2 p.cblockh = .ok b := by rw [eb]; exact log2_pow (by omega)
  have hm : ((u32 p.mode : Nat) : Int) = p.mode := u32_of (by omega) (by omega)
  refine ⟨{ csty := u32 (p.csty % 2), numres := n, cblkw := a, cblkh := b, cblksty := u32 p.mode,
            qmfbid := if p.irreversible ≠ 0 then 0 else 1, prcs := l, qntsty := if p.irreversible ≠ 0 then 2 else 0,
            numgbits := 2, steps := s, roishift := if (i : Int) = p.roiComp then u32 p.roiShift else 0, dcShift := levelShift c }, ?_, ?_⟩
  · unfold component
    rw [hsh, ok_bind]
    dsimp only
    rw [hcw, ok_bind, hch, ok_bind, ← hn, if_neg (by omega), hl, ok_bind, hs1, ok_bind]
    rfl
  refine ⟨⟨hn', ea.symm, eb.symm, hm, ?_, ?_, ?_, rfl, hs4, ?_, rfl⟩, rfl, ⟨?_, ?_, ?_, ?_, hab, ?_, ?_, ?_⟩, ⟨?_, ?_, hs2, hs3⟩, hlen, ?_⟩
  · by_cases hi : p.irreversible = 0 <;> simp [hi]
  · intro r hr'
    have := hprs r (by omega)
    have e : (p.numres - 1).toNat = n - 1 := by omega
    rw [e]
    exact this
  · by_cases hi : p.irreversible = 0 <;> simp [hi]
  · dsimp only
    split
    · exact u32_of (by omega) (by omega)
    · rfl
  · dsimp only; omega
  · dsimp only; omega
  · dsimp only; omega
  · dsimp only; omega
  · dsimp only; omega
  · dsimp only; split <;> omega
  · dsimp only
    intro r q hq hrn
    obtain ⟨w, h, h1, h2⟩ := hprs r hrn
    rw [h1] at hq
    obtain rfl : (w, h) = q := by simpa using hq
    by_cases hcp : p.csty % 2 = 1
    · rw [if_pos hcp] at h2
      obtain ⟨⟨a1, a2⟩, b1, b2⟩ := h2
      have hk : ((n - 1 - r : Nat) : Int) < p.numres := by omega
      obtain ⟨_, x2, x3⟩ := hf.prec_size hcp (n - 1 - r) hk _ (Or.inl rfl)
      obtain ⟨_, y2, y3⟩ := hf.prec_size hcp (n - 1 - r) hk _ (Or.inr rfl)
      refine ⟨pow_le_15 a1 x2, pow_le_15 b1 y2, fun h0 => ⟨pow_pos' a2 (x3 (by omega)), pow_pos' b2 (y3 (by omega))⟩⟩
    · rw [if_neg hcp] at h2
      obtain ⟨rfl, rfl⟩ := h2
      exact ⟨by omega, by omega, fun _ => ⟨by omega, by omega⟩⟩
  · dsimp only; split <;> omega
  · dsimp only; omega
  · rw [← hn]; exact hl

theorem components_spec {p : Params} {im : Image} (hf : Fits p im) : ∀ (cs : List Comp) (i : Nat), (∀ c ∈ cs, c ∈ im.comps) →
    ∃ ts, components p i cs = .ok ts ∧ ts.length = cs.length ∧
      ∀ j c, cs[j]? = some c → ∃ t, ts[j]? = some t ∧ Made p (i + j) c t
  | [], i, _ => ⟨[], rfl, rfl, by simp⟩
  | c :: cs, i, h => by
    obtain ⟨t, ht, hm⟩ := component_spec hf i (h c (by simp))
    obtain ⟨ts, hts, hl, hms⟩ := components_spec hf cs (i + 1) (fun x hx => h x (by simp [hx]))
    refine ⟨t :: ts, by unfold components; rw [ht, ok_bind, hts, ok_bind]; rfl, by simp [hl], ?_⟩
    intro j x hx
    cases j with
    | zero => simp at hx; subst hx; exact ⟨t, by simp, hm⟩
    | succ j =>
      obtain ⟨t', h1, h2⟩ := hms j x (by simpa using hx)
      refine ⟨t', by simpa using h1, ?_⟩
      have : i + (j + 1) = i + 1 + j := by omega
      rw [this]
      exact h2

/-- The parameters with the number of layers put right. -/
def settled (p : Params) : Params := if p.layers = 0 then { p with layers := 1 } else p

theorem settled_layers (p : Params) : (settled p).layers = if p.layers = 0 then 1 else p.layers := by
  unfold settled; split <;> rfl

theorem settled_eq (p : Params) : settled p = { p with layers := if p.layers = 0 then 1 else p.layers } := by
  unfold settled; split <;> rfl

theorem fixLayers_settled {p : Params} (h : 0 ≤ p.layers ∧ p.layers ≤ 100) : fixLayers p = .ok (settled p) := by
  have h1 : ¬ ((settled p).layers < 1 ∨ 100 < (settled p).layers) := by rw [settled_layers]; split <;> omega
  exact if_neg h1

theorem deprecated_none {p : Params} (h : p.cinema = 0 ∧ p.cpRsiz = 0) : deprecated p = p := by
  unfold deprecated
  split
  · rename_i h0
    have e : (if p.cpRsiz = 3 then 3 else if p.cpRsiz = 4 then 4 else if p.cpRsiz = 33024 then 0x8100 else
        if p.cinema = 1 ∨ p.cinema = 2 then 3 else if p.cinema = 3 then 4 else 0) = p.rsiz := by
      rw [h.1, h.2, h0]; rfl
    dsimp only
    rw [e]
  · rfl

theorem profiles_none {p : Params} (im : Image) (h : p.rsiz ≤ 2) : profiles p im = .ok p := by
  unfold profiles
  rw [if_neg (by unfold isCinema; simp; omega), if_neg (by omega), if_neg (by omega), if_neg (by unfold isImf; simp; omega),
    if_neg (by omega)]

theorem checkRanges_fits {p : Params} {im : Image} (hf : Fits p im) : checkRanges p = .ok () := by
  obtain ⟨a, b, ea, eb, ha, hb, hab⟩ := hf.cblk
  have hr := hf.res
  have hal := hf.alloc
  have w4 : (2 : Int) ^ 2 ≤ 2 ^ a := pow_le_pow_right₀ (by omega) ha
  have h4 : (2 : Int) ^ 2 ≤ 2 ^ b := pow_le_pow_right₀ (by omega) hb
  have w10 : (2 : Int) ^ a ≤ 2 ^ 10 := pow_le_pow_right₀ (by omega) (by omega)
  have h10 : (2 : Int) ^ b ≤ 2 ^ 10 := pow_le_pow_right₀ (by omega) (by omega)
  have h12 : (2 : Int) ^ a * 2 ^ b ≤ 2 ^ 12 := by rw [← pow_add]; exact pow_le_pow_right₀ (by omega) hab
  unfold checkRanges
  rw [refuse_bind (by omega), refuse_bind (by omega), refuse_bind (by omega), refuse_bind (by rw [ea, eb]; omega)]
  rw [ea, eb, log2_pow (by omega), log2_pow (by omega), ok_bind, ok_bind, refuse_bind (by simp), refuse_bind (by simp),
    refuse_bind (by simp [hal]), refuse_bind (by simp [hal])]
  unfold refuseIf
  rw [if_neg (by simp [hal])]

theorem cdiv_pos {a b : Nat} (ha : 0 < a) (hb : 0 < b) : 0 < cdiv a b := by
  unfold cdiv
  exact Nat.div_pos (by omega) hb

theorem across_spec {a b d : Nat} (h : b ≤ a) (ha : a < 2 ^ 32) (hd0 : 0 < d) (hd : d < 2 ^ 32) : across a b d = .ok (cdiv (a - b) d) := by
  obtain ⟨q, h1, h2⟩ := Math.C26_uint_ceildiv (a - b) d (by omega) hd (by omega)
  unfold across
  rw [if_neg (by omega), h1]
  have : q = cdiv (a - b) d := by
    unfold cdiv
    obtain ⟨x1, x2⟩ := h2
    have y1 : a - b ≤ q * d := by exact_mod_cast x1
    have y2 : q * d < a - b + d := by
      by_contra hc
      have : ((a - b : Nat) : Int) ≤ ((q : Int) - 1) * d := by
        have : ((a - b : Nat) : Int) + d ≤ q * d := by exact_mod_cast Nat.not_lt.1 hc
        linarith
      have := x2 _ this
      omega
    symm
    rw [Nat.div_eq_iff hd0]
    refine ⟨by omega, by omega⟩
  rw [this]

/-- The tile grid asked for. -/
structure GridAsked (p : Params) (im : Image) (g : Grid) : Prop where
  size : (g.tdx : Int) = (askedTile p im).1 ∧ (g.tdy : Int) = (askedTile p im).2
  origin : (g.tx0 : Int) = p.tx0 ∧ (g.ty0 : Int) = p.ty0
  number : g.tw = cdiv (im.x1 - g.tx0) g.tdx ∧ g.th = cdiv (im.y1 - g.ty0) g.tdy
  limits : g.tx0 ≤ im.x0 ∧ im.x0 < g.tx0 + g.tdx ∧ g.tdx < 2 ^ 32 ∧ g.ty0 ≤ im.y0 ∧ im.y0 < g.ty0 + g.tdy ∧ g.tdy < 2 ^ 32 ∧
    0 < g.tw * g.th ∧ g.tw * g.th ≤ 65535

theorem cdiv_self {a : Nat} (h : 0 < a) : cdiv a a = 1 := by
  unfold cdiv
  rw [Nat.div_eq_iff h]
  omega

theorem grid_spec {p : Params} {im : Image} (hf : Fits p im) : ∃ g, grid p im = .ok g ∧ GridAsked p im g := by
  have hx := hf.image_x
  have hy := hf.image_y
  have ox := hf.origin_x
  have oy := hf.origin_y
  obtain ⟨X, hX⟩ : ∃ X, X = u32 p.tx0 := ⟨_, rfl⟩
  obtain ⟨Y, hY⟩ : ∃ Y, Y = u32 p.ty0 := ⟨_, rfl⟩
  have hX' : (X : Int) = p.tx0 := by rw [hX]; exact u32_of (by omega) (by omega)
  have hY' : (Y : Int) = p.ty0 := by rw [hY]; exact u32_of (by omega) (by omega)
  unfold grid
  rw [← hX, ← hY]
  by_cases ht : p.tileSizeOn = true
  · rw [if_pos ht]
    obtain ⟨t1, t2, t3, t4, t5⟩ := hf.tiles ht
    obtain ⟨W, hW⟩ : ∃ W, W = u32 p.tdx := ⟨_, rfl⟩
    obtain ⟨H, hH⟩ : ∃ H, H = u32 p.tdy := ⟨_, rfl⟩
    have hW' : (W : Int) = p.tdx := by rw [hW]; exact u32_of (by omega) (by omega)
    have hH' : (H : Int) = p.tdy := by rw [hH]; exact u32_of (by omega) (by omega)
    rw [← hW, ← hH]
    have e1 : p.tx0.toNat = X := by omega
    have e2 : p.ty0.toNat = Y := by omega
    have e3 : p.tdx.toNat = W := by omega
    have e4 : p.tdy.toNat = H := by omega
    rw [e1, e2, e3, e4] at t5
    have c1 : 0 < cdiv (im.x1 - X) W := cdiv_pos (by omega) (by omega)
    have c2 : 0 < cdiv (im.y1 - Y) H := cdiv_pos (by omega) (by omega)
    rw [refuse_bind (by omega), refuse_bind (by omega), across_spec (by omega) (by omega) (by omega) (by omega), ok_bind,
      across_spec (by omega) (by omega) (by omega) (by omega), ok_bind, if_neg (by omega),
      refuse_bind (by rw [Nat.not_lt, Nat.le_div_iff_mul_le c2]; exact t5)]
    refine ⟨_, rfl, ?_, ⟨hX', hY'⟩, ⟨rfl, rfl⟩, ?_⟩
    · unfold askedTile
      rw [if_pos ht]
      exact ⟨hW', hH'⟩
    · dsimp only
      exact ⟨by omega, by omega, by omega, by omega, by omega, by omega, Nat.mul_pos c1 c2, t5⟩
  · rw [if_neg ht]
    have e1 : (im.x1 + 2 ^ 32 - X) % 2 ^ 32 = im.x1 - X := by omega
    have e2 : (im.y1 + 2 ^ 32 - Y) % 2 ^ 32 = im.y1 - Y := by omega
    rw [e1, e2]
    refine ⟨_, rfl, ?_, ⟨hX', hY'⟩, ?_, ?_⟩
    · unfold askedTile
      rw [if_neg ht]
      dsimp only
      omega
    · dsimp only
      rw [cdiv_self (by omega), cdiv_self (by omega)]
      exact ⟨rfl, rfl⟩
    · dsimp only
      omega

theorem mapM_const {α β : Type} {f : α → R β} {b : β} : ∀ l : List α, (∀ a ∈ l, f a = .ok b) → l.mapM f = .ok (List.replicate l.length b)
  | [], _ => rfl
  | a :: l, h => by
    rw [List.mapM_cons, h a (by simp), ok_bind, mapM_const l (fun x hx => h x (by simp [hx])), ok_bind]
    rfl

theorem settled_fits {p : Params} {im : Image} (hf : Fits p im) : Fits (settled p) im := by
  rw [settled_eq]
  obtain ⟨a1, a2, a3, a4, a5, a6, a7, a8, a9, a10, a11, a12, a13, a14, a15, a16, a17, a18, a19, a20, a21, a22⟩ := hf
  exact ⟨a1, a2, a3, a4, a5, a6, a7, a8, a9, a10, by dsimp only; split <;> omega, a12, a13, a14, a15, a16, a17, a18, a19, a20, a21, a22⟩

/-- What is set up. -/
theorem setup_spec {p : Params} {im : Image} (hf : Fits p im) : ∃ c ts, setup p im = .ok c ∧ components p 0 im.comps = .ok ts ∧
    GridAsked p im c.grid ∧ c.tlm = false ∧ c.tp = (if p.tpOn then some p.tpFlag else none) ∧
    c.tiles = List.replicate (c.grid.tw * c.grid.th) ⟨[], ts⟩ ∧
    c.enc = { rsiz := p.rsiz, x0 := im.x0, y0 := im.y0, x1 := im.x1, y1 := im.y1, tdx := c.grid.tdx, tdy := c.grid.tdy, tx0 := c.grid.tx0,
              ty0 := c.grid.ty0, comps := im.comps, csty := u32 p.csty, prg := u32 p.prg,
              numlayers := u32 (if p.layers = 0 then 1 else p.layers), mct := transform p im,
              tccps := ts, comment := some (p.comment.getD defaultComment) } := by
  obtain ⟨ts, hts, _, _⟩ := components_spec (settled_fits hf) im.comps 0 (fun _ h => h)
  obtain ⟨g, hg, hga⟩ := grid_spec (settled_fits hf)
  have hprof := hf.profile
  have hch := hf.changes
  have hpos := hga.limits.2.2.2.2.2.2.1
  have hts' : components p 0 im.comps = .ok ts := by
    rw [← hts]
    have : ∀ (cs : List Comp) (i : Nat), components p i cs = components (settled p) i cs := by
      intro cs
      induction cs with
      | nil => intro i; rfl
      | cons c cs ih =>
        intro i
        unfold components
        rw [ih]
        have : component p i c = component (settled p) i c := by rw [settled_eq]; rfl
        rw [this]
    exact this _ _
  have htile : ∀ t, tile (settled p) im t = .ok ⟨[], ts⟩ := by
    intro t
    unfold tile
    have : (settled p).numpocs = 0 := by rw [settled_eq]; exact hch
    rw [this]
    unfold tilePocs
    rw [ok_bind, hts, ok_bind]
    rfl
  have hga' : GridAsked p im g := by
    have : askedTile (settled p) im = askedTile p im := by rw [settled_eq]; rfl
    refine ⟨?_, ?_, hga.number, hga.limits⟩
    · rw [← this]; exact hga.size
    · have := hga.origin
      rw [settled_eq] at this
      exact this
  obtain ⟨n, hn⟩ : ∃ n, g.tw * g.th = n + 1 := ⟨g.tw * g.th - 1, by omega⟩
  have hall : (List.range (g.tw * g.th)).mapM (tile (settled p) im) = .ok (List.replicate (n + 1) ⟨[], ts⟩) := by
    rw [mapM_const _ (fun a _ => htile a), List.length_range, hn]
  have hprof' : profiles (settled p) im = .ok (settled p) := profiles_none im (by rw [settled_eq]; exact hprof.1)
  have hci : (isCinema (settled p).rsiz || isImf (settled p).rsiz) = false := by
    have : (settled p).rsiz = p.rsiz := by rw [settled_eq]
    rw [this]
    unfold isCinema isImf
    simp
    omega
  have hl := hf.comps_len
  refine ⟨{
        enc := { rsiz := (settled p).rsiz, x0 := im.x0, y0 := im.y0, x1 := im.x1, y1 := im.y1, tdx := g.tdx, tdy := g.tdy, tx0 := g.tx0,
                 ty0 := g.ty0, comps := im.comps, csty := u32 (settled p).csty, prg := u32 (settled p).prg,
                 numlayers := u32 (settled p).layers, mct := transform (settled p) im,
                 tccps := ts, comment := some ((settled p).comment.getD defaultComment) }
        grid := g
        tlm := false
        tp := if (settled p).tpOn then some (settled p).tpFlag else none
        tiles := List.replicate (n + 1) ⟨[], ts⟩ }, ts, ?_, hts', ?_⟩
  · unfold setup
    rw [checkRanges_fits hf, ok_bind, if_neg (by intro h; rw [h] at hl; simp at hl), deprecated_none hprof.2,
      fixLayers_settled hf.layers, ok_bind, hprof', ok_bind, hg, ok_bind, refuse_bind (by omega), hall, ok_bind, hci]
    rfl
  refine ⟨hga', rfl, ?_, ?_, ?_⟩
  · dsimp only
    rw [settled_eq]
  · dsimp only
    rw [hn]
  · dsimp only
    rw [settled_eq]
    rfl

end Jp2.Setup

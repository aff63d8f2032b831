import Verif.Jp2.HdrSafe2
/-!
# Reading any bytes as a header: `SIZ`, the marker loop, packed packet headers
-/
namespace Jp2.Hdr

theorem cdiv_le {a b : Nat} (hb : 1 ≤ b) : cdiv a b ≤ a := by
  unfold cdiv
  rcases Nat.eq_zero_or_pos a with h | h
  · subst h; rw [Nat.div_eq_of_lt (by omega)]
  · rw [Nat.div_le_iff_le_mul_add_pred (by omega)]
    have : a * 1 ≤ b * a := by rw [Nat.mul_comm b a]; exact Nat.mul_le_mul_left a hb
    omega

theorem ceildiv_eq {a b : Nat} (hb : 1 ≤ b) (ha : a < 2 ^ 32) : ceildiv a b = .ok (cdiv a b) := by
  unfold ceildiv
  rw [if_neg (by omega)]
  have := cdiv_le (a := a) hb
  unfold cdiv at this ⊢
  rw [Nat.mod_eq_of_lt (by omega)]

theorem cdiv_mono {a b c : Nat} (h : a ≤ b) : cdiv a c ≤ cdiv b c := Nat.div_le_div_right (by omega)

theorem ceildivpow2_eq {m : Mode} {a b : Nat} (ha : a < 2 ^ 32) (hb : b < 64) :
    ceildivpow2 m a b = .ok (cdiv a (2 ^ b)) := by
  unfold ceildivpow2 Pi.shl64
  have hp : (2 : Nat) ^ b ≤ 2 ^ 63 := Nat.pow_le_pow_right (by omega) (by omega)
  have h1 : 1 ≤ (2 : Nat) ^ b := Nat.one_le_two_pow
  rw [if_pos hb]
  dsimp only
  unfold Pi.shr64
  rw [if_pos hb]
  dsimp only
  have e1 : (1 * 2 ^ b) % 2 ^ 64 = 2 ^ b := by rw [Nat.one_mul]; exact Nat.mod_eq_of_lt (by omega)
  rw [e1]
  have e2 : (a + 2 ^ b + (2 ^ 64 - 1)) % 2 ^ 64 = a + 2 ^ b - 1 := by
    rw [show a + 2 ^ b + (2 ^ 64 - 1) = (a + 2 ^ b - 1) + 2 ^ 64 by omega, Nat.add_mod_right]
    exact Nat.mod_eq_of_lt (by omega)
  rw [e2]
  have := cdiv_le (a := a) h1
  unfold cdiv at this ⊢
  rw [Nat.mod_eq_of_lt (by omega)]

/-- A component straight from `SIZ`. -/
structure RawComp (u : User) (c : Comp) : Prop where
  prec : 1 ≤ c.prec ∧ c.prec ≤ 31
  sgnd : c.sgnd ≤ 1
  dx : 1 ≤ c.dx ∧ c.dx ≤ 255
  dy : 1 ≤ c.dy ∧ c.dy ≤ 255
  factor : c.factor = u.reduce

theorem readComps_post {u : User} : ∀ (n : Nat) (p : List UInt8), 3 * n ≤ p.length →
    Post (readComps u n p) (fun l => l.length = n ∧ ∀ c ∈ l, RawComp u c)
  | 0, p, _ => by unfold readComps; exact Post.ok ⟨rfl, by simp⟩
  | n + 1, p, h => by
    unfold readComps
    refine Post.bind (next_post (by omega) (by omega)) fun ⟨s, p1⟩ ⟨hs, hp1⟩ => ?_
    dsimp only at hs hp1 ⊢
    refine Post.bind (next_post (by omega) (by omega)) fun ⟨dx, p2⟩ ⟨_, hp2⟩ => ?_
    dsimp only at hp2 ⊢
    refine Post.bind (next_post (by omega) (by omega)) fun ⟨dy, p3⟩ ⟨_, hp3⟩ => ?_
    dsimp only at hp3 ⊢
    refine Post.bind (refuseIf_post _) fun _ h1 => ?_
    refine Post.bind (refuseIf_post _) fun _ h2 => ?_
    refine Post.bind (readComps_post n p3 (by omega)) fun l ⟨hl, hq⟩ => ?_
    refine Post.pure ⟨by simp [hl], ?_⟩
    intro c hc
    rcases List.mem_cons.1 hc with e | e
    · subst e
      refine ⟨?_, ?_, ?_, ?_, rfl⟩ <;> dsimp only <;> omega
    · exact hq c e

theorem updateComp_eq {u : User} {x0 y0 x1 y1 : Nat} {c : Comp} (hu : u.reduce < 64) (hc : RawComp u c)
    (hx : x0 ≤ x1) (hy : y0 ≤ y1) (hx1 : x1 < 2 ^ 32) (hy1 : y1 < 2 ^ 32) :
    updateComp u.mode x0 y0 x1 y1 c = .ok { c with
      w := cdiv (cdiv x1 c.dx - cdiv x0 c.dx) (2 ^ u.reduce), h := cdiv (cdiv y1 c.dy - cdiv y0 c.dy) (2 ^ u.reduce),
      x0 := cdiv x0 c.dx, y0 := cdiv y0 c.dy } := by
  unfold updateComp
  rw [ceildiv_eq hc.dx.1 (by omega), ceildiv_eq hc.dy.1 (by omega), ceildiv_eq hc.dx.1 (by omega),
    ceildiv_eq hc.dy.1 (by omega)]
  have sub : ∀ {a b : Nat}, a ≤ b → b < 2 ^ 32 → (b + 2 ^ 32 - a) % 2 ^ 32 = b - a := by
    intro a b hab hb
    rw [show b + 2 ^ 32 - a = (b - a) + 2 ^ 32 by omega, Nat.add_mod_right]
    exact Nat.mod_eq_of_lt (by omega)
  have a1 := cdiv_le (a := x1) hc.dx.1
  have a2 := cdiv_le (a := y1) hc.dy.1
  show (do
    let w ← ceildivpow2 u.mode ((cdiv x1 c.dx + 2 ^ 32 - cdiv x0 c.dx) % 2 ^ 32) c.factor
    let h ← ceildivpow2 u.mode ((cdiv y1 c.dy + 2 ^ 32 - cdiv y0 c.dy) % 2 ^ 32) c.factor
    pure { c with w := w, h := h, x0 := cdiv x0 c.dx, y0 := cdiv y0 c.dy } : R Comp) = _
  rw [sub (cdiv_mono hx) (by omega), sub (cdiv_mono hy) (by omega), hc.factor, ceildivpow2_eq (by omega) hu,
    ceildivpow2_eq (by omega) hu]
  rfl

theorem updateComps_eq {u : User} {x0 y0 x1 y1 : Nat} (hu : u.reduce < 64)
    (hx : x0 ≤ x1) (hy : y0 ≤ y1) (hx1 : x1 < 2 ^ 32) (hy1 : y1 < 2 ^ 32) : ∀ (cs : List Comp),
    (∀ c ∈ cs, RawComp u c) →
    updateComps u.mode x0 y0 x1 y1 cs = .ok (cs.map fun c => { c with
      w := cdiv (cdiv x1 c.dx - cdiv x0 c.dx) (2 ^ u.reduce), h := cdiv (cdiv y1 c.dy - cdiv y0 c.dy) (2 ^ u.reduce),
      x0 := cdiv x0 c.dx, y0 := cdiv y0 c.dy })
  | [], _ => rfl
  | c :: cs, h => by
    unfold updateComps
    rw [updateComp_eq hu (h c (by simp)) hx hy hx1 hy1, updateComps_eq hu hx hy hx1 hy1 cs (fun x hx => h x (by simp [hx]))]
    rfl

/-- The tiles reach the end of the image. -/
theorem tiles_end {t0 td x1 tw : Nat} (htd : 1 ≤ td) (hx1 : x1 < 2 ^ 32) (h0 : t0 < x1) (htw : tw = cdiv (x1 - t0) td) :
    min (adds ((t0 + (tw + (2 ^ 32 - 1)) % 2 ^ 32 * td) % 2 ^ 32) td) x1 = x1 := by
  have hle : tw ≤ x1 - t0 := by rw [htw]; exact cdiv_le htd
  have hdm := Nat.div_add_mod (x1 - t0 + td - 1) td
  have hm := Nat.mod_lt (x1 - t0 + td - 1) (show td > 0 by omega)
  unfold cdiv at htw
  rw [← htw] at hdm
  have hpos : 1 ≤ tw := by
    rw [htw]; exact Nat.div_pos (by omega) (by omega)
  have e1 : (tw + (2 ^ 32 - 1)) % 2 ^ 32 = tw - 1 := by
    rw [show tw + (2 ^ 32 - 1) = (tw - 1) + 2 ^ 32 by omega, Nat.add_mod_right]
    exact Nat.mod_eq_of_lt (by omega)
  rw [e1]
  have e2 : (tw - 1) * td = td * tw - td := by
    rw [Nat.sub_mul, Nat.one_mul, Nat.mul_comm]
  rw [e2]
  have hge : td * 1 ≤ td * tw := Nat.mul_le_mul_left td hpos
  obtain ⟨q, hq⟩ : ∃ q, q = td * tw := ⟨_, rfl⟩
  rw [← hq] at hdm hge ⊢
  have e3 : (t0 + (q - td)) % 2 ^ 32 = t0 + (q - td) := Nat.mod_eq_of_lt (by omega)
  rw [e3]
  unfold adds
  omega

theorem headerUpdate_eq {u : User} {d : Dec} (hu : u.reduce < 64) (hx : d.x0 < d.x1) (hx1 : d.x1 < 2 ^ 32) (hy : d.y0 < d.y1)
    (hy1 : d.y1 < 2 ^ 32) (htx : d.tx0 ≤ d.x0) (hty : d.ty0 ≤ d.y0) (htd : 1 ≤ d.tdx) (htd' : 1 ≤ d.tdy)
    (htw : d.tw = cdiv (d.x1 - d.tx0) d.tdx) (hth : d.th = cdiv (d.y1 - d.ty0) d.tdy) (hc : ∀ c ∈ d.comps, RawComp u c) :
    headerUpdate u.mode d = .ok { d with comps := d.comps.map fun c => { c with
      w := cdiv (cdiv d.x1 c.dx - cdiv d.x0 c.dx) (2 ^ u.reduce), h := cdiv (cdiv d.y1 c.dy - cdiv d.y0 c.dy) (2 ^ u.reduce),
      x0 := cdiv d.x0 c.dx, y0 := cdiv d.y0 c.dy } } := by
  unfold headerUpdate
  dsimp only
  rw [Nat.max_eq_right htx, Nat.max_eq_right hty, tiles_end htd hx1 (by omega) htw, tiles_end htd' hy1 (by omega) hth,
    updateComps_eq hu (by omega) (by omega) hx1 hy1 d.comps hc]
  rfl

theorem readSiz_post {u : User} {d : Dec} {p : List UInt8} {size : Nat} (hu : u.reduce < 64) (hp : size ≤ p.length)
    (htcp : d.tcp = {}) : Post (readSiz u d p size) (fun d' => Keep d d' ∧ Inv u d') := by
  unfold readSiz
  refine Post.bind (refuseIf_post _) fun _ h1 => ?_
  refine Post.bind (refuseIf_post _) fun _ h2 => ?_
  refine Post.bind (next_post (by omega) (by omega)) fun ⟨rsiz, p1⟩ ⟨_, hp1⟩ => ?_
  dsimp only at hp1 ⊢
  refine Post.bind (next_post (by omega) (by omega)) fun ⟨x1, p2⟩ ⟨hx1, hp2⟩ => ?_
  dsimp only at hx1 hp2 ⊢
  refine Post.bind (next_post (by omega) (by omega)) fun ⟨y1, p3⟩ ⟨hy1, hp3⟩ => ?_
  dsimp only at hy1 hp3 ⊢
  refine Post.bind (next_post (by omega) (by omega)) fun ⟨x0, p4⟩ ⟨hx0, hp4⟩ => ?_
  dsimp only at hx0 hp4 ⊢
  refine Post.bind (next_post (by omega) (by omega)) fun ⟨y0, p5⟩ ⟨hy0, hp5⟩ => ?_
  dsimp only at hy0 hp5 ⊢
  refine Post.bind (next_post (by omega) (by omega)) fun ⟨tdx, p6⟩ ⟨htdx, hp6⟩ => ?_
  dsimp only at htdx hp6 ⊢
  refine Post.bind (next_post (by omega) (by omega)) fun ⟨tdy, p7⟩ ⟨htdy, hp7⟩ => ?_
  dsimp only at htdy hp7 ⊢
  refine Post.bind (next_post (by omega) (by omega)) fun ⟨tx0, p8⟩ ⟨htx0, hp8⟩ => ?_
  dsimp only at htx0 hp8 ⊢
  refine Post.bind (next_post (by omega) (by omega)) fun ⟨ty0, p9⟩ ⟨hty0, hp9⟩ => ?_
  dsimp only at hty0 hp9 ⊢
  refine Post.bind (next_post (by omega) (by omega)) fun ⟨n, p10⟩ ⟨hn, hp10⟩ => ?_
  dsimp only at hn hp10 ⊢
  refine Post.bind (refuseIf_post _) fun _ h3 => ?_
  refine Post.bind (refuseIf_post _) fun _ h4 => ?_
  refine Post.bind (refuseIf_post _) fun _ h5 => ?_
  refine Post.bind (refuseIf_post _) fun _ h6 => ?_
  refine Post.bind (refuseIf_post _) fun _ h7 => ?_
  refine Post.bind (refuseIf_post _) fun _ h8 => ?_
  refine Post.bind (refuseIf_post _) fun _ h9 => ?_
  refine Post.bind (readComps_post n p10 (by omega)) fun comps ⟨hcl, hc⟩ => ?_
  rw [ceildiv_eq (by omega) (by omega), ceildiv_eq (by omega) (by omega)]
  show Post (refuseIf _ >>= _) _
  refine Post.bind (refuseIf_post _) fun _ h10 => ?_
  have h7' : tx0 ≤ x0 ∧ ty0 ≤ y0 ∧ x0 < tx0 + tdx ∧ y0 < ty0 + tdy := by
    unfold adds at h7; omega
  rw [headerUpdate_eq hu (by dsimp only; omega) (by dsimp only; omega) (by dsimp only; omega) (by dsimp only; omega) (by dsimp only; omega) (by dsimp only; omega) (by dsimp only; omega) (by dsimp only; omega) rfl rfl hc]
  refine Post.ok ⟨⟨rfl, rfl, rfl, rfl⟩, rfl, ⟨?_, ?_, ?_, ?_, rfl, rfl, ?_, ?_, ?_⟩, ?_⟩ <;> dsimp only
  · omega
  · omega
  · omega
  · omega
  · refine ⟨by omega, by omega, ?_⟩
    obtain ⟨a, ha⟩ : ∃ a, a = cdiv (x1 - tx0) tdx := ⟨_, rfl⟩
    obtain ⟨b, hb⟩ : ∃ b, b = cdiv (y1 - ty0) tdy := ⟨_, rfl⟩
    rw [← ha, ← hb] at h10 ⊢
    have : a ≤ 65535 / b := by omega
    exact (Nat.le_div_iff_mul_le (by omega)).1 this
  · simp [hcl]; omega
  · intro c hc'
    obtain ⟨c', hm, rfl⟩ := List.mem_map.1 hc'
    have := hc c' hm
    exact ⟨this.prec, this.sgnd, this.dx, this.dy, this.factor, rfl, rfl, rfl, rfl⟩
  · rw [htcp]
    refine ⟨by simp, ?_, Nat.zero_lt_succ _, (fun q hq => nomatch hq), Nat.zero_le _, (fun q hq => nomatch hq),
      ⟨(fun q hq => nomatch hq), (fun q hq => nomatch hq)⟩, (fun e vs hx => nomatch hx)⟩
    intro c hc'
    obtain ⟨c', hm, rfl⟩ := List.mem_map.1 hc'
    refine ⟨Or.inl rfl, by simp, ⟨by simp, by simp, by simp, ?_⟩, by simp, by simp⟩
    intro s hs
    have := List.eq_of_mem_replicate hs
    subst this
    simp

/-! ## The marker loop -/

theorem load_post {n : Nat} {buf s : List UInt8} :
    Post (load n buf s) (fun r => n ≤ s.length ∧ r.2 = s.drop n ∧ r.1 = s.take n ++ buf.drop n) := by
  unfold load
  split
  · exact Post.refused
  · exact Post.ok ⟨by omega, rfl, rfl⟩

theorem load_len {n : Nat} {buf s b : List UInt8} (h : n ≤ s.length) (hb : b = s.take n ++ buf.drop n) :
    n ≤ b.length ∧ buf.length ≤ b.length := by
  subst hb
  rw [List.length_append, List.length_take, List.length_drop]
  omega

/-- The state of the decoder between two markers. -/
structure St (u : User) (d : Dec) : Prop where
  buf : 1000 ≤ d.buf.length
  start : d.siz = false → d.tcp = {} ∧ d.hasSiz = false ∧ d.hasCod = false ∧ d.hasQcd = false
  inv : d.siz = true → Inv u d
  cod : d.hasCod = true → CodDone u d.tcp

/-- Another buffer. -/
theorem St.withBuf {u : User} {d : Dec} {b : List UInt8} (h : St u d) (hb : 1000 ≤ b.length) : St u { d with buf := b } := by
  refine ⟨hb, h.start, fun hs => ?_, h.cod⟩
  have i := h.inv hs
  exact ⟨hs, ⟨i.geom.image_x, i.geom.image_y, i.geom.tile_x, i.geom.tile_y, i.geom.count_x,
    i.geom.count_y, i.geom.count, i.geom.comps_len, fun c hc => ⟨(i.geom.comps c hc).prec, (i.geom.comps c hc).sgnd,
      (i.geom.comps c hc).dx, (i.geom.comps c hc).dy, (i.geom.comps c hc).factor, (i.geom.comps c hc).x0,
      (i.geom.comps c hc).y0, (i.geom.comps c hc).w, (i.geom.comps c hc).h⟩⟩, i.tcp⟩

/-- Other flags. -/
theorem Inv.withFlags {u : User} {d : Dec} {b : List UInt8} {p q r : Bool} (i : Inv u d) :
    Inv u { d with hasSiz := p, hasCod := q, hasQcd := r, buf := b } :=
  ⟨i.siz, ⟨i.geom.image_x, i.geom.image_y, i.geom.tile_x, i.geom.tile_y, i.geom.count_x,
    i.geom.count_y, i.geom.count, i.geom.comps_len, fun c hc => ⟨(i.geom.comps c hc).prec, (i.geom.comps c hc).sgnd,
      (i.geom.comps c hc).dx, (i.geom.comps c hc).dy, (i.geom.comps c hc).factor, (i.geom.comps c hc).x0,
      (i.geom.comps c hc).y0, (i.geom.comps c hc).w, (i.geom.comps c hc).h⟩⟩, i.tcp⟩

theorem Post.ite {α : Type} {c : Prop} [Decidable c] {a b : R α} {Q : α → Prop} (ha : c → Post a Q) (hb : ¬ c → Post b Q) :
    Post (if c then a else b) Q := by
  by_cases h : c
  · rw [if_pos h]; exact ha h
  · rw [if_neg h]; exact hb h

theorem handle_siz_post {u : User} {m : Nat} {d : Dec} {p : List UInt8} {size : Nat} (h : Inv u d)
    (hm : m ≠ 0xFF51) (hp : size ≤ p.length) (hbig : 5 ≤ p.length) :
    Post (handle u m d p size) (fun d' => Fine u d d' ∧ (m = 0xFF52 → CodDone u d'.tcp)) := by
  unfold handle
  rw [if_neg hm]
  refine Post.ite (fun _ => Post.mono (readCod_post h hp) fun d' hd => ⟨hd.1, fun _ => hd.2⟩) fun h2 => ?_
  have go : ∀ {r : R Dec}, Post r (Fine u d) → Post r (fun d' => Fine u d d' ∧ (m = 0xFF52 → CodDone u d'.tcp)) :=
    fun hr => Post.mono hr fun d' hd => ⟨hd, fun e => absurd e h2⟩
  apply go
  refine Post.ite (fun _ => readCoc_post h hp) fun _ => ?_
  refine Post.ite (fun _ => readRgn_post h hp) fun _ => ?_
  refine Post.ite (fun _ => readQcd_post h hp (by omega)) fun _ => ?_
  refine Post.ite (fun _ => readQcc_post h hp hbig) fun _ => ?_
  refine Post.ite (fun _ => readPoc_post h hp) fun _ => ?_
  refine Post.ite (fun _ => readTlm_post h hp) fun _ => ?_
  refine Post.ite (fun _ => readPlm_post h) fun _ => ?_
  refine Post.ite (fun _ => readPpm_post h hp) fun _ => ?_
  refine Post.ite (fun _ => readCrg_post h) fun _ => ?_
  refine Post.ite (fun _ => Post.ok h.fine) fun _ => ?_
  refine Post.ite (fun _ => readMct_post h hp) fun _ => ?_
  refine Post.ite (fun _ => readMcc_post h hp) fun _ => ?_
  refine Post.ite (fun _ => readMco_post h hp) fun _ => ?_
  refine Post.ite (fun _ => readCbd_post h hp) fun _ => ?_
  refine Post.ite (fun _ => Post.ok h.fine) fun _ => ?_
  refine Post.ite (fun _ => Post.ok h.fine) fun _ => ?_
  exact Post.refused

theorem handle_post {u : User} {m : Nat} {d : Dec} {b2 : List UInt8} {size : Nat} (hu : u.reduce < 64) (h : St u d)
    (h1 : ¬ allowed d.siz m = false) (hsz2 : size ≤ b2.length) (hbig : 1000 ≤ b2.length) :
    Post (handle u m { d with
      hasSiz := d.hasSiz || m == 0xFF51, hasCod := d.hasCod || m == 0xFF52,
      hasQcd := d.hasQcd || m == 0xFF5C, buf := b2 } b2 size) (fun d' => St u d') := by
  rcases Bool.eq_false_or_eq_true d.siz with hsz | hsz
  rotate_left
  · have hm : m = 0xFF51 := by
      simpa [allowed, hsz] using h1
    have hst := h.start hsz
    subst hm
    unfold handle
    rw [if_pos rfl]
    refine Post.mono (readSiz_post hu (by omega) hst.1) fun d' ⟨hk, hi⟩ => ?_
    refine ⟨?_, ?_, fun _ => hi, ?_⟩
    · rw [hk.buf]; show 1000 ≤ b2.length; omega
    · intro hx; rw [hi.siz] at hx; cases hx
    · intro hx
      have := hk.hasCod
      rw [hx] at this
      simp [hst.2.2.1] at this
  · have hm : m ≠ 0xFF51 := by
      intro hc; subst hc; simp [allowed, hsz] at h1
    have hi := (h.inv hsz).withFlags (b := b2) (p := d.hasSiz || m == 0xFF51) (q := d.hasCod || m == 0xFF52)
      (r := d.hasQcd || m == 0xFF5C)
    refine Post.mono (handle_siz_post hi hm (by omega) (by omega)) fun d' ⟨⟨hk, hi', hc⟩, hcod⟩ => ?_
    refine ⟨?_, ?_, fun _ => hi', ?_⟩
    · rw [hk.buf]; show 1000 ≤ b2.length; omega
    · intro hx; rw [hi'.siz] at hx; cases hx
    · intro hx
      have := hk.hasCod
      rw [hx] at this
      simp only [] at this
      rcases (by simpa using this.symm : d.hasCod = true ∨ m = 0xFF52) with e | e
      · exact hc (h.cod e)
      · exact hcod e

theorem readSegment_post {u : User} {m : Nat} {d : Dec} {s : List UInt8} (hu : u.reduce < 64) (h : St u d) :
    Post (readSegment u m d s) (fun r => St u r.2.1 ∧ r.2.2.length + 4 ≤ s.length) := by
  unfold readSegment
  refine Post.bind (refuseIf_post _) fun _ h1 => ?_
  refine Post.bind load_post fun ⟨b1, s1⟩ ⟨hl1, hs1, hb1⟩ => ?_
  dsimp only at hs1 hb1 ⊢
  have hlen1 := load_len hl1 hb1
  have hb := h.buf
  refine Post.bind (next_post (by omega) (by omega)) fun ⟨len, _⟩ _ => ?_
  dsimp only
  refine Post.bind (refuseIf_post _) fun _ h2 => ?_
  refine Post.bind load_post fun ⟨b2, s2⟩ ⟨hl2, hs2, hb2⟩ => ?_
  dsimp only at hs2 hb2 ⊢
  have hlen2 := load_len hl2 hb2
  have step := handle_post (u := u) (m := m) (d := d) (b2 := b2) (size := len - 2) hu h h1 (by omega) (by omega)
  refine Post.bind step fun d' hd' => ?_
  refine Post.bind load_post fun ⟨b3, s3⟩ ⟨hl3, hs3, hb3⟩ => ?_
  dsimp only at hs3 hb3 ⊢
  have hlen3 := load_len hl3 hb3
  have hb' := hd'.buf
  refine Post.bind (next_post (by omega) (by omega)) fun ⟨m', _⟩ _ => ?_
  refine Post.pure ⟨hd'.withBuf (by omega), ?_⟩
  dsimp only
  subst hs3 hs2 hs1
  simp at hl3 hl2 ⊢
  omega

theorem readUnk_post {u : User} : ∀ (fuel : Nat) (d : Dec) (s : List UInt8), s.length < fuel → St u d →
    Post (readUnk fuel d s) (fun r => St u r.2.1 ∧ r.2.2.length ≤ s.length)
  | 0, _, _, h, _ => by omega
  | fuel + 1, d, s, h, hd => by
    unfold readUnk
    refine Post.bind load_post fun ⟨b1, s1⟩ ⟨hl1, hs1, hb1⟩ => ?_
    dsimp only at hs1 hb1 ⊢
    have hlen1 := load_len hl1 hb1
    have hb := hd.buf
    have hd' := hd.withBuf (b := b1) (by omega)
    have hs : s1.length + 2 ≤ s.length := by subst hs1; simp; omega
    refine Post.bind (next_post (by omega) (by omega)) fun ⟨m, _⟩ _ => ?_
    dsimp only
    have again := Post.mono (readUnk_post fuel _ s1 (by omega) hd')
      (fun r (hr : St u r.2.1 ∧ r.2.2.length ≤ s1.length) => (⟨hr.1, by omega⟩ : St u r.2.1 ∧ r.2.2.length ≤ s.length))
    split
    · exact again
    · refine Post.bind (refuseIf_post _) fun _ h1 => ?_
      split
      · exact Post.pure ⟨hd', by dsimp only; omega⟩
      · exact again

theorem readMarkers_post {u : User} (hu : u.reduce < 64) : ∀ (fuel m : Nat) (d : Dec) (s : List UInt8), s.length < fuel →
    St u d → Post (readMarkers u fuel m d s) (fun r => St u r.1)
  | 0, _, _, _, h, _ => by omega
  | fuel + 1, m, d, s, h, hd => by
    unfold readMarkers
    split
    · exact Post.pure hd
    refine Post.bind (refuseIf_post _) fun _ h1 => ?_
    split
    · refine Post.bind (readSegment_post hu hd) fun ⟨m', d', s'⟩ ⟨hd', hs'⟩ => ?_
      dsimp only at hd' hs' ⊢
      exact readMarkers_post hu fuel m' d' s' (by omega) hd'
    · refine Post.bind (readUnk_post _ _ _ (by omega) hd) fun ⟨m', d', s'⟩ ⟨hd', hs'⟩ => ?_
      dsimp only at hd' hs' ⊢
      split
      · exact Post.pure hd'
      refine Post.bind (readSegment_post hu hd') fun ⟨m2, d2, s2⟩ ⟨hd2, hs2⟩ => ?_
      dsimp only at hd2 hs2 ⊢
      exact readMarkers_post hu fuel m2 d2 s2 (by omega) hd2

end Jp2.Hdr

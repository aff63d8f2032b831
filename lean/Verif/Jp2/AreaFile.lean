import Verif.Jp2.AreaOne
import Verif.Jp2.TpFullProps
/-!
# C69: from the codestream to the area
-/
namespace Jp2.Area
open Jp2.Hdr (R Fail User be)
open Jp2.Tcd (CompP)

/-- **C69.** The same from the bytes of the codestream: if its tile-parts are laid out as the standard says, and every tile that has a
point of the area is there, the tiles read for the area are those from which decoding gives exactly its samples. -/
theorem C69_from_codestream (u : User) (hu : u.reduce < 64) (strict zero : Bool) (file rest junk : List UInt8)
    (h : Hdr.Dec) (hr : Hdr.readHeader u file = .ok (h, rest)) (ps : List Tp.Part) (g : Nat → Tp.Par)
    (hbytes : be 2 0xFF90 ++ rest = Tp.partsBytes zero ps ++ (be 2 0xFFD9 ++ junk)) (hj : zero = true → junk = [])
    (d : Dec) (hk : Known d) (htw : d.p.tw = h.tw) (hth : d.th = h.th) (cs : List Comp) (hf : Fresh d cs)
    (sx sy ex ey : Int) (i1 : I32 sx) (i2 : I32 sy) (i3 : I32 ex) (i4 : I32 ey) (w : Tp.Window) (b : Box) (cs' : List Comp)
    (harea : setArea d cs sx sy ex ey = .ok (w, b, cs'))
    (hv : Tp.Valid (h.tw * h.th) (Tp.wanted h.tw (some w)) zero ps)
    (hg : Tp.Runs u h (Tp.wanted h.tw (some w)) (fun _ => { tcp := h.tcp }) ps g)
    (hbx : b.x0 < b.x1) (hby : b.y0 < b.y1)
    (hthere : ∀ n x y, n < d.p.tw * d.th → InTile d.p n x y → b.has x y → ∃ p ∈ ps, p.tile = n)
    (sel : List Nat) (hsel : setComponents d.p.comps.length [] sel = .ok ()) (P : Nat → Int → Int → Int) (kept : Nat → Nat → List Int)
    (hs : ∀ (i : Nat) (c : CompP), d.p.comps[i]? = some c → (sel = [] ∨ i ∈ sel) → HasSample b c.dx c.dy d.reduce) :
    ∃ js out, Tp.decodeFile u strict false (some w) file = .ok js ∧ (∀ j ∈ js, j.data = Tp.dataOf ps j.tile) ∧
      decode d b sel P kept (js.map (·.tile)) cs' = .ok out ∧ out.length = (if sel = [] then d.p.comps.length else sel.length) ∧
      ∀ (k : Nat) (c : Comp), out[k]? = some c → ∃ i q, asked sel k = some i ∧ d.p.comps[i]? = some q ∧ c.dx = q.dx ∧ c.dy = q.dy ∧
        Holds (P i) b q.dx q.dy d.reduce c := by
  obtain ⟨js, h1, -, h3, h4⟩ := Tp.C65_tiles u hu strict false zero (some w) file rest junk h hr ps g hbytes hj (by simp) hv hg
  obtain ⟨out, o1, o2, o3⟩ := C69_exact d hk cs hf sx sy ex ey i1 i2 i3 i4 w b cs' harea sel hsel P kept (js.map (·.tile)) (by
    intro n
    rw [h3 n, htw, hth]
    constructor
    · rintro ⟨a, p, hp, e⟩
      exact ⟨e ▸ hv.tile p hp, a⟩
    · rintro ⟨a, c⟩
      refine ⟨c, ?_⟩
      have hn : n < d.p.tw * d.th := by rw [htw, hth]; exact a
      obtain ⟨x, y, k1, k2⟩ := (C69_tiles_needed d hk cs sx sy ex ey i1 i2 i3 i4 w b cs' harea hbx hby n hn).1 (by rw [htw]; exact c)
      exact hthere n x y hn k1 k2) hs
  exact ⟨js, out, h1, fun j hj => (h4 j hj).1, o1, o2, o3⟩

/-! ## A case: the file of C65 with all lengths given, two tiles of 10 × 10, and an area in the second -/

/-- Its decoder. -/
def fileD : Dec :=
  ⟨{ x0 := 0, y0 := 0, x1 := 20, y1 := 10, cpTx0 := 0, cpTy0 := 0, tdx := 10, tdy := 10, tw := 2,
     comps := [⟨1, 1, [(15, 15), (15, 15)], 6, 6⟩], szPrec := 96, szBlk := 120 }, 1, 1⟩

/-- Its bytes. -/
def fileBytes : List UInt8 := Hdr.stream Tp.exHead ((Tp.partsBytes false Tp.exParts ++ be 2 0xFFD9).drop 2)

example : Known fileD := by
  refine ⟨⟨by decide, by decide, by decide, by decide⟩, ⟨by decide, by decide, by decide +kernel, by decide⟩, ?_, by decide⟩
  intro n hn
  change n < 2 * 1 at hn
  refine ⟨by decide, ?_, ?_, by decide, by decide, by decide, by decide, by decide, by decide, by decide, ?_, by decide, by decide⟩
  · show 0 + n % 2 * 10 < 2 ^ 32; omega
  · show 0 + n / 2 * 10 < 2 ^ 32; omega
  · intro c hc
    simp only [fileD, List.mem_cons, List.not_mem_nil, or_false] at hc
    subst hc
    refine ⟨by decide, by decide, by decide, ?_⟩
    intro r q hq
    rcases r with _ | _ | r <;> simp at hq <;> subst hq <;> decide

example : setArea fileD [{ dx := 1, dy := 1 }] 12 3 18 7 = .ok (⟨1, 2, 0, 1⟩, ⟨12, 3, 18, 7⟩,
    [{ dx := 1, dy := 1, factor := 1, x0 := 12, y0 := 3, w := 3, h := 2 }]) := by decide +kernel
example : (Hdr.readHeader {} fileBytes).map (fun x => (x.1.tw, x.1.th, be 2 0xFF90 ++ x.2)) =
    .ok (2, 1, Tp.partsBytes false Tp.exParts ++ (be 2 0xFFD9 ++ [])) := by decide +kernel
example : Tp.Valid 2 (Tp.wanted 2 (some ⟨1, 2, 0, 1⟩)) false Tp.exParts := by
  refine ⟨by decide, Tp.order_of (by decide +kernel), by decide, by decide, by decide +kernel, by decide, by decide +kernel, by decide⟩
/-- Only the second tile is handed over, and gives the samples of the area. -/
example : (Tp.decodeFile {} true false (some ⟨1, 2, 0, 1⟩) fileBytes).map (fun js => js.map fun j => (j.tile, j.data)) = .ok [(1, [8, 9])] ∧
    (decode fileD ⟨12, 3, 18, 7⟩ [] (fun _ u v => 10 * u + v) (fun _ _ => []) [1] [{ dx := 1, dy := 1, factor := 1, x0 := 12, y0 := 3, w := 3, h := 2 }]).map
      (fun cs => cs.map (·.data)) = .ok [some ([62, 72, 82, 63, 73, 83].map some)] := by
  constructor <;> decide +kernel

end Jp2.Area

import Verif.Jp2.CutLemmas
import Verif.Jp2.TcdProps
/-!
# C71: the samples of a tile
-/
namespace Jp2.Cut
open Jp2.Hdr (R Fail)
open Jp2.Tcd (Rect CompP cdiv compRect RectOk TileS initTile tileRectOf compOf)
open Jp2.Area (Box render render_get ok_bind)

/-- **C71.** The samples the encoder takes for a tile are exactly the samples of the image that lie in the tile, component by component,
row by row. If there are several tiles, the samples have no sign or more than 16 bits (`C71_signed_samples_lost`), the image is `Aligned`
(`C71_offset_image_misread`), and no tile-component is empty in width (`C71_empty_component_panics`); if there is one, it covers the image. -/
theorem C71_tile_cut (q : Tcd.Params) (n : Nat) (T : TileS) (hf : Tcd.Fit q n) (hT : initTile true q n = .ok T) (hx : q.x0 ≤ q.x1 ∧ q.x1 < 2 ^ 31)
    (hy : q.y0 ≤ q.y1 ∧ q.y1 < 2 ^ 31) (cs : List CompI) (Ps : List (Int → Int → Int)) (hs : ShowsAll q q.comps cs Ps) (old : List UInt8) (single : Bool)
    (h1 : single = true → tileRectOf q n = area q)
    (h2 : single = false → (∀ p ∈ q.comps, Aligned q p) ∧ (∀ c ∈ cs, Keeps c) ∧ ∀ tc ∈ T.comps, tc.rect.x0 < tc.rect.x1) :
    cutTile single ⟨q.x0, q.y0, q.x1, q.y1⟩ old ((T.comps.map (·.rect)).zip cs) = .ok (tileSamples (tileRectOf q n) q.comps Ps) := by
  have ht := Tcd.tile_ok hf hT
  have e := (Tcd.initTile_out hf).ok hT
  have hr : T.comps.map (·.rect) = q.comps.map fun p => compRect (tileRectOf q n) p := by
    subst e
    show (q.comps.map (compOf true (tileRectOf q n))).map _ = _
    rw [List.map_map]; rfl
  rw [hr]
  cases single with
  | false =>
    obtain ⟨a, b, c⟩ := h2 rfl
    obtain ⟨g1, g2⟩ := good_of hx hy ht hs hf.comps a (fun p hp => by
      have : compRect (tileRectOf q n) p ∈ T.comps.map (·.rect) := by rw [hr]; exact List.mem_map_of_mem hp
      obtain ⟨tc, k1, k2⟩ := List.mem_map.1 this
      rw [← k2]; exact c tc k1) b
    rw [cut_good g1, g2]
  | true =>
    rw [h1 rfl]
    unfold cutTile
    rw [if_pos rfl]
    clear hr h2 hT e ht
    have : ∀ (ps : List CompP) (cs : List CompI) (Ps : List (Int → Int → Int)), ShowsAll q ps cs Ps →
        ((ps.map fun p => compRect (area q) p).zip cs).mapM inPlace = .ok (tileSamples (area q) ps Ps) := by
      intro ps cs Ps h
      induction h with
      | nil => rfl
      | @cons p ps c cs P Ps hs _ ih =>
        rw [List.map_cons, List.zip_cons_cons, List.mapM_cons, ih]
        have hl := render_count (P := P) (r := compRect (area q) p)
        unfold inPlace
        dsimp only
        rw [hs.data, if_neg (by omega), List.take_of_length_le (by omega)]
        rfl
    exact this _ _ _ hs

/-- The bytes of a tile as `opj_write_tile` expects them: component by component, every sample in one, two or four bytes. -/
def tileBytes : List (Rect × CompI) → List UInt8
  | [] => []
  | x :: l => x.2.data.flatMap (store (bytes x.2.prec)) ++ tileBytes l

/-- **C71.** The bytes of a tile handed to `opj_write_tile` give exactly its samples. -/
theorem C71_written_tile (l : List (Rect × CompI)) (hl : ∀ x ∈ l, x.2.data.length = count x.1 ∧ Keeps x.2) :
    copyTile l (tileBytes l) = .ok (l.map fun x => x.2.data) := by
  have key : ∀ (l : List (Rect × CompI)), (∀ x ∈ l, x.2.data.length = count x.1 ∧ Keeps x.2) →
      (tileBytes l).length = inputSize l ∧ copyComps l (tileBytes l) = .ok (l.map fun x => x.2.data) := by
    intro l hl
    induction l with
    | nil => exact ⟨rfl, rfl⟩
    | cons x l ih =>
      obtain ⟨i1, i2⟩ := ih fun y hy => hl y (by simp [hy])
      obtain ⟨h1, h2⟩ := hl x (by simp)
      obtain ⟨k1, k2⟩ := load_keeps h2
      have hf := flat_length (s := bytes x.2.prec) x.2.data
      rw [h1] at hf
      constructor
      · show List.length (_ ++ _) = _
        rw [List.length_append, i1, hf]
        unfold inputSize
        rw [List.map_cons, List.sum_cons, Nat.mul_comm]
      · unfold tileBytes copyComps
        dsimp only
        rw [if_pos k1, if_neg (by rw [List.length_append]; omega), List.drop_append_of_le_length (by omega), List.drop_of_length_le (by omega), List.nil_append]
        show (do let rest ← copyComps l (tileBytes l); _) = _
        rw [i2, ← h1, loadAll_store _ _ k2]
        rfl
  obtain ⟨h1, h2⟩ := key l hl
  unfold copyTile Hdr.refuseIf
  rw [if_neg (by omega), ok_bind, h2]

/-- **C71.** Any other number of bytes is refused. -/
theorem C71_written_size (l : List (Rect × CompI)) (src : List UInt8) (h : src.length ≠ inputSize l) : copyTile l src = .error .refused := by
  unfold copyTile Hdr.refuseIf
  rw [if_pos (by omega)]; rfl

/-! ## A case: two components, one at half the resolution, three tiles -/

def exQ : Tcd.Params := ⟨2, 0, 7, 2, 0, 0, 3, 2, 3, [⟨1, 1, [(15, 15), (15, 15)], 6, 6⟩, ⟨2, 1, [(15, 15), (15, 15)], 6, 6⟩], 32, 48⟩
def exP (u v : Int) : Int := 10 * u + v
def exCs : List CompI := [⟨8, 0, 1, 1, render exP ⟨2, 0, 7, 2⟩⟩, ⟨12, 0, 2, 1, render exP ⟨1, 0, 4, 2⟩⟩]

example : ShowsAll exQ exQ.comps exCs [exP, exP] := .cons ⟨rfl, rfl, by decide +kernel⟩ (.cons ⟨rfl, rfl, by decide +kernel⟩ .nil)
example : (∀ p ∈ exQ.comps, Aligned exQ p) ∧ (∀ c ∈ exCs, Keeps c) := by
  refine ⟨fun p hp => ?_, fun c hc => ?_⟩
  · simp only [exQ, List.mem_cons, List.not_mem_nil, or_false] at hp
    rcases hp with rfl | rfl <;> unfold Aligned <;> decide +kernel
  · simp only [exCs, List.mem_cons, List.not_mem_nil, or_false] at hc
    rcases hc with rfl | rfl <;> refine Or.inl ⟨by decide, by decide, by decide +kernel⟩
example : (initTile true exQ 1).toOption.map (fun T => T.comps.map (·.rect)) = some [⟨3, 0, 6, 2⟩, ⟨2, 0, 3, 2⟩] := by decide +kernel
example : cutTile false ⟨2, 0, 7, 2⟩ (List.replicate 100 0xAA) ([⟨3, 0, 6, 2⟩, ⟨2, 0, 3, 2⟩].zip exCs) = .ok [[30, 40, 50, 31, 41, 51], [20, 21]] := by decide +kernel

example : copyTile [(⟨0, 0, 2, 1⟩, ⟨12, 0, 1, 1, [513, 7]⟩), (⟨0, 0, 1, 1⟩, ⟨8, 0, 2, 1, [9]⟩)] [1, 2, 7, 0, 9] = .ok [[513, 7], [9]] := by decide +kernel

/-! ## What is not so -/

/-- One component of 8 bits, `tx` samples apart across, in tiles of `w` × 1 points. -/
def oneComp (x0 x1 y1 tx w tw : Nat) : Tcd.Params := ⟨x0, 0, x1, y1, 0, 0, w, 1, tw, [⟨tx, 1, [(15, 15)], 6, 6⟩], 32, 48⟩

/-- **C71** needs samples without a sign: an image with sign of 8 bits, 2 × 1 samples in two tiles. The tile of the sample -1 is encoded
with the sample 255, which is not even in the range of the precision. -/
theorem C71_signed_samples_lost : ∃ T, initTile true (oneComp 0 2 1 1 1 2) 0 = .ok T ∧
    cutTile false ⟨0, 0, 2, 1⟩ (List.replicate 100 0) ((T.comps.map (·.rect)).zip [⟨8, 1, 1, 1, [-1, 5]⟩]) = .ok [[255]] := by
  refine ⟨_, (by decide +kernel : initTile true (oneComp 0 2 1 1 1 2) 0 = .ok (Tcd.tileOf true (oneComp 0 2 1 1 1 2) 0)), ?_⟩
  decide +kernel

/-- **C71** needs an aligned image: it goes from 1 to 4 across, the component has every second point, that is one sample in each of
three rows. The encoder takes its rows to be two samples apart. The tile of the second row is encoded with the sample of the third, and
for the third row the encoder reads outside the image. -/
theorem C71_offset_image_misread : ∃ T1 T2, initTile true (oneComp 1 4 3 2 4 1) 1 = .ok T1 ∧ initTile true (oneComp 1 4 3 2 4 1) 2 = .ok T2 ∧
    (T1.comps.map (·.rect)) = [⟨1, 1, 2, 2⟩] ∧
    cutTile false ⟨1, 0, 4, 3⟩ (List.replicate 100 0) ((T1.comps.map (·.rect)).zip [⟨8, 0, 2, 1, [10, 11, 12]⟩]) = .ok [[12]] ∧
    cutTile false ⟨1, 0, 4, 3⟩ (List.replicate 100 0) ((T2.comps.map (·.rect)).zip [⟨8, 0, 2, 1, [10, 11, 12]⟩]) = .error .oob := by
  refine ⟨_, _, (by decide +kernel : initTile true (oneComp 1 4 3 2 4 1) 1 = .ok (Tcd.tileOf true (oneComp 1 4 3 2 4 1) 1)),
    (by decide +kernel : initTile true (oneComp 1 4 3 2 4 1) 2 = .ok (Tcd.tileOf true (oneComp 1 4 3 2 4 1) 2)), ?_, ?_, ?_⟩ <;> decide +kernel

/-- **C71** needs tile-components with samples: tiles one point wide, a component with every second point. The second tile has no sample of
it, and encoding panics. -/
theorem C71_empty_component_panics : ∃ T, initTile true (oneComp 0 2 1 2 1 2) 1 = .ok T ∧
    cutTile false ⟨0, 0, 2, 1⟩ (List.replicate 100 0) ((T.comps.map (·.rect)).zip [⟨8, 0, 2, 1, [7]⟩]) = .error .panic := by
  refine ⟨_, (by decide +kernel : initTile true (oneComp 0 2 1 2 1 2) 1 = .ok (Tcd.tileOf true (oneComp 0 2 1 2 1 2) 1)), ?_⟩
  decide +kernel

end Jp2.Cut

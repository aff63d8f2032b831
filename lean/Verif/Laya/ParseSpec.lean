import Verif.Laya.Iiif
/-!
# Specification of the IIIF parameter texts accepted by laya

Independent of the parsers: each relation says which text denotes which value.
`U32Text` (`Num.lean`) and `FloatText` (`F32.lean`) are the numerals.
-/
namespace Laya

/-- The value is a number greater than zero (possibly `+∞`); NaN is not. -/
def F32.Positive (f : F32) : Prop := ∃ k, f = .num false k ∧ 0 < F32.mag k

/-- The value is a finite number in `[0, c]`; `-0` counts as zero. -/
def F32.Within (f : F32) (c : ℚ) : Prop :=
  ∃ neg k, f = .num neg k ∧ k < F32.infBits ∧ (neg = true → F32.mag k = 0) ∧ F32.mag k ≤ c

/-- Region texts. -/
inductive RegionText : Str → Region → Prop
  | full : RegionText (lit "full") .full
  | square : RegionText (lit "square") .square
  | absolute (tx ty tw th : Str) (x y w h : Nat) :
      U32Text tx x → U32Text ty y → U32Text tw w → U32Text th h → 0 < w → 0 < h →
      RegionText (tx ++ lit "," ++ ty ++ lit "," ++ tw ++ lit "," ++ th) (.absolute x y w h)
  | percentage (tx ty tw th : Str) (x y w h : F32) :
      FloatText tx x → FloatText ty y → FloatText tw w → FloatText th h →
      x.Positive → y.Positive → w.Positive → h.Positive →
      RegionText (lit "pct:" ++ tx ++ lit "," ++ ty ++ lit "," ++ tw ++ lit "," ++ th)
        (.percentage x y w h)

/-- Size texts without the `^`. -/
inductive ScaleText (upscale : Bool) : Str → Scale → Prop
  | max : ScaleText upscale (lit "max") .max
  | percentage (t : Str) (p : F32) : FloatText t p → p.Positive → (upscale = true ∨ p.Within 100) →
      ScaleText upscale (lit "pct:" ++ t) (.percentage p)
  | width (t : Str) (w : Nat) : U32Text t w → 0 < w →
      ScaleText upscale (t ++ lit ",") (.fixed (some w) none)
  | height (t : Str) (h : Nat) : U32Text t h → 0 < h →
      ScaleText upscale (lit "," ++ t) (.fixed none (some h))
  | both (tw th : Str) (w h : Nat) : U32Text tw w → U32Text th h → 0 < w → 0 < h →
      ScaleText upscale (tw ++ lit "," ++ th) (.fixed (some w) (some h))
  | aspect (tw th : Str) (w h : Nat) : U32Text tw w → U32Text th h → 0 < w → 0 < h →
      ScaleText upscale (lit "!" ++ tw ++ lit "," ++ th) (.aspectPreserving w h)

/-- Size texts. -/
inductive SizeText : Str → Size → Prop
  | plain (t : Str) (sc : Scale) : ScaleText false t sc → SizeText t ⟨sc, false⟩
  | upscaled (t : Str) (sc : Scale) : ScaleText true t sc → SizeText (lit "^" ++ t) ⟨sc, true⟩

/-- Rotation texts. -/
inductive RotationText : Str → Rotation → Prop
  | plain (t : Str) (d : F32) : FloatText t d → d.Within 360 → RotationText t ⟨d, false⟩
  | mirrored (t : Str) (d : F32) : FloatText t d → d.Within 360 → RotationText (lit "!" ++ t) ⟨d, true⟩

/-- Quality names. -/
def qualityName : Quality → Str
  | .color => lit "color"
  | .gray => lit "gray"
  | .bitonal => lit "bitonal"
  | .default => lit "default"

/-- Format names. -/
def formatName : Format → Str
  | .jpg => lit "jpg"
  | .tif => lit "tif"
  | .png => lit "png"
  | .gif => lit "gif"
  | .jp2 => lit "jp2"
  | .pdf => lit "pdf"
  | .webp => lit "webp"

end Laya

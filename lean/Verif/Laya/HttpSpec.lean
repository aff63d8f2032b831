import Verif.Laya.ParseSpec
import Verif.Laya.UrlDecode
/-! # Specification of image paths, independent of the decoder -/
namespace Laya

/-- `path` is `/{identifier}/{region}/{size}/{rotation}/{quality}.{format}`, possibly followed by `/`
and anything, and denotes the request `r`. -/
def PathText (path : Str) (r : ImageRequest) : Prop :=
  ∃ tid trg tsz trt tail,
    path = lit "/" ++ tid ++ lit "/" ++ trg ++ lit "/" ++ tsz ++ lit "/" ++ trt ++ lit "/" ++
      qualityName r.quality ++ lit "." ++ formatName r.format ++ tail ∧
    '/' ∉ tid ∧ PctText (utf8 tid) (utf8 r.identifier) ∧
    RegionText trg r.region ∧ SizeText tsz r.size ∧ RotationText trt r.rotation ∧
    (tail = [] ∨ ∃ t, tail = '/' :: t)

/-- Lexical components of a Unix path: the pieces between slashes, without empty ones and `.`. -/
def components (p : Str) : List Str := (split '/' p).filter fun c => c ≠ [] ∧ c ≠ lit "."

/-- Following these components from a directory never goes above it, lexically: at every point there
were at least as many names as `..`s. -/
def neverClimbs (l : List Str) : Prop :=
  ∀ n, (l.take n).count (lit "..") ≤ (l.take n).countP (fun c => c ≠ lit "..")

/-- Path `p` lies, lexically, at or below directory `base`: same root-ness, and it is `base`'s
components followed by components that never climb. -/
def Below (base p : Str) : Prop :=
  (startsWith (lit "/") p = startsWith (lit "/") base) ∧
  ∃ rest, components p = components base ++ rest ∧ neverClimbs rest

end Laya

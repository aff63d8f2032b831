import Verif.Laya.F32
/-! # IIIF request types: `src/iiif.rs` -/
namespace Laya

/-- `Region`, `src/iiif.rs:56-62`. `Dimension = u32` is a `Nat` (parsers only build values below
`2^32`, see `parseU32_iff`). -/
inductive Region where
  | full
  | square
  | absolute (x y width height : Nat)
  | percentage (x y width height : F32)
deriving DecidableEq, Repr

/-- `Scale`, `src/iiif.rs:88-94`. `NonZero<u32>` is a `Nat`; that it is never 0 is proved of the parser. -/
inductive Scale where
  | max
  | percentage (p : F32)
  | fixed (width height : Option Nat)
  | aspectPreserving (width height : Nat)
deriving DecidableEq, Repr

/-- `Size`, `src/iiif.rs:64-68`. -/
structure Size where
  scale : Scale
  upscale : Bool
deriving DecidableEq, Repr

/-- `Rotation`, `src/iiif.rs:110-114`. -/
structure Rotation where
  degrees : F32
  mirror : Bool
deriving DecidableEq, Repr

/-- `Quality`, `src/iiif.rs:134-140`. -/
inductive Quality where
  | color | gray | bitonal | default
deriving DecidableEq, Repr

/-- `Format`, `src/iiif.rs:142-151`. -/
inductive Format where
  | jpg | tif | png | gif | jp2 | pdf | webp
deriving DecidableEq, Repr

/-- `Format::mime`, `src/iiif.rs:153-165`. -/
def Format.mime : Format → Str
  | .jpg => lit "image/jpeg"
  | .tif => lit "image/tiff"
  | .png => lit "image/png"
  | .gif => lit "image/gif"
  | .jp2 => lit "image/jp2"
  | .pdf => lit "application/pdf"
  | .webp => lit "image/webp"

/-- `ImageRequest`, `src/iiif.rs:7-15`. -/
structure ImageRequest where
  identifier : Str
  region : Region
  size : Size
  rotation : Rotation
  quality : Quality
  format : Format
deriving DecidableEq, Repr

end Laya

import Verif.Laya.Iiif
/-!
# Parameter parsers: `src/iiif/parse.rs`

`fmtF32` stands for `f32::to_string` (only used to build the text of one error value, line 64); every
theorem holds for every such function.
-/
namespace Laya

/-- `ParseError`, `src/iiif/parse.rs:213-256`. -/
inductive ParseError where
  | regionSelectorUnparsable (input : Str) (index : Nat)
  | regionSelectorOutOfBounds (input : Str) (index : Nat)
  | regionPercentageOutOfBounds (input : Str) (index : Nat)
  | regionSelectorCount (s : Str)
  | sizeMissingComma (s : Str)
  | sizeMissingDimensions (s : Str)
  | sizeDimensionUnparsable (s : Str)
  | sizePercentageOutOfBounds (s : Str)
  | sizeDimensionOutOfBounds (s : Str)
  | sizePercentageUnparsable (s : Str)
  | rotationAngleUnparsable (s : Str)
  | rotationOutOfBounds (s : Str)
  | unrecognisedQuality (s : Str)
  | unrecognisedFormat (s : Str)
deriving DecidableEq, Repr

/-- `u32::to_string`. -/
def fmtU32 (n : Nat) : Str := Nat.toDigits 10 n

/-- `<f32 as SpatialSelector>::validate`, `src/iiif/parse.rs:58-67`. -/
def validateF32 (fmtF32 : F32 → Str) (value : F32) (index : Nat) : Except ParseError F32 :=
  if F32.lt F32.zero value then .ok value
  else .error (.regionPercentageOutOfBounds (fmtF32 value) index)

/-- `<u32 as SpatialSelector>::validate`, `src/iiif/parse.rs:69-78`. -/
def validateU32 (value : Nat) (index : Nat) : Except ParseError Nat :=
  if index ≤ 1 ∨ value > 0 then .ok value
  else .error (.regionSelectorOutOfBounds (fmtU32 value) index)

/-- The `for` loop of `parse_region_selectors`, `src/iiif/parse.rs:37-46`: `todo` slots left to fill,
the current `index`, and the not yet consumed pieces of `input.split(",")`. Returns the values and the
remaining pieces. -/
def selectorLoop {T : Type} (parse : Str → Option T) (validate : T → Nat → Except ParseError T)
    (input : Str) : (todo : Nat) → (index : Nat) → List Str → Except ParseError (List T × List Str)
  | 0, _, rest => .ok ([], rest)
  | _ + 1, _, [] => .error (.regionSelectorCount input)
  | todo + 1, index, s :: rest =>
    match parse s with
    | none => .error (.regionSelectorUnparsable s index)
    | some value =>
      match validate value index with
      | .error e => .error e
      | .ok v =>
        match selectorLoop parse validate input todo (index + 1) rest with
        | .error e => .error e
        | .ok (vs, rest') => .ok (v :: vs, rest')

/-- `parse_region_selectors`, `src/iiif/parse.rs:31-52`. -/
def parseRegionSelectors {T : Type} (parse : Str → Option T)
    (validate : T → Nat → Except ParseError T) (input : Str) : Except ParseError (List T) :=
  match selectorLoop parse validate input 4 0 (split ',' input) with
  | .error e => .error e
  | .ok (_, _ :: _) => .error (.regionSelectorCount input)
  | .ok (vs, []) => .ok vs

/-- `Region::from_str`, `src/iiif/parse.rs:14-28`. The array pattern `[x, y, width, height]` always
matches (the array has length 4); a list of another length is sent to an error that
`parseRegionSelectors_length` shows impossible. -/
def parseRegion (fmtF32 : F32 → Str) (s : Str) : Except ParseError Region :=
  if s = lit "full" then .ok .full
  else if s = lit "square" then .ok .square
  else match stripPrefix (lit "pct:") s with
    | some input =>
      match parseRegionSelectors parseF32 (validateF32 fmtF32) input with
      | .error e => .error e
      | .ok [x, y, width, height] => .ok (.percentage x y width height)
      | .ok _ => .error (.regionSelectorCount input)
    | none =>
      match parseRegionSelectors parseU32 validateU32 s with
      | .error e => .error e
      | .ok [x, y, width, height] => .ok (.absolute x y width height)
      | .ok _ => .error (.regionSelectorCount s)

/-- `parse_scale_percent`, `src/iiif/parse.rs:138-150`. -/
def parseScalePercent (s : Str) (upscale : Bool) : Except ParseError Size :=
  match parseF32 s with
  | none => .error (.sizePercentageUnparsable s)
  | some scale =>
    if F32.lt F32.zero scale && (F32.le scale F32.hundred || upscale) then
      .ok ⟨.percentage scale, upscale⟩
    else .error (.sizePercentageOutOfBounds s)

/-- `parse_scale_px`, `src/iiif/parse.rs:152-158`. -/
def parseScalePx (input : Str) : Except ParseError Nat :=
  match parseU32 input with
  | none => .error (.sizeDimensionUnparsable input)
  | some dimension =>
    if dimension = 0 then .error (.sizeDimensionOutOfBounds input) else .ok dimension

/-- One optional dimension of `Size::from_str`, `src/iiif/parse.rs:119-128`. -/
def parseOptPx (t : Str) : Except ParseError (Option Nat) :=
  if t.isEmpty then .ok none
  else match parseScalePx t with
    | .error e => .error e
    | .ok n => .ok (some n)

/-- `Size::from_str` after the `^`, `max` and `pct:` tests, `src/iiif/parse.rs:102-134`. -/
def parseSizePx (upscale : Bool) (s0 : Str) : Except ParseError Size :=
  let (preserveRatio, s) := stripChar '!' s0
  if s = lit "," then .error (.sizeMissingDimensions s)
  else match splitOnce ',' s with
    | none => .error (.sizeMissingComma s)
    | some (width, height) =>
      if preserveRatio then
        match parseScalePx width with
        | .error e => .error e
        | .ok w =>
          match parseScalePx height with
          | .error e => .error e
          | .ok h => .ok ⟨.aspectPreserving w h, upscale⟩
      else
        match parseOptPx width with
        | .error e => .error e
        | .ok w =>
          match parseOptPx height with
          | .error e => .error e
          | .ok h => .ok ⟨.fixed w h, upscale⟩

/-- `Size::from_str`, `src/iiif/parse.rs:93-135`. -/
def parseSize (s0 : Str) : Except ParseError Size :=
  let (upscale, s) := stripChar '^' s0
  if s = lit "max" then .ok ⟨.max, upscale⟩
  else match stripPrefix (lit "pct:") s with
    | some p => parseScalePercent p upscale
    | none => parseSizePx upscale s

/-- `Rotation::from_str`, `src/iiif/parse.rs:163-179`. -/
def parseRotation (s : Str) : Except ParseError Rotation :=
  let (mirror, rotation) := stripChar '!' s
  match parseF32 rotation with
  | none => .error (.rotationAngleUnparsable rotation)
  | some degrees =>
    if F32.le F32.zero degrees && F32.le degrees F32.threeSixty then .ok ⟨degrees, mirror⟩
    else .error (.rotationOutOfBounds rotation)

/-- `Quality::from_str`, `src/iiif/parse.rs:185-193`. -/
def parseQuality (s : Str) : Except ParseError Quality :=
  if s = lit "color" then .ok .color
  else if s = lit "gray" then .ok .gray
  else if s = lit "bitonal" then .ok .bitonal
  else if s = lit "default" then .ok .default
  else .error (.unrecognisedQuality s)

/-- `Format::from_str`, `src/iiif/parse.rs:199-210`. -/
def parseFormat (s : Str) : Except ParseError Format :=
  if s = lit "jpg" then .ok .jpg
  else if s = lit "tif" then .ok .tif
  else if s = lit "png" then .ok .png
  else if s = lit "gif" then .ok .gif
  else if s = lit "jp2" then .ok .jp2
  else if s = lit "pdf" then .ok .pdf
  else if s = lit "webp" then .ok .webp
  else .error (.unrecognisedFormat s)

/-- `selector_name`, `src/iiif/parse.rs:80-88`; `none` is the panic on line 86. -/
def selectorName : Nat → Option Str
  | 0 => some (lit "x")
  | 1 => some (lit "y")
  | 2 => some (lit "width")
  | 3 => some (lit "height")
  | _ => none

/-- `Display for ParseError`, `src/iiif/parse.rs:266-318`; `none` is a panic. -/
def ParseError.display : ParseError → Option Str
  | .regionSelectorUnparsable input index =>
    (selectorName index).map fun n => lit "Region " ++ n ++ lit " '" ++ input ++
      lit "' could not be parsed (expected integer for standard requests, float for pct: requests)."
  | .regionSelectorOutOfBounds input index =>
    (selectorName index).map fun n => lit "Region " ++ n ++ lit " '" ++ input ++
      lit "' out of bounds: width and height must be greater than 0."
  | .regionPercentageOutOfBounds input index =>
    (selectorName index).map fun n => lit "Region " ++ n ++ lit " percentage '" ++ input ++
      lit "' out of bounds: must be greater than 0."
  | .regionSelectorCount s =>
    some (lit "Region must include exactly 4 selectors x,y,w,h (received '" ++ s ++ lit "').")
  | .sizeMissingComma s =>
    some (lit "Size must include a comma to separate dimensions (received '" ++ s ++ lit "').")
  | .sizeMissingDimensions s =>
    some (lit "Size must include at least one dimension (received '" ++ s ++ lit "').")
  | .sizeDimensionUnparsable s =>
    some (lit "Size dimension '" ++ s ++ lit "' could not be parsed (expected integer).")
  | .sizePercentageUnparsable s =>
    some (lit "Size percentage '" ++ s ++ lit "' could not be parsed (expected integer or float).")
  | .sizeDimensionOutOfBounds s =>
    some (lit "Size dimension '" ++ s ++ lit "' out of bounds: must be at least 1.")
  | .sizePercentageOutOfBounds s =>
    some (lit "Size percentage '" ++ s ++
      lit "' out of bounds: must be greater than 0 if upscaling is requested, or (0.0, 100.0] otherwise.")
  | .rotationAngleUnparsable s =>
    some (lit "Rotation '" ++ s ++ lit "' could not be parsed (expected integer or float).")
  | .rotationOutOfBounds s =>
    some (lit "Rotation must be [0.0, 360.0], but was '" ++ s ++ lit "'.")
  | .unrecognisedQuality s => some (lit "Unrecognised quality '" ++ s ++ lit "'.")
  | .unrecognisedFormat s => some (lit "Unrecognised format '" ++ s ++ lit "'.")

end Laya

import Verif.Laya.Parse
import Verif.Laya.UrlDecode
/-!
# HTTP dispatch and file resolution: `src/http.rs`, `src/resolve.rs`
-/
namespace Laya

/-- `ImageRequestError`, `src/http.rs:102-112`. -/
inductive ImageRequestError where
  | uriMissingElement (element : Str)
  | uriNotUtf8 (element : Str)
  | parseError (e : ParseError)
deriving DecidableEq, Repr

/-- `Display for ImageRequestError`, `src/http.rs:116-128`; `none` is a panic. -/
def ImageRequestError.display : ImageRequestError → Option Str
  | .uriMissingElement element => some (lit "Request path missing " ++ element ++ lit ".")
  | .parseError e => e.display
  | .uriNotUtf8 element => some (lit "Request path " ++ element ++ lit " was not in UTF-8.")

/-- How `decode_image_request` can fail: an error value, or the `debug_assert!` on line 58. -/
inductive DecodeFailure where
  | error (e : ImageRequestError)
  | assertFailed
deriving DecidableEq, Repr

/-- `decode_image_request` after line 58, on the segments not yet consumed, `src/http.rs:60-100`. -/
def decodeSegments (fmt : F32 → Str) (segments : List Str) : Except ImageRequestError ImageRequest :=
  match segments with
  | [] => .error (.uriMissingElement (lit "identifier"))
  | s1 :: segments =>
  match urlDecode s1 with
  | none => .error (.uriNotUtf8 (lit "identifier"))
  | some identifier =>
  match segments with
  | [] => .error (.uriMissingElement (lit "region"))
  | s2 :: segments =>
  match parseRegion fmt s2 with
  | .error e => .error (.parseError e)
  | .ok region =>
  match segments with
  | [] => .error (.uriMissingElement (lit "size"))
  | s3 :: segments =>
  match parseSize s3 with
  | .error e => .error (.parseError e)
  | .ok size =>
  match segments with
  | [] => .error (.uriMissingElement (lit "rotation"))
  | s4 :: segments =>
  match parseRotation s4 with
  | .error e => .error (.parseError e)
  | .ok rotation =>
  match segments with
  | [] => .error (.uriMissingElement (lit "quality"))
  | s5 :: _ =>
  match splitOnce '.' s5 with
  | none => .error (.uriMissingElement (lit "format"))
  | some (q, f) =>
  match parseQuality q with
  | .error e => .error (.parseError e)
  | .ok quality =>
  match parseFormat f with
  | .error e => .error (.parseError e)
  | .ok format => .ok ⟨identifier, region, size, rotation, quality, format⟩

/-- `decode_image_request`, `src/http.rs:56-100`. `debug` says whether debug assertions are compiled
in: only then is `segments.next()` inside `debug_assert!` (line 58) evaluated at all. -/
def decodeImageRequest (debug : Bool) (fmt : F32 → Str) (path : Str) :
    Except DecodeFailure ImageRequest :=
  let segments := split '/' path
  let run (l : List Str) : Except DecodeFailure ImageRequest :=
    match decodeSegments fmt l with
    | .error e => .error (.error e)
    | .ok r => .ok r
  if debug then
    match segments with
    | [] :: rest => run rest
    | _ => .error .assertFailed
  else run segments

/-- `std::path::Path::join` on Unix, as used at `src/resolve.rs:18`: an absolute argument replaces the
base; otherwise a `/` is inserted unless the base is empty or already ends in one. -/
def pathJoin (base ident : Str) : Str :=
  if startsWith (lit "/") ident then ident
  else if base.isEmpty || endsWith (lit "/") base then base ++ ident
  else base ++ lit "/" ++ ident

/-- What a request handler run does: the files it tries to open, in order, and how it ends
(`none` is a panic). -/
structure Outcome where
  opened : List Str
  response : Option (Nat × Str)
deriving DecidableEq, Repr

/-- `DiskImageSource::resolve`, `src/resolve.rs:17-20`: joins and opens. `canOpen` is the file system:
whether opening that path succeeds. -/
def resolve (base : Str) (canOpen : Str → Bool) (ident : Str) : List Str × Bool :=
  let file := pathJoin base ident
  ([file], canOpen file)

/-- `image_request`, `src/http.rs:37-54`. -/
def imageRequest (debug : Bool) (fmt : F32 → Str) (base : Str) (canOpen : Str → Bool) (path : Str) :
    Outcome :=
  match decodeImageRequest debug fmt path with
  | .error .assertFailed => ⟨[], none⟩
  | .error (.error e) =>
    match e.display with
    | none => ⟨[], none⟩
    | some msg => ⟨[], some (400, msg)⟩
  | .ok request =>
    match resolve base canOpen request.identifier with
    | (files, true) => ⟨files, some (200, lit "OK")⟩
    | (files, false) => ⟨files, some (400, lit "io error")⟩

/-- `handle_request`, `src/http.rs:23-35`. `isGet`: the method is `GET`. `info_request`
(`src/http.rs:139-141`) is `unimplemented!()`, a panic. -/
def handleRequest (debug : Bool) (fmt : F32 → Str) (base : Str) (canOpen : Str → Bool)
    (isGet : Bool) (path : Str) : Outcome :=
  if isGet && endsWith (lit "info.json") path then ⟨[], none⟩
  else if isGet && startsWith (lit "/") path then imageRequest debug fmt base canOpen path
  else ⟨[], some (404, lit "notfound")⟩

end Laya

/-!
# Who owns the memory of images: `openjp2-rs/src/image.rs`

Memory is a list of live allocations; freeing one that is not live is undefined behaviour (`none`). An allocation fails exactly when it is of no
bytes (`malloc.rs:32-38, 97-111`): running out of memory is not modelled. Contents of the allocations are not modelled, and of the fields of an image only those
that decide about memory.
-/
namespace Jp2.Own

/-- Live allocations and the next address. -/
structure Heap where
  live : List Nat
  next : Nat
deriving DecidableEq, Repr

/-- `opj_malloc`, `opj_calloc`, `opj_aligned_malloc`, `malloc.rs:30-52, 97-115`. -/
def alloc (size : Nat) (h : Heap) : Option Nat × Heap :=
  if size = 0 then (none, h) else (some h.next, ⟨h.next :: h.live, h.next + 1⟩)

/-- `opj_free`, `opj_aligned_free`, `malloc.rs:142-151, 164-166`. -/
def free (p : Nat) (h : Heap) : Option Heap := if p ∈ h.live then some { h with live := h.live.erase p } else none

/-- `opj_image_comp`: size and pointer to the samples. -/
structure Comp where
  w : Nat
  h : Nat
  data : Option Nat
deriving DecidableEq, Repr

/-- `opj_image`: array of components, with its pointer, and profile, with pointer and length. -/
structure Img where
  comps : Option (Nat × List Comp)
  icc : Option (Nat × Nat)
deriving DecidableEq, Repr

/-- `opj_image_comp::clear_data`, `image.rs:55-62`. -/
def clearData (c : Comp) (h : Heap) : Option (Comp × Heap) :=
  match c.data with
  | none => some (c, h)
  | some p => (free p h).map fun h => ({ c with data := none }, h)

/-- `opj_image_comp::alloc_data`, `image.rs:64-83`. -/
def allocData (c : Comp) (h : Heap) : Option (Bool × Comp × Heap) :=
  (clearData c h).map fun (c, h) =>
    if 2 ^ 64 ≤ c.w * c.h * 4 then (false, c, h)
    else match alloc (c.w * c.h * 4) h with
      | (none, h) => (false, c, h)
      | (some p, h) => (true, { c with data := some p }, h)

/-- The loop of `clear_comps`, `image.rs:228-233`. -/
def freeDatas : List Comp → Heap → Option Heap
  | [], h => some h
  | c :: cs, h =>
    match c.data with
    | none => freeDatas cs h
    | some p => (free p h).bind (freeDatas cs)

/-- `opj_image::clear_comps`, `image.rs:225-239`. -/
def clearComps (im : Img) (h : Heap) : Option (Img × Heap) :=
  match im.comps with
  | none => some (im, h)
  | some (p, cs) => (freeDatas cs h).bind fun h => (free p h).map fun h => ({ im with comps := none }, h)

/-- `opj_image::alloc_comps`, `image.rs:241-255`; the components are then as given. -/
def allocComps (cs : List Comp) (im : Img) (h : Heap) : Option (Img × Heap) :=
  (clearComps im h).map fun (im, h) =>
    match alloc cs.length h with
    | (none, h) => (im, h)
    | (some p, h) => ({ im with comps := some (p, cs) }, h)

/-- `opj_image::clear_icc_profile`, `image.rs:283-291`. -/
def clearIcc (im : Img) (h : Heap) : Option (Img × Heap) :=
  match im.icc with
  | none => some (im, h)
  | some (p, _) => (free p h).map fun h => ({ im with icc := none }, h)

/-- `opj_image::copy_icc_profile` with a profile of `len < 2 ^ 32` bytes, `image.rs:305-318`, and `alloc_icc_profile`, `:293-303`. -/
def copyIcc (len : Nat) (im : Img) (h : Heap) : Option (Img × Heap) :=
  if len = 0 then clearIcc im h
  else match alloc len h with
    | (none, h) => some ({ im with icc := none }, h)
    | (some p, h) => some ({ im with icc := some (p, len) }, h)

/-- `Drop for opj_image`, `image.rs:320-325`. -/
def drop (im : Img) (h : Heap) : Option Heap :=
  (clearComps im h).bind fun (im, h) => (clearIcc im h).map Prod.snd

/-- The loop of `opj_image_create`, `image.rs:350-362`: whether all went well, and the components. -/
def fillData : List Comp → Heap → Option (Bool × List Comp × Heap)
  | [], h => some (true, [], h)
  | c :: cs, h => (allocData c h).bind fun (ok, c, h) =>
    if ok then (fillData cs h).map fun (ok, cs, h) => (ok, c :: cs, h) else some (false, c :: cs, h)

/-- `opj_image_create`, `image.rs:333-364`, for components of these sizes: `none` in the result is the null pointer. -/
def create (ps : List (Nat × Nat)) (h : Heap) : Option (Option Img × Heap) :=
  (allocComps (ps.map fun q => ⟨q.1, q.2, none⟩) ⟨none, none⟩ h).bind fun (im, h) =>
  match im.comps with
  | none => some (none, h)
  | some (p, cs) => (fillData cs h).bind fun (ok, cs, h) =>
    if ok then some (some ⟨some (p, cs), none⟩, h) else (drop ⟨some (p, cs), none⟩ h).map fun h => (none, h)

/-- `opj_image_tile_create`, `image.rs:456-483`. -/
def tileCreate (ps : List (Nat × Nat)) (h : Heap) : Option (Option Img × Heap) :=
  (allocComps (ps.map fun q => ⟨q.1, q.2, none⟩) ⟨none, none⟩ h).map fun (im, h) =>
  match im.comps with
  | none => (none, h)
  | some _ => (some im, h)

/-- The components that `opj_copy_image_header` copies, `image.rs:441-448`: not their samples. -/
def headers (im : Img) : List Comp :=
  match im.comps with
  | none => []
  | some (_, cs) => cs.map fun c => { c with data := none }

/-- `opj_copy_image_header`, `image.rs:419-453`. -/
def copyHeader (src : Img) (dst : Img) (h : Heap) : Option (Img × Heap) :=
  (allocComps (headers src) dst h).bind fun (dst, h) =>
  if dst.comps = none then some (dst, h)
  else match src.icc with
    | none => some (dst, h)
    | some (_, len) => copyIcc len dst h

/-- `opj_image::take_comps`, `image.rs:192-207`: the new image and what is left of the old one. -/
def takeComps (im : Img) : Img × Img := (⟨im.comps, none⟩, ⟨none, im.icc⟩)

/-- `Clone for opj_image`, the components, `image.rs:168-177`: copied as they are, pointers included. -/
def cloneComps (im : Img) (h : Heap) : Option (Img × Heap) :=
  match im.comps with
  | none => some (⟨none, none⟩, h)
  | some (_, cs) => allocComps cs ⟨none, none⟩ h

/-- `Clone for opj_image`, `image.rs:159-185`. -/
def clone (im : Img) (h : Heap) : Option (Img × Heap) :=
  (cloneComps im h).bind fun (new, h) =>
  match im.icc with
  | none => some (new, h)
  | some (_, len) => copyIcc len new h

/-- The images of a program. -/
structure World where
  imgs : List Img
  heap : Heap
deriving DecidableEq, Repr

/-- What a program can do; images are named by their position. -/
inductive Op where
  | new
  | create (ps : List (Nat × Nat))
  | tileCreate (ps : List (Nat × Nat))
  | destroy (i : Nat)
  | clearComps (i : Nat)
  | allocComps (i n : Nat)
  | clearData (i j : Nat)
  | allocData (i j : Nat)
  | clearIcc (i : Nat)
  | copyIcc (i len : Nat)
  | take (i : Nat)
  | copyHeader (src dst : Nat)
  | clone (i : Nat)
deriving DecidableEq, Repr

/-- A call of a method of image `i`. -/
def onImg (i : Nat) (f : Img → Heap → Option (Img × Heap)) (w : World) : Option World :=
  match w.imgs[i]? with
  | none => some w
  | some im => (f im w.heap).map fun (im, h) => ⟨w.imgs.set i im, h⟩

/-- A call of a method of component `j`. -/
def onComp (j : Nat) (f : Comp → Heap → Option (Comp × Heap)) (im : Img) (h : Heap) : Option (Img × Heap) :=
  match im.comps with
  | none => some (im, h)
  | some (p, cs) => match cs[j]? with
    | none => some (im, h)
    | some c => (f c h).map fun (c, h) => ({ im with comps := some (p, cs.set j c) }, h)

def add (r : Option Img × Heap) (imgs : List Img) : World := ⟨imgs ++ r.1.toList, r.2⟩

/-- One operation. -/
def step (o : Op) (w : World) : Option World :=
  match o with
  | .new => some ⟨w.imgs ++ [⟨none, none⟩], w.heap⟩
  | .create ps => (create ps w.heap).map fun r => add r w.imgs
  | .tileCreate ps => (tileCreate ps w.heap).map fun r => add r w.imgs
  | .destroy i => match w.imgs[i]? with
    | none => some w
    | some im => (drop im w.heap).map fun h => ⟨w.imgs.eraseIdx i, h⟩
  | .clearComps i => onImg i clearComps w
  | .allocComps i n => onImg i (allocComps (List.replicate n ⟨0, 0, none⟩)) w
  | .clearData i j => onImg i (onComp j clearData) w
  | .allocData i j => onImg i (onComp j fun c h => (allocData c h).map Prod.snd) w
  | .clearIcc i => onImg i clearIcc w
  | .copyIcc i len => onImg i (copyIcc len) w
  | .take i => match w.imgs[i]? with
    | none => some w
    | some im => some ⟨w.imgs.set i (takeComps im).2 ++ [(takeComps im).1], w.heap⟩
  | .copyHeader s d => if s = d then some w else match w.imgs[s]? with
    | none => some w
    | some src => onImg d (copyHeader src) w
  | .clone i => match w.imgs[i]? with
    | none => some w
    | some im => (clone im w.heap).map fun r => ⟨w.imgs ++ [r.1], r.2⟩

/-- A history. -/
def run : List Op → World → Option World
  | [], w => some w
  | o :: l, w => (step o w).bind (run l)

/-- At the start of the program. -/
def start : World := ⟨[], ⟨[], 0⟩⟩

end Jp2.Own

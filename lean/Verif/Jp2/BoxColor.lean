import Verif.Jp2.Box
/-!
# Palette and channel definitions: `opj_jp2_apply_color_postprocessing`

`openjp2-rs/src/jp2.rs:366-620, 731-798, 961-991` and the parts of `image.rs` they use. Components point to blocks of
memory; a block is live or freed, and a freed block cannot be used or freed again. A sample block is owned by the
image whose components point to it (`impl Drop for opj_image`, `image.rs:320-325`). Allocation failure is not modelled.
-/
namespace Jp2.Box
open Hdr (Fail R refuseIf)

/-- `opj_image_comp` (`image.rs:40-72`) as far as colour is concerned; `data` is the block of its samples. -/
structure Comp where
  w : Nat := 0
  h : Nat := 0
  prec : Nat := 0
  sgnd : Nat := 0
  alpha : Nat := 0
  data : Option Nat := none
deriving DecidableEq, Repr

/-- Blocks of memory; a freed block is `none`. -/
abbrev Heap := List (Option (List Int))

/-- `opj_image_comp::data().expect(…)`, `image.rs:85-93`: `w * h` samples of a live block. -/
def samples (H : Heap) (c : Comp) : R (List Int) :=
  match c.data with
  | none => .error .panic
  | some b =>
    match H[b]? with
    | some (some xs) => if c.w * c.h ≤ xs.length then .ok (xs.take (c.w * c.h)) else .error .oob
    | _ => .error .oob

/-- Writing all samples of a component (`data_mut`, `image.rs:95-103`). -/
def store (H : Heap) (c : Comp) (ys : List Int) : Heap :=
  match c.data with
  | none => H
  | some b => H.set b ((H[b]?.join).map fun xs => ys ++ xs.drop ys.length)

/-- `opj_image::clear_comps`, `image.rs:225-239`, when an image is dropped: frees every block; freeing twice is an
error. -/
def freeAll : List Comp → Heap → R Heap
  | [], H => .ok H
  | c :: cs, H =>
    match c.data with
    | none => freeAll cs H
    | some b =>
      match H[b]? with
      | some (some _) => freeAll cs (H.set b none)
      | _ => .error .oob

/-! ## Checks -/

/-- The channel definitions are in range and complete from the second channel on (`jp2.rs:382-411`). -/
def checkDefs (n : Nat) (ds : List Def) : Bool :=
  ds.all (fun d => decide (d.cn < n) && !(decide (d.asoc ≠ 65535) && decide (0 < d.asoc) && decide (n ≤ d.asoc - 1))) &&
  ((List.range n).drop 1).all fun c => ds.any fun d => d.cn == c

/-- One entry of the component mapping, `jp2.rs:436-491`: is all sane, and which columns are used. -/
def scanMap (nr i : Nat) (c : Map) (st : Bool × List Nat) : Bool × List Nat :=
  if c.mtyp ≠ 0 ∧ c.mtyp ≠ 1 then (false, st.2)
  else if nr ≤ c.pcol then (false, st.2)
  else if st.2.contains c.pcol ∧ c.mtyp = 1 then (false, st.2)
  else if c.mtyp = 0 ∧ c.pcol ≠ 0 then (false, st.2)
  else if c.mtyp = 1 ∧ c.pcol ≠ i then (false, st.2)
  else (st.1, c.pcol :: st.2)

/-- The loop over the mapping. -/
def scanMaps (nr : Nat) : Nat → List Map → Bool × List Nat → Bool × List Nat
  | _, [], st => st
  | i, c :: cs, st => scanMaps nr (i + 1) cs (scanMap nr i c st)

/-- The check of the component mapping, `jp2.rs:415-527`: the mapping to use, unless it is refused. -/
def checkMaps (numcomps nr : Nat) (ms : List Map) : Option (List Map) :=
  let s0 := ms.all fun c => decide (c.cmp < numcomps)
  let (s1, used) := scanMaps nr 0 ms (s0, [])
  let s2 := s1 && (List.range nr).all fun i => used.contains i || ((ms[i]?.map Map.mtyp).getD 0 == 0)
  if s2 = true ∧ numcomps = 1 ∧ (List.range nr).all (fun i => used.contains i) = false then
    some (ms.mapIdx fun i c => { c with mtyp := 1, pcol := i })
  else if s2 then some ms else none

/-- `opj_jp2_check_color`, `jp2.rs:366-530`: the palette to use. -/
def checkColor (numcomps : Nat) (pclr : Option Pclr) (cdef : Option (List Def)) : R (Option Pclr) := do
  let n := match pclr with
    | some pc => if pc.cmap ≠ [] then pc.nrChannels else numcomps
    | none => numcomps
  refuseIf ((cdef.map (checkDefs n)).getD true = false)
  match pclr with
  | none => return none
  | some pc =>
    if pc.cmap.length = pc.nrChannels then
      match checkMaps numcomps pc.nrChannels pc.cmap with
      | none => .error .refused
      | some ms => return some { pc with cmap := ms }
    else return some pc

/-! ## Palette -/

/-- First loop of `opj_jp2_apply_pclr`, `jp2.rs:550-567`. -/
def checkUse (comps : List Comp) : Nat → List Map → R Unit
  | _, [] => .ok ()
  | i, c :: cs =>
    match comps[c.cmp]? with
    | none => .error .panic
    | some comp => do
      refuseIf (comp.data = none)
      refuseIf (c.mtyp ≠ 0 ∧ i ≠ c.pcol)
      checkUse comps (i + 1) cs

/-- `as i32` of a 32-bit entry. -/
def toI32 (v : Nat) : Int := if v % 2 ^ 32 < 2 ^ 31 then (v % 2 ^ 32 : Nat) else (v % 2 ^ 32 : Nat) - (2 ^ 32 : Int)

/-- Index and colour of one sample, `jp2.rs:607-616`. -/
def lookup (pc : Pclr) (pcol : Nat) (v : Int) : R Int :=
  let top : Int := pc.nrEntries - 1
  let k : Int := if v < 0 then 0 else if top < v then top else v
  match pc.entries[(k * pc.nrChannels + pcol).toNat]? with
  | none => .error .panic
  | some e => .ok (toI32 e)

/-- All samples of a channel. -/
def lookups (pc : Pclr) (pcol : Nat) : List Int → R (List Int)
  | [] => .ok []
  | v :: vs => do
    let e ← lookup pc pcol v
    let es ← lookups pc pcol vs
    return e :: es

/-- One channel, `jp2.rs:586-618`: the new component is a copy of the old one, its data pointer included, so the
samples are replaced in place. -/
def mapChannel (pc : Pclr) (old : List Comp) (H : Heap) (c : Map) (ch : Nat × Nat) : R (Heap × Comp) :=
  match old[c.cmp]? with
  | none => .error .panic
  | some oc => do
    let nc : Comp := { oc with prec := ch.1, sgnd := ch.2 }
    let src ← samples H oc
    if c.mtyp = 0 then return (store H nc src, nc)
    else do
      let ys ← lookups pc c.pcol src
      return (store H nc ys, nc)

/-- The loop over the channels, `jp2.rs:579-619`. -/
def mapChannels (pc : Pclr) (old : List Comp) : List (Map × (Nat × Nat)) → Heap → R (Heap × List Comp)
  | [], H => .ok (H, [])
  | x :: xs, H => do
    let (H, nc) ← mapChannel pc old H x.1 x.2
    let (H, ncs) ← mapChannels pc old xs H
    return (H, nc :: ncs)

/-- `opj_jp2_apply_pclr`, `jp2.rs:538-620`, up to its return: new components are made for `nr_channels`. -/
def mapPalette (pc : Pclr) (comps : List Comp) (H : Heap) : R (Heap × List Comp) := do
  refuseIf (comps = [])
  checkUse comps 0 pc.cmap
  let (H, ncs) ← mapChannels pc comps ((pc.cmap.zip pc.channel).take pc.nrChannels) H
  return (H, ncs ++ List.replicate (pc.nrChannels - ncs.length) {})

/-- `opj_jp2_apply_pclr` with the drop of `old` at its return, which frees the samples of the old components. -/
def applyPclr (pc : Pclr) (comps : List Comp) (H : Heap) : R (Heap × List Comp) := do
  let (H, ncs) ← mapPalette pc comps H
  let H ← freeAll comps H
  return (H, ncs)

/-! ## Channel definitions -/

/-- Sets the kind of a component. -/
def setAlpha (comps : List Comp) (i v : Nat) : List Comp := comps.modify i fun c => { c with alpha := v }

/-- Exchanges two components. -/
def swapComps (comps : List Comp) (i k : Nat) : List Comp :=
  match comps[i]?, comps[k]? with
  | some a, some b => (comps.set i b).set k a
  | _, _ => comps

/-- Exchange of two channel numbers in a definition, `jp2.rs:779-788`. -/
def swapCn (i k : Nat) (d : Def) : Def := if d.cn = i then { d with cn := k } else if d.cn = k then { d with cn := i } else d

set_option wf.preprocess false in
/-- `opj_jp2_apply_cdef`, `jp2.rs:731-798`: the definitions from the present one on. -/
def applyCdef : List Def → List Comp → List Comp
  | [], comps => comps
  | d :: ds, comps =>
    if comps.length ≤ d.cn then applyCdef ds comps
    else if d.asoc = 0 ∨ d.asoc = 65535 then applyCdef ds (setAlpha comps d.cn d.typ)
    else if comps.length ≤ d.asoc - 1 then applyCdef ds comps
    else if d.cn ≠ d.asoc - 1 ∧ d.typ = 0 then
      applyCdef (ds.map (swapCn d.cn (d.asoc - 1))) (setAlpha (swapComps comps d.cn (d.asoc - 1)) d.cn d.typ)
    else applyCdef ds (setAlpha comps d.cn d.typ)
  termination_by ds => ds.length
  decreasing_by all_goals simp

/-- Palette, if there is a mapping for it (`jp2.rs:975-983`). -/
def palette (pclr : Option Pclr) (comps : List Comp) (H : Heap) : R (Heap × List Comp) :=
  match pclr with
  | none => .ok (H, comps)
  | some pc => if pc.cmap = [] then .ok (H, comps) else applyPclr pc comps H

/-- Channel definitions, if there are any (`jp2.rs:984-987`). -/
def define (cdef : Option (List Def)) (comps : List Comp) : List Comp :=
  match cdef with
  | none => comps
  | some ds => applyCdef ds comps

/-- `opj_jp2_apply_color_postprocessing`, `jp2.rs:961-991`, on the decoded components: `toDecode` is
`m_numcomps_to_decode`, `ignore` the flag `OPJ_DPARAMETERS_IGNORE_PCLR_CMAP_CDEF_FLAG`. -/
def applyColor (toDecode : Nat) (ignore : Bool) (j : Codec) (comps : List Comp) (H : Heap) : R (Heap × List Comp) :=
  if toDecode ≠ 0 then .ok (H, comps)
  else if ignore then .ok (H, comps)
  else do
    let pclr ← checkColor comps.length j.pclr j.cdef
    let (H, comps) ← palette pclr comps H
    return (H, define j.cdef comps)

end Jp2.Box

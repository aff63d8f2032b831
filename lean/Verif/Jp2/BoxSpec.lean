import Verif.Jp2.Box
/-!
# What a JP2 file is (Annex I of ITU-T T.800)
-/
namespace Jp2.Box
open Hdr (be)

/-- The number four characters stand for. -/
def code (a b c d : Char) : Nat := ((a.toNat * 256 + b.toNat) * 256 + c.toNat) * 256 + d.toNat

/-- A box (I.4): length (counting itself), type, contents. -/
def box (ty : Nat) (body : List UInt8) : List UInt8 := be 4 (8 + body.length) ++ be 4 ty ++ body

/-- A box with its length in the extended field (I.4); the upper half of the field is zero. -/
def longBox (ty : Nat) (body : List UInt8) : List UInt8 := be 4 1 ++ be 4 ty ++ be 4 0 ++ be 4 (16 + body.length) ++ body

/-- A box of less than 4 GiB, in either form. -/
def IsBox (ty : Nat) (body bytes : List UInt8) : Prop :=
  ty < 2 ^ 32 ∧ body.length + 16 < 2 ^ 32 ∧ (bytes = box ty body ∨ bytes = longBox ty body)

/-- A sequence of boxes. -/
inductive Boxes : List (Nat × List UInt8) → List UInt8 → Prop
  | nil : Boxes [] []
  | cons {ty : Nat} {body b bs : List UInt8} {l : List (Nat × List UInt8)} :
      IsBox ty body b → Boxes l bs → Boxes ((ty, body) :: l) (b ++ bs)

/-- The codestream box: any form, or the one that reaches to the end of the file. -/
def IsLast (codestream bytes : List UInt8) : Prop :=
  IsBox (code 'j' 'p' '2' 'c') codestream bytes ∨
  (codestream.length + 8 < 2 ^ 32 ∧ bytes = be 4 0 ++ be 4 (code 'j' 'p' '2' 'c') ++ codestream)

/-- The boxes the JP2 header box of a file may hold that describe the image. -/
def headerTypes : List Nat :=
  [code 'i' 'h' 'd' 'r', code 'b' 'p' 'c' 'c', code 'c' 'o' 'l' 'r', code 'p' 'c' 'l' 'r', code 'c' 'm' 'a' 'p', code 'c' 'd' 'e' 'f']

/-- The boxes a file consists of. -/
def fileTypes : List Nat := [code 'j' 'P' ' ' ' ', code 'f' 't' 'y' 'p', code 'j' 'p' '2' 'h', code 'j' 'p' '2' 'c']

/-- A box a reader does not know: it is to be ignored. -/
def Unknown (ty : Nat) : Prop := ty ∉ headerTypes ∧ ty ∉ fileTypes

/-- The signature of a JP2 file. -/
def magic : List UInt8 := [0x0D, 0x0A, 0x87, 0x0A]

/-- A file: signature, file type, header and codestream, with other boxes `x1` and `x2` in front of the header and
of the codestream. -/
structure IsFile (ftyp : List UInt8) (x1 : List (Nat × List UInt8)) (header : List (Nat × List UInt8))
    (x2 : List (Nat × List UInt8)) (codestream bytes : List UInt8) : Prop where
  parts : ∃ a b c d e f hb, bytes = a ++ b ++ c ++ d ++ e ++ f ∧ IsBox (code 'j' 'P' ' ' ' ') magic a ∧
    IsBox (code 'f' 't' 'y' 'p') ftyp b ∧ Boxes x1 c ∧ Boxes header hb ∧ IsBox (code 'j' 'p' '2' 'h') hb d ∧ Boxes x2 e ∧
    IsLast codestream f

/-- What a codec knows from the boxes of a file, apart from which boxes it has met. -/
def Codec.known (j : Codec) : Codec := { j with state := 0, imgState := 0 }

/-- A box header in front of `n` bytes of contents. -/
def IsHead (ty n : Nat) (bytes : List UInt8) : Prop :=
  bytes = be 4 (8 + n) ++ be 4 ty ∨ bytes = be 4 1 ++ be 4 ty ++ be 4 0 ++ be 4 (16 + n)

/-- The next box of the data is of type `ty`. -/
def Starts (ty : Nat) (data : List UInt8) : Prop := (data.drop 4).take 4 = be 4 ty

/-- A palette that can be applied. -/
structure PclrOk (pc : Pclr) : Prop where
  entries : 1 ≤ pc.nrEntries ∧ pc.nrEntries ≤ 1024
  channels : 1 ≤ pc.nrChannels ∧ pc.nrChannels ≤ 255
  channel : pc.channel.length = pc.nrChannels
  sizes : ∀ c ∈ pc.channel, (1 ≤ c.1 ∧ c.1 ≤ 128) ∧ c.2 ≤ 1
  len : pc.entries.length = pc.nrEntries * pc.nrChannels
  range : ∀ v ∈ pc.entries, v < 2 ^ 32
  cmap : pc.cmap = [] ∨ pc.cmap.length = pc.nrChannels
  maps : ∀ m ∈ pc.cmap, m.cmp < 65536 ∧ m.mtyp < 256 ∧ m.pcol < 256

/-- Somewhere in the bytes: the type of a palette box, then (behind 8 more bytes for a long box) the number of
entries and a number of columns above 15; and overflow is checked. -/
def Wide (m : Mode) (data : List UInt8) : Prop :=
  m = .checked ∧ ∃ a c k b, data = a ++ be 4 tPCLR ++ c ++ k :: b ∧ (c.length = 2 ∨ c.length = 10) ∧ 16 ≤ k.toNat

/-! ## The file an encoder has to write -/

/-- Bit depth of a component (Table I.6): the sign in the upper bit. -/
def bits (c : Source) : Nat := c.prec - 1 + 128 * c.sgnd

/-- All components have one depth and sign. -/
def Uniform (cs : List Source) : Prop := ∀ a ∈ cs, ∀ b ∈ cs, bits a = bits b

instance (cs : List Source) : Decidable (Uniform cs) := by unfold Uniform; infer_instance

/-- If all components have one depth, they have one sign. -/
def Agree (cs : List Source) : Prop := (∀ a ∈ cs, ∀ b ∈ cs, a.prec = b.prec) → Uniform cs

/-- The bit depths (Table I.6) the boxes give to the components. -/
def depths (j : Codec) : List Nat := if j.bpc = 255 then j.comps else List.replicate j.comps.length j.bpc

/-- The number of an enumerated colour space (Table I.10): sRGB, greyscale, sYCC. -/
def enumerated (colorSpace : Int) : Nat := if colorSpace = 1 then 16 else if colorSpace = 2 then 17 else if colorSpace = 3 then 18 else 0

/-- The channel definitions (I.5.3.6) for `col` colour channels followed by others, of which `a` is opacity for
the whole image. -/
def channelDefs (n col a : Nat) : List Def :=
  (List.range n).map fun i => if i < col then ⟨i, 0, i + 1⟩ else if i = a then ⟨i, 1, 0⟩ else ⟨i, 65535, 65535⟩

/-- The file for an image (I.2.2, I.5): all boxes, with `defs` as its channel definitions if there are any. -/
def stdFile (im : Image) (defs : List Def) (codestream : List UInt8) : List UInt8 :=
  box (code 'j' 'P' ' ' ' ') magic ++
  box (code 'f' 't' 'y' 'p') (be 4 (code 'j' 'p' '2' ' ') ++ be 4 0 ++ be 4 (code 'j' 'p' '2' ' ')) ++
  box (code 'j' 'p' '2' 'h')
    (box (code 'i' 'h' 'd' 'r') (be 4 (im.y1 - im.y0) ++ be 4 (im.x1 - im.x0) ++ be 2 im.comps.length ++
        be 1 (if Uniform im.comps then (im.comps.head?.map bits).getD 0 else 255) ++ [7, 0, 0]) ++
      (if Uniform im.comps then [] else box (code 'b' 'p' 'c' 'c') (im.comps.flatMap fun c => be 1 (bits c))) ++
      box (code 'c' 'o' 'l' 'r') ([1, 0, 0] ++ be 4 (enumerated im.colorSpace)) ++
      (if defs = [] then [] else box (code 'c' 'd' 'e' 'f') (be 2 defs.length ++ defs.flatMap fun d => be 2 d.cn ++ be 2 d.typ ++ be 2 d.asoc))) ++
  box (code 'j' 'p' '2' 'c') codestream

/-- An image the encoder takes, without a colour profile. -/
structure Encodable (im : Image) : Prop where
  x : im.x0 < im.x1 ∧ im.x1 < 2 ^ 32
  y : im.y0 < im.y1 ∧ im.y1 < 2 ^ 32
  comps : 1 ≤ im.comps.length ∧ im.comps.length ≤ 16384
  prec : ∀ c ∈ im.comps, (1 ≤ c.prec ∧ c.prec ≤ 38) ∧ c.sgnd ≤ 1
  icc : im.iccLen = 0

/-- The channel definitions an image is given: exactly one component is marked as opacity, the colour space has
`col` colours, and the opacity stands behind them. -/
def defsFor (im : Image) : List Def :=
  let col := if im.colorSpace = 1 ∨ im.colorSpace = 3 then 3 else if im.colorSpace = 2 then 1 else 0
  let marked := (List.range im.comps.length).filter fun i => (im.comps[i]?.map Source.alpha).getD 0 ≠ 0
  match marked with
  | [a] => if 0 < col ∧ col ≤ a then channelDefs im.comps.length col a else []
  | _ => []

end Jp2.Box

import Verif.Jp2.BoxColor
import Verif.Jp2.BoxSpec
/-!
# Palettes and channel definitions (Annex I.5.3 of ITU-T T.800): specification
-/
namespace Jp2.Box

/-- A decoded image: every component has its own live block with at least its samples. -/
structure Loaded (H : Heap) (comps : List Comp) : Prop where
  live : ∀ c ∈ comps, ∃ b xs, c.data = some b ∧ H[b]? = some (some xs) ∧ c.w * c.h ≤ xs.length
  own : (comps.filterMap Comp.data).Nodup

/-- Row of the palette an index selects; indices outside take the first or last row. -/
def row (n : Nat) (v : Int) : Nat := min v.toNat (n - 1)

/-- The entry of a palette (I.5.3.4): entries are kept row by row. -/
def entry (pc : Pclr) (r c : Nat) : Int := toI32 (pc.entries.getD (r * pc.nrChannels + c) 0)

/-- The samples of a channel (I.5.3.5), from those of the component it is made of. -/
def channelSamples (pc : Pclr) (m : Map) (src : List Int) : List Int :=
  if m.mtyp = 0 then src else src.map fun v => entry pc (row pc.nrEntries v) m.pcol

/-- A component mapping as the standard has it (Tables I.13, I.14): components that exist, direct use with column 0,
or the palette with the column of the channel's own number. -/
structure MapOk (numcomps nr i : Nat) (m : Map) : Prop where
  cmp : m.cmp < numcomps
  col : m.pcol < nr
  kind : (m.mtyp = 0 ∧ m.pcol = 0) ∨ (m.mtyp = 1 ∧ m.pcol = i)

/-- A component has no live samples. -/
def Dangling (H : Heap) (c : Comp) : Prop := ∃ b, c.data = some b ∧ H[b]? = some none

/-- A colour channel in a channel definition (I.5.3.6): type 0 with an association to a colour. -/
def IsColor (d : Def) : Prop := d.typ = 0 ∧ d.asoc ≠ 0 ∧ d.asoc ≠ 65535

instance (d : Def) : Decidable (IsColor d) := by unfold IsColor; infer_instance

/-- Channel definitions for `n` channels (I.5.3.6): every channel has exactly one definition, colours are those of the
channels, and no two colour channels have the same colour. -/
structure DefsOk (n : Nat) (ds : List Def) : Prop where
  cn : ∀ d ∈ ds, d.cn < n
  asoc : ∀ d ∈ ds, d.asoc = 65535 ∨ d.asoc ≤ n
  own : (ds.map Def.cn).Nodup
  all : ∀ c < n, ∃ d ∈ ds, d.cn = c
  colors : ((ds.filter fun d => decide (IsColor d)).map Def.asoc).Nodup

/-- A component apart from its kind. -/
def Comp.body (c : Comp) : Comp := { c with alpha := 0 }

/-- The type given to a channel by the definitions. -/
def kind (ds : List Def) (c : Nat) : Nat := ((ds.find? fun d => d.cn == c).map Def.typ).getD 0

/-- The components, each marked with the type its definition gives it. -/
def typed (ds : List Def) (comps : List Comp) : List Comp := comps.mapIdx fun c x => { x with alpha := kind ds c }

end Jp2.Box

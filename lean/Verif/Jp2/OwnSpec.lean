import Verif.Jp2.Own
/-! # What C80 talks about: the memory of images -/
namespace Jp2.Own

/-- The buffers of samples of components. -/
def datas (cs : List Comp) : List Nat := cs.flatMap fun c => c.data.toList
/-- The buffers of samples of an image. -/
def samples (im : Img) : List Nat := match im.comps with | none => [] | some (_, cs) => datas cs
/-- The array of components and the buffers of their samples. -/
def ownedComps (im : Img) : List Nat := match im.comps with | none => [] | some (p, cs) => p :: datas cs
/-- The buffer of the profile. -/
def ownedIcc (im : Img) : List Nat := (im.icc.map Prod.fst).toList
/-- Every allocation an image points to. -/
def owned (im : Img) : List Nat := ownedComps im ++ ownedIcc im

/-- The operation clones an image that has samples. -/
def ClonesSamples (o : Op) (w : World) : Prop :=
  match o with
  | .clone i => ∃ im, w.imgs[i]? = some im ∧ samples im ≠ []
  | _ => False

/-- The operation gives an image a profile that has one already. -/
def Overwrites (o : Op) (w : World) : Prop :=
  match o with
  | .copyIcc i len => len ≠ 0 ∧ ∃ im, w.imgs[i]? = some im ∧ im.icc ≠ none
  | .copyHeader s d => s ≠ d ∧ ∃ src dst, w.imgs[s]? = some src ∧ w.imgs[d]? = some dst ∧ src.icc ≠ none ∧ dst.icc ≠ none
  | _ => False

/-- No operation of the history is such. -/
def Never (P : Op → World → Prop) : List Op → World → Prop
  | [], _ => True
  | o :: l, w => ¬ P o w ∧ ∀ w', step o w = some w' → Never P l w'

end Jp2.Own

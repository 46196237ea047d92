import Verif.Model.Load
/-!
Where `load` is to look, in order: in every directory of the path for the name itself, the name with an extension, and in
the directory of that name for its last component, without and with an extension.
-/
namespace Potion.Load
open Potion

/-- A file, or the file with an extension. -/
def withExts (p : Path) : List Path := [p, p ++ pnb, p ++ pn, p ++ so]

/-- The last component of a name. -/
def IsBase (name last : List Byte) : Prop :=
  slash ∉ last ∧ (name = last ∨ ∃ d, name = d ++ [slash] ++ last)

def candidates (name last dir : Path) : List Path :=
  withExts (dir ++ [slash] ++ name) ++ withExts (dir ++ [slash] ++ name ++ [slash] ++ last)

/-- The first of the candidates that is a file. -/
def found (fs : Fs) (paths : List Path) (name last : Path) : Option Path :=
  (paths.flatMap (candidates name last)).find? fun p => (fs p).isSome

end Potion.Load

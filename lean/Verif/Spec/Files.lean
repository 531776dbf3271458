import Verif.Model.Search
/-
Which files a directory holds, without any search order.
-/
namespace Spec.Files
open Model.Search

/-- The file with this path (from the directory) is in the directory tree. -/
inductive Holds : Dir → List Str → Prop
  | here {files : List Str} {dirs : List (Str × Dir)} {f : Str} (h : f ∈ files) : Holds (.mk files dirs) [f]
  | inside {files : List Str} {dirs : List (Str × Dir)} {d : Str} {t : Dir} {p : List Str} (h : (d, t) ∈ dirs) (hp : Holds t p) :
      Holds (.mk files dirs) (d :: p)

/-- A container holds what the name asks for: a directory one (below the given sub-directory) whose last part is the name up to
letter case, a zip file an entry with the full name up to letter case. -/
def Offers (path : List Str) (name : Str) : Container → Hit → Prop
  | .absent, _ => False
  | .zip names, .entry e => e ∈ names ∧ Model.PyStr.lower e = Model.PyStr.lower (joined path name)
  | .zip _, .path _ => False
  | .dir _, .entry _ => False
  | .dir t, .path p => ∃ (sub : Dir) (q : List Str) (f : Str), t.at path = some sub ∧ Holds sub (q ++ [f]) ∧
      Model.PyStr.lower f = Model.PyStr.lower name ∧ p = path ++ (q ++ [f])

end Spec.Files

/-
Files and command lines of simulations. Independent of the model.
-/
namespace Spec.CmdLine
abbrev Str := List Char

/-- A netlist path: directory (empty or ending in a slash), stem and extension. -/
structure File where
  dir : Str
  stem : Str
  ext : Str

structure File.Ok (f : File) : Prop where
  dir : f.dir = [] ∨ f.dir.getLast? = some '/'
  stem : f.stem ≠ [] ∧ '/' ∉ f.stem
  ext : f.ext ≠ [] ∧ '/' ∉ f.ext ∧ '.' ∉ f.ext

def File.path (f : File) : Str := f.dir ++ f.stem ++ '.' :: f.ext

/-- The file of the same name with another extension. -/
def File.beside (f : File) (ext : Str) : Str := f.dir ++ f.stem ++ ext

/-- The option `o` is followed by the value `v`. -/
def HasOption (cmd : List Str) (o v : Str) : Prop := ∃ a b, cmd = a ++ o :: v :: b

/-- The words `ws` appear together and in their order. -/
def Inside (ws cmd : List Str) : Prop := ∃ a b, cmd = a ++ ws ++ b

end Spec.CmdLine

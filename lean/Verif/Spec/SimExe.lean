import Verif.Model.SimExe
/-
Specification vocabulary for the command of a simulator and its library directories.
-/
namespace Spec.SimExe
open Model.SimExe (Str)

def Blank (c : Char) : Prop := c = ' ' ∨ c = '\t' ∨ c = '\r' ∨ c = '\n'

/-- How a section of a command may be written: as it is, if it is not empty and has neither blanks nor quotes, or between quotes of a kind it does not have. -/
inductive Written : Str → Str → Prop where
  | plain (w : Str) (h : w ≠ []) (hc : ∀ c ∈ w, ¬ Blank c ∧ c ≠ '"' ∧ c ≠ '\'') : Written w w
  | quoted (w : Str) (q : Char) (hq : q = '"' ∨ q = '\'') (h : q ∉ w) : Written w (q :: (w ++ [q]))

/-- A command: its sections with blanks between them, and possibly around them. -/
inductive Command : List Str → Str → Prop where
  | nil (s : Str) (h : ∀ c ∈ s, Blank c) : Command [] s
  | cons (b t : Str) (w : Str) (ws : List Str) (rest : Str) (hb : ∀ c ∈ b, Blank c) (ht : Written w t) (hr : Command ws rest)
      (hs : rest = [] ∨ ∃ c r, rest = c :: r ∧ Blank c) : Command (w :: ws) (b ++ t ++ rest)

/-- Where a directory of the simulator is on the machine that runs it under wine: the drive C and the home directory are below `root`. -/
def host (root user : Str) : Str → Str
  | '~' :: r => root ++ "/drive_c/users/".toList ++ user ++ r
  | 'C' :: ':' :: '/' :: r => root ++ "/drive_c/".toList ++ r
  | 'c' :: ':' :: '/' :: r => root ++ "/drive_c/".toList ++ r
  | p => p

end Spec.SimExe

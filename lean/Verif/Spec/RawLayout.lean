/-
Specification of where samples are stored in the data section of a binary RAW file, independent of the code.
`widths` are the numbers of bytes per sample of the traces, `n` the number of points.
-/
namespace Spec.RawLayout

/-- Offset of sample `j` of trace `i` when the traces are stored one after the other ("fast access"). -/
def fastOffset (widths : List Nat) (n i j : Nat) : Nat := n * (widths.take i).sum + j * widths.getD i 0

/-- Offset of sample `j` of trace `i` when the points are stored one after the other. -/
def pointOffset (widths : List Nat) (i j : Nat) : Nat := j * widths.sum + (widths.take i).sum

/-- The samples of trace `i` in the bytes of a data section. -/
def samples {B : Type} (fast : Bool) (widths : List Nat) (n : Nat) (bytes : List B) (i : Nat) : List (List B) :=
  (List.range n).map (fun j =>
    (bytes.drop (if fast then fastOffset widths n i j else pointOffset widths i j)).take (widths.getD i 0))

end Spec.RawLayout

/-
Reading a CSV file: fields separated by a delimiter, rows ended by line breaks, fields in quotes may contain delimiters and line breaks, and quotes if doubled.
The reader says of every field whether it stood in quotes.
-/
namespace Spec.Csv

abbrev Str := List Char

/-- Where the reader is. -/
inductive At
  | start    -- at the beginning of a field
  | plain    -- in a field without quotes
  | inside   -- between quotes
  | after    -- behind a quote that may end the field
  deriving DecidableEq

abbrev Cell := Str × Bool

/-- `cur` is the field so far, `cells` the fields of the row so far. -/
def read (delim : Char) : At → Str → List Cell → Str → List (List Cell)
  | .start, _, [], [] => []
  | p, cur, cells, [] => [cells ++ [(cur, p = .inside || p = .after)]]
  | .inside, cur, cells, c :: r =>
    if c = '"' then read delim .after cur cells r else read delim .inside (cur ++ [c]) cells r
  | .start, cur, cells, c :: r =>
    if c = '"' then read delim .inside cur cells r
    else if c = delim then read delim .start [] (cells ++ [(cur, false)]) r
    else if c = '\r' then read delim .start cur cells r
    else if c = '\n' then (cells ++ [(cur, false)]) :: read delim .start [] [] r
    else read delim .plain (cur ++ [c]) cells r
  | .plain, cur, cells, c :: r =>
    if c = delim then read delim .start [] (cells ++ [(cur, false)]) r
    else if c = '\r' then read delim .plain cur cells r
    else if c = '\n' then (cells ++ [(cur, false)]) :: read delim .start [] [] r
    else read delim .plain (cur ++ [c]) cells r
  | .after, cur, cells, c :: r =>
    if c = '"' then read delim .inside (cur ++ [c]) cells r
    else if c = delim then read delim .start [] (cells ++ [(cur, true)]) r
    else if c = '\r' then read delim .after cur cells r
    else if c = '\n' then (cells ++ [(cur, true)]) :: read delim .start [] [] r
    else read delim .plain (cur ++ [c]) cells r

/-- The rows of a file. -/
def table (delim : Char) (text : Str) : List (List Cell) := read delim .start [] [] text

end Spec.Csv

/-
Model of split_line_into_values (spicelib/log/logfile_data.py 104-143).
-/
namespace Model.SplitLine

/-- A value of the returned list. `text s` stands for `try_convert_value(s)` (76-101), whose result is a function
of the piece of text `s` only; `missing` is Python's None (136); `group` is a nested list (125-126). -/
inductive Val where
  | text (s : List Char)
  | missing
  | group (vs : List Val)

/-- logfile_data.py 115-120: the closing bracket expected after an opening one. -/
def closer (c : Char) : Option Char :=
  if c = '(' then some ')' else if c = '[' then some ']' else if c = '{' then some '}' else none

/-- logfile_data.py 128. -/
def isBlank (c : Char) : Bool := c = ' ' || c = '\t' || c = '\r' || c = '\n'

/-- logfile_data.py 132. -/
def isComma (c : Char) : Bool := c = ',' || c = ';'

/-- logfile_data.py 114-142, the loop. `stack` is `parenthesis`, `cur` is `line[value_start:i]`, the last argument
is the rest of the line. `inner` is the recursive call of line 125. `none` = an exception. -/
def loop (inner : List Char → Option (List Val)) : List Char → List Char → List Val → List Char → Option (List Val)
  | stack, cur, vals, [] =>
    if stack ≠ [] then none                                             -- 140-142
    else if cur ≠ [] then some (vals ++ [.text cur])                    -- 138-139
    else some vals
  | stack, cur, vals, c :: rest =>
    match closer c with
    | some cl => loop inner (cl :: stack) (cur ++ [c]) vals rest         -- 115-120
    | none =>
      match stack with
      | top :: below =>                                                 -- 121
        if c = top then
          if below = [] then                                            -- 124
            match inner cur.tail with                                   -- 125: line[value_start+1:i]
            | none => none
            | some vs => loop inner [] [] (vals ++ [.group vs]) rest
          else loop inner below (cur ++ [c]) vals rest
        else loop inner stack (cur ++ [c]) vals rest
      | [] =>
        if isBlank c then                                               -- 128-131
          loop inner [] [] (if cur ≠ [] then vals ++ [.text cur] else vals) rest
        else if isComma c then                                          -- 132-137
          loop inner [] [] (if cur ≠ [] then vals ++ [.text cur] else vals ++ [.missing]) rest
        else loop inner [] (cur ++ [c]) vals rest

/-- logfile_data.py 104-143 with a bound on the recursion depth. For the empty line `i` stays 0 and line 138 tests
`0 < 1`, so the empty text is returned as the only value. -/
def splitFuel : Nat → List Char → Option (List Val)
  | 0, _ => none
  | n + 1, line => if line = [] then some [.text []] else loop (splitFuel n) [] [] [] line

/-- logfile_data.py 104-143. The recursive calls are on strictly shorter lines, so a depth of `line.length + 1` is
never exhausted (`Props.SplitLine.C22_fuel_irrelevant`). -/
def split (line : List Char) : Option (List Val) := splitFuel (line.length + 1) line

end Model.SplitLine

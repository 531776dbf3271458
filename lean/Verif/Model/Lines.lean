/-
Model of separate_lines (spicelib/editor/spice_subcircuit.py 91-156): a character stream is cut into logical lines.

The generator is modelled by the list of the lines it yields, and whether it ends with an exception.
-/
namespace Model.Lines

abbrev Str := List Char

/-- What the generator yields and whether it then raises MissingExpectedClauseError. -/
structure Out where
  lines : List Str
  raised : Bool
  deriving DecidableEq, Repr

def Out.cons (l : Str) (o : Out) : Out := ⟨l :: o.lines, o.raised⟩

def isOpening (c : Char) : Bool := c = '{' || c = '(' || c = '['
def isClosing (c : Char) : Bool := c = '}' || c = ')' || c = ']'
def isBreak (c : Char) : Bool := c = '\n' || c = '\r'

/-- 121: `closing` is the character found on the stack. -/
def mismatch (c closing : Char) : Bool :=
  (c = '}' && closing ≠ '{') || (c = ')' && closing ≠ '(') || (c = ']' && closing ≠ '[')

/-- spice_subcircuit.py 91-156. `cur` is current_line, `stack` braces_stack (last pushed first), `q` in_quotes; `com` is true
while stream.readline() is running (144, 151), which goes up to the next '\n' or the end. The character that the code reads
in advance (132) is processed at the next turn unless it is dropped. -/
def sep (cur : Str) (stack : List Char) (q com : Bool) : Str → Out
  | [] => ⟨if cur.isEmpty then [] else [cur], false⟩                                                -- 111-114
  | c :: cs =>
    if com then
      if c = '\n' then (sep [] stack q false cs).cons (cur ++ [c]) else sep (cur ++ [c]) stack q true cs
    else if isOpening c then sep (cur ++ [c]) (c :: stack) q false cs                               -- 116-117
    else if isClosing c then                                                                        -- 118-124
      match stack with
      | [] => ⟨[], true⟩
      | o :: st => if mismatch c o then ⟨[], true⟩ else sep (cur ++ [c]) st q false cs
    else if c = '"' then sep (cur ++ [c]) stack (!q) false cs                                        -- 125-126
    else if isBreak c then
      if stack.isEmpty && !q then                                                                   -- 130
        match cs with
        | [] => ⟨[cur ++ [c]], false⟩                                                               -- 140
        | d :: ds =>
          if d = '+' then sep cur stack q false ds                                                  -- 133-134
          else if (d = '\n' && c = '\r') || (d = '\r' && c = '\n') then sep (cur ++ [c]) stack q false (d :: ds)  -- 135-138
          else (sep [] stack q false (d :: ds)).cons (cur ++ [c])                                   -- 140-141
      else sep (cur ++ [c]) stack q false cs                                                        -- 156
    else if c = '*' && cur.isEmpty && stack.isEmpty && !q then sep (cur ++ [c]) stack q true cs     -- 143-149
    else if c = ';' && stack.isEmpty && !q then sep (cur ++ [c]) stack q true cs                     -- 151-155
    else sep (cur ++ [c]) stack q false cs                                                          -- 156

/-- separate_lines(stream) -/
def separateLines (s : Str) : Out := sep [] [] false false s

end Model.Lines

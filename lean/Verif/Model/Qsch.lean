import Verif.Model.PyStr
/-
The tag tree of QSpice schematics: spicelib/editor/qsch_editor.py, class QschTag.

Simplifications: the stream is a list of characters and positions are the remaining text; Python's recursion limit is not
modelled; `float(a)` in get_attr is not modelled (a token that is no integer is kept as its text).
-/
namespace Model.Qsch
open Model.PyStr

abbrev Str := List Char

/-- class QschTag (qsch_editor.py 187-197): the tokens of the tag and its child tags. -/
inductive Tag where
  | mk (tokens : List Str) (items : List Tag)
  deriving Inhabited

def Tag.tokens : Tag → List Str
  | .mk t _ => t
def Tag.items : Tag → List Tag
  | .mk _ i => i

/-- How reading can fail: OSError (line 232), IndexError in the quote loop (220), ValueError of the unpacking (236),
AssertionError (209). -/
inductive Err where
  | missingClose | openQuote | twoColons | noTag
  deriving DecidableEq

/-- The text up to the next quote and what follows it; none when there is no quote (lines 217-221, and `"[^"]*"` in 180). -/
def skipQuote : Str → Option (Str × Str)
  | [] => none
  | c :: r => if c = '"' then some ([], r) else (skipQuote r).map (fun p => (c :: p.1, p.2))

/-- smart_split (qsch_editor.py 178-180): `re.findall(r'[^"\s]+|"[^"]*"', s)`. The first argument bounds the number of
steps and is the length of the text. -/
def smartSplitN : Nat → Str → List Str
  | 0, _ => []
  | _ + 1, [] => []
  | n + 1, c :: r =>
    if c = '"' then
      match skipQuote r with
      | some (q, r') => ('"' :: q ++ ['"']) :: smartSplitN n r'
      | none => smartSplitN n r
    else if isSpace c then smartSplitN n r
    else (c :: r.takeWhile (fun d => d ≠ '"' && !isSpace d)) :: smartSplitN n (r.dropWhile (fun d => d ≠ '"' && !isSpace d))

def smartSplit (s : Str) : List Str := smartSplitN s.length s

/-- `line.split(': ')` (line 236) -/
def splitColon : Str → List Str
  | ':' :: ' ' :: r => [] :: splitColon r
  | [] => [[]]
  | c :: r => match splitColon r with
    | [] => [[c]]
    | w :: ws => (c :: w) :: ws

/-- The end of QschTag.parse (lines 233-240): the tokens of the last line. -/
def lastTokens (line : Str) : Except Err (List Str) :=
  if contains [':', ' '] line then
    match splitColon line with
    | [name, text] => .ok [name ++ [':'], text]
    | _ => .error .twoColons
  else .ok (smartSplit line)

/-- The loop of QschTag.parse (lines 210-232). `s` is the stream from position i on, `cur` is stream[i0:i], `toks` and
`items` are the fields of the tag being built. The first argument bounds the number of steps. After a child the character
following its » is skipped, whatever it is (lines 214-215 and 230). -/
def loop : Nat → Str → Str → List Str → List Tag → Except Err (Tag × Str)
  | 0, _, _, _, _ => .error .missingClose
  | _ + 1, [], _, _, _ => .error .missingClose
  | n + 1, c :: r, cur, toks, items =>
    if c = '«' then
      match loop n r [] [] [] with
      | .error e => .error e
      | .ok (child, []) => let _ := child; .error .missingClose
      | .ok (child, _ :: r') => loop n r' [] toks (items ++ [child])
    else if c = '"' then
      match skipQuote r with
      | none => .error .openQuote
      | some (q, r') => loop n r' (cur ++ '"' :: q ++ ['"']) toks items
    else if c = '»' then
      match lastTokens cur with
      | .error e => .error e
      | .ok ts => .ok (.mk (toks ++ ts) items, r)
    else if c = '\n' then loop n r [] (if cur = [] then toks else toks ++ smartSplit cur) items
    else loop n r (cur ++ [c]) toks items

/-- QschTag.parse (lines 199-241): the tag at the start of the stream and the rest of the stream after it. -/
def parse (s : Str) : Except Err (Tag × Str) :=
  match s with
  | '«' :: r => loop (r.length + 1) r [] [] []
  | _ => .error .noTag

/-- `' '.join(tokens)` (line 256) -/
def join : List Str → Str
  | [] => []
  | [w] => w
  | w :: x :: ws => w ++ ' ' :: join (x :: ws)

/-- `'  ' * level` (line 254) -/
def indent (level : Nat) : Str := List.replicate (2 * level) ' '

mutual
/-- QschTag.out (lines 247-260) -/
def Tag.out : Nat → Tag → Str
  | level, .mk toks [] => indent level ++ '«' :: join toks ++ ['»', '\n']
  | level, .mk toks (t :: ts) =>
    indent level ++ '«' :: join toks ++ '\n' :: outAll (level + 1) (t :: ts) ++ indent level ++ ['»', '\n']
def outAll : Nat → List Tag → Str
  | _, [] => []
  | level, t :: ts => t.out level ++ outAll level ts
end

/-- QSCH_HEADER (line 45) as written by save_as (598-599). -/
def header : Str := [Char.ofNat 255, Char.ofNat 216, Char.ofNat 255, Char.ofNat 219]

/-- The text written by QschEditor.save_as (lines 596-601). The cp1252 encoding is not modelled. -/
def fileText (t : Tag) : Str := header ++ t.out 0 ++ ['\n']

/-- QschEditor._parse_qsch_stream, its reading part (lines 897-904): none stands for QschReadingError. -/
def readFile (s : Str) : Option (Except Err (Tag × Str)) :=
  if s.take 4 = header then some (parse (s.drop 4)) else none

/-! ### Attributes -/

/-- The values get_attr returns (lines 272-299). `text` also stands for the float case. -/
inductive Attr where
  | int (n : Int)
  | tuple (l : List Int)
  | text (s : Str)
  deriving DecidableEq

/-- A hexadecimal digit -/
def hexDigit (c : Char) : Option Nat :=
  if c.isDigit then some (c.toNat - 48)
  else if 'a' ≤ c ∧ c ≤ 'f' then some (c.toNat - 87)
  else if 'A' ≤ c ∧ c ≤ 'F' then some (c.toNat - 55)
  else none

/-- `int(s, 16)` for hexadecimal digits only -/
def parseHex : Str → Option Nat
  | [] => none
  | s => s.foldl (fun acc c => match acc, hexDigit c with
      | some a, some d => some (16 * a + d)
      | _, _ => none) (some 0)

/-- All of a list, or nothing. -/
def allSome {α : Type} : List (Option α) → Option (List α)
  | [] => some []
  | some a :: l => (allSome l).map (a :: ·)
  | none :: _ => none

/-- get_attr of one token (lines 284-299); none stands for ValueError. -/
def getToken (a : Str) : Option Attr :=
  if a.head? = some '(' ∧ a.getLast? = some ')' then
    (allSome ((splitOn ',' (a.drop 1).dropLast).map parseInt)).map Attr.tuple
  else if a.take 2 = ['0', 'x'] then (parseHex (a.drop 2)).map (fun n => Attr.int n)
  else if a.head? = some '"' ∧ a.getLast? = some '"' then some (.text (a.drop 1).dropLast)
  else match parseInt a with
    | some n => some (.int n)
    | none => some (.text a)

/-- QschTag.get_attr (272-299): the outer none stands for IndexError or ValueError. -/
def Tag.getAttr (t : Tag) (i : Nat) : Option Attr := (t.tokens[i]?).bind getToken

/-- The values set_attr accepts; `other` stands for everything else, a float for instance (lines 301-321). -/
inductive Val where
  | int (n : Int)
  | str (s : Str)
  | pair (a b : Int)
  | other

/-- set_attr's textual form (lines 310-320); none stands for ValueError. -/
def Val.token : Val → Option Str
  | .int n => some (showInt n)
  | .str s => some (if s.take 2 = ['0', 'x'] then s else '"' :: s ++ ['"'])
  | .pair a b => some ('(' :: showInt a ++ ',' :: showInt b ++ [')'])
  | .other => none

/-- QschTag.set_attr (301-321): none stands for ValueError or IndexError. -/
def Tag.setAttr (t : Tag) (i : Nat) (v : Val) : Option Tag :=
  match v.token with
  | none => none
  | some w => if i < t.tokens.length then some (.mk (t.tokens.set i w) t.items) else none

/-- The rotation handed to set_position: a member of ERotation, or a plain integer. -/
inductive Rot where
  | enum (degrees : Nat)
  | int (degrees : Int)

/-- QschComponent.set_position (533-559), as far as the tag is concerned: the tag afterwards, and whether an exception was
raised. `rotation.value / 45` is a float, which set_attr refuses; the position has been written by then (556-557).
QSCH_COMPONENT_POS is 1 and QSCH_COMPONENT_ROTATION is 2 (lines 49-50). A tag with fewer tokens raises. -/
def setPosition (t : Tag) (x y : Int) (rot : Rot) (mirror : Bool) : Tag × Bool :=
  let v := match rot with
    | .enum _ => Val.other
    | .int d => Val.int ((d % 360) / 45 + if mirror then 8 else 0)
  match t.setAttr 1 (.pair x y) with
  | none => (t, true)
  | some t1 => match t1.setAttr 2 v with
    | none => (t1, true)
    | some t2 => (t2, false)

end Model.Qsch

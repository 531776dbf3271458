import Verif.Model.Regex
import Verif.Model.Params
import Verif.Model.SpiceParam
/-
The line of a component in a netlist: spicelib/editor/spice_utils.py 78-258 (the regular expressions), spicelib/editor/
spice_components.py 240-287 (SpiceComponent.reset_attributes) and 289-387 (rewrite_lines).

Simplifications: digits and the letters of units are ASCII (and µ); which characters are word characters (\w) is a parameter. Values
are text (numbers go through format_eng first, Model.FloatUnit). The numbers in parameters are kept as their text (Model.Params).
Nodes are their names. Not modelled: the elements @, Ã, Ø and ×.
-/
namespace Model.CompLine
open Model.PyStr Model.Regex
open Model.Params (PV parseParams showParams)
open Model.SpiceParam (insertSection)

/-- Which characters are word characters: at least the ASCII letters, digits and the underscore, and none of those that have a
meaning in a component line. -/
structure WordClass where
  word : Char → Bool
  ascii : ∀ c, (c.isAlphanum = true ∨ c = '_') → word c = true
  not : ∀ c, word c = true → isSpace c = false ∧ c ∉ ['=', ';', '"', '\'', '{', '}', '(', ')', '\\', '-', '+', '*', '/', '%', '.', ',', '§', '¥', '«', '»', ':']

def lit (c : Char) : Re := .cls (fun d => d = c)
/-- A letter in either case (re.IGNORECASE). -/
def ci (c : Char) : Re := .cls (fun d => d = c || d.toUpper = c)
def sp : Re := .cls isSpace
def dot : Re := .cls (fun c => c ≠ '\n')
def digit : Re := .cls Char.isDigit
def among (l : List Char) : Re := .cls (fun d => l.contains d || l.contains d.toLower)
def wordRe (w : WordClass) : Re := .cls w.word

/-- `[\w+-\.¥«»]`: `+-\.` is the range from + to the full stop. -/
def nodeChar (w : WordClass) (c : Char) : Bool := w.word c || c = '+' || c = ',' || c = '-' || c = '.' || c = '¥' || c = '«' || c = '»'

/-- spice_utils.py 78-105 -/
def designatorRe (w : WordClass) (prefix_ : Char) : Re := .grp .designator (.seq (ci prefix_) (.seq (opt (lit '§')) (plus (wordRe w))))
def nodeRe (w : WordClass) : Re := .seq (plus sp) (plus (.cls (nodeChar w)))
def prefixAndNodes (w : WordClass) (prefix_ : Char) (n m : Nat) : Re := .seq (designatorRe w prefix_) (.grp .nodes (range (nodeRe w) n m))

/-- spice_utils.py 116 -/
def commentRe : Re := .seq (opt (.seq (plus sp) (.seq (lit ';') (.star dot)))) (.seq (opt (lit '\\')) (.seq (.star sp) .eol))

/-- spice_utils.py 119 -/
def modelRe (w : WordClass) : Re := .seq (plus sp) (.grp .value (plus (.cls (fun c => w.word c || c = '.' || c = '-' || c = '{' || c = '}'))))

/-- spice_utils.py 123 -/
def anyValueRe : Re := .seq (plus sp) (.seq (.grp .value (.star dot)) commentRe)

/-- spice_utils.py 126 -/
def maybeValueRe : Re := .seq (plus sp) (.grp .value (.lazy dot))

/-- The characters of a parameter value (spice_utils.py 135). -/
def paramChar (w : WordClass) (c : Char) : Bool :=
  w.word c || ['{', '}', '(', ')', '-', '+', '*', '/', '%', '.', ',', '\'', '"'].contains c || isSpace c

def paramItem (w : WordClass) : Re :=
  .seq (plus sp) (.seq (plus (wordRe w)) (.seq (.star sp) (opt (.seq (lit '=') (.seq (.star sp) (plus (.cls (paramChar w))))))))

/-- spice_utils.py 131-135 -/
def paramRe (w : WordClass) : Re := .seq (opt (.grp .params (.star (paramItem w)))) commentRe

/-- The same where the `= value` is required (spice_utils.py 186, 229). -/
def paramStrictRe (w : WordClass) : Re :=
  .seq (.grp .params (.star (.seq (plus sp) (.seq (plus (wordRe w)) (.seq (.star sp) (.seq (lit '=') (.seq (.star sp) (plus (.cls (paramChar w))))))))))
    commentRe

def exponentRe : Re := .seq (among ['e']) (.seq (opt (among ['-', '+'])) (plus digit))
/-- `[-+]?[0-9]*\.?[0-9]+([eE][-+]?[0-9]+)?` and the suffix -/
def numberRe (suffix : Re) : Re :=
  .seq (opt (among ['-', '+'])) (.seq (.star digit) (.seq (opt (lit '.')) (.seq (plus digit) (.seq (opt exponentRe) suffix))))

def quoted (c : Char) : Re := .seq (.star dot) (lit c)

/-- spice_utils.py 137-153: after the prefix -/
def valueBody (suffix : Re) : Re :=
  .grp .value (.seq (opt (.grp .number (numberRe suffix))) (.seq (opt (.grp .formula1 (lit '"'))) (.seq (opt (.grp .formula2 (lit '\'')))
    (.seq (opt (.grp .formula3 (lit '{')))
      (.cond .number .nil (.cond .formula1 (quoted '"') (.cond .formula2 (quoted '\'') (.cond .formula3 (quoted '}')
        (.star (.cls (fun c => !isSpace c)))))))))))

def valuePrefix (prefix_ : Char) : Re := opt (.seq (ci prefix_) (.seq (opt sp) (.seq (lit '=') (opt sp))))

/-- spice_utils.py 137-153 -/
def valueRe (prefix_ : Char) (suffix : Re) : Re := .seq (plus sp) (.seq (valuePrefix prefix_) (valueBody suffix))

def meg : Re := .seq (ci 'M') (.seq (ci 'E') (ci 'G'))
def suffixR : Re := .seq (opt (.alt meg (among ['k', 'm', 'u', 'µ', 'n', 'p', 'f', 'g', 't']))) (.seq (opt (ci 'R')) (.star digit))
def suffixC : Re := .seq (opt (among ['m', 'u', 'µ', 'n', 'p', 'f', 'g', 't'])) (.seq (opt (ci 'F')) (.star digit))
def suffixL : Re := .seq (opt (.alt meg (among ['k', 'm', 'u', 'µ', 'n', 'p', 'g', 't']))) (.seq (opt (ci 'H')) (.star digit))

/-- spice_utils.py 202: mutual inductance -/
def couplingRe : Re := .seq (plus sp) (.seq (.grp .value (.seq (opt (.cls (fun c => c = '+' || c = '-'))) (.seq (plus (.cls (fun c => c.isDigit || ['.', 'E', 'e', '+', '-'].contains c)))
  (opt (among ['k', 'm', 'u', 'µ', 'n', 'p', 'g', 't']))))) commentRe)

/-- The parameters of a sub-circuit instance (spice_utils.py 244): each takes as little text as possible. -/
def instItem (w : WordClass) : Re :=
  .seq (plus (wordRe w)) (.seq (.star sp) (.seq (lit '=') (.seq (.star sp) (.seq (opt (.cls (fun c => c = '\'' || c = '"' || c = '{')))
    (.seq (.lazy dot) (.seq (opt (.cls (fun c => c = '\'' || c = '"' || c = '}'))) (.star sp)))))))

def paramsWord : Re := .seq (ci 'P') (.seq (ci 'A') (.seq (ci 'R') (.seq (ci 'A') (.seq (ci 'M') (.seq (ci 'S') (.seq (lit ':') (.star sp)))))))

def instRe (w : WordClass) : Re :=
  .seq (opt (.seq (plus sp) (.seq (opt paramsWord) (.grp .params (plus (instItem w)))))) commentRe

/-- spice_utils.py 160: `[VIBR]\s*=(?:>=|<=|[^=])+` -/
def behaviourRe : Re := .seq (plus sp) (.grp .value (.seq (among ['v', 'i', 'b', 'r']) (.seq (.star sp) (.seq (lit '=')
  (plus (.alt (.seq (lit '>') (lit '=')) (.alt (.seq (lit '<') (lit '=')) (.cls (fun c => c ≠ '=')))))))))

/-- spice_utils.py 130 -/
def noValueRe : Re := .seq (opt sp) (opt (.grp .value .nil))

/-- spice_utils.py 156-257: REPLACE_REGEXS; the key is an upper case letter. -/
def regexFor (w : WordClass) (c : Char) : Option Re :=
  let model := fun n m => some (.seq (prefixAndNodes w c n m) (.seq (modelRe w) (paramRe w)))
  let any := fun n => some (.seq (prefixAndNodes w c n n) anyValueRe)
  if c = 'R' then some (.seq (prefixAndNodes w c 2 2) (.seq (valueRe c suffixR) (paramRe w)))
  else if c = 'C' then some (.seq (prefixAndNodes w c 2 2) (.seq (valueRe c suffixC) (paramRe w)))
  else if c = 'L' then some (.seq (prefixAndNodes w c 2 2) (.seq (valueRe c suffixL) (paramRe w)))
  else if c = 'V' ∨ c = 'I' then some (.seq (prefixAndNodes w c 2 2) (.seq maybeValueRe (paramStrictRe w)))
  else if c = 'E' ∨ c = 'F' ∨ c = 'G' ∨ c = 'H' then any 2
  else if c = 'S' then any 4
  else if c = 'W' then any 3
  else if c = 'A' then some (.seq (prefixAndNodes w c 8 8) (.seq (plus sp) (.grp .value (.star dot))))
  else if c = 'K' then some (.seq (prefixAndNodes w c 2 99) couplingRe)
  else if c = 'X' then some (.seq (prefixAndNodes w c 1 99) (.seq (modelRe w) (instRe w)))
  else if c = 'B' then some (.seq (prefixAndNodes w c 2 2) (.seq behaviourRe (paramRe w)))
  else if c = 'T' then some (.seq (prefixAndNodes w c 4 4) (.seq noValueRe (paramRe w)))
  else if c = 'D' then model 2 2
  else if c = 'J' ∨ c = 'U' ∨ c = 'Z' then model 3 3
  else if c = 'O' then model 4 4
  else if c = 'Ö' then model 5 5
  else if c = '¥' then model 16 16
  else if c = '€' then model 32 32
  else if c = '£' then model 64 64
  else if c = 'M' then model 3 4
  else if c = 'Q' then model 3 5
  else if c = 'Y' then model 2 4
  else if c = 'N' ∨ c = 'P' then model 2 99
  else none

inductive Err where
  | notImplemented | unrecognized | value | index
  deriving DecidableEq, Repr

/-- `re.sub(r'[\n\r]+\s*', ' ', text)`; `skip`: inside a match. -/
def clean : Bool → Str → Str
  | _, [] => []
  | skip, c :: cs =>
    if skip && isSpace c then clean true cs
    else if c = '\n' || c = '\r' then ' ' :: clean true cs
    else c :: clean false cs

/-- spice_components.py 122-126 -/
def undress (d : Str) : Str :=
  match d with
  | a :: '§' :: c :: r => a :: c :: r
  | d => upper d

/-- What the component keeps. -/
structure Attrs where
  ref : Str
  ports : List Str
  value : Option Str
  params : Option (List (Str × PV))
  deriving DecidableEq, Repr

/-- `text.split()`; `cur` is the word being read. -/
def words : Str → Str → List Str
  | cur, [] => if cur = [] then [] else [cur]
  | cur, c :: cs => if isSpace c then (if cur = [] then words [] cs else cur :: words [] cs) else words (cur ++ [c]) cs

/-- 276-278: 'params' is set only when the group is not empty. -/
def paramsOf (numeric : Str → Bool) (shown : PV → Str) (m : St) : Except Err (Option (List (Str × PV))) :=
  match m.get .params with
  | none => .ok none
  | some (_, []) => .ok none
  | some (_, p) => match parseParams numeric shown p with
    | none => .error .value
    | some d => .ok (some d)

/-- spice_components.py 266-286: from the groups of the match. `numeric`, `shown`: Model.Params. -/
def attrsOf (numeric : Str → Bool) (shown : PV → Str) (m : St) : Except Err Attrs :=
  match paramsOf numeric shown m with
  | .error e => .error e
  | .ok params =>
    let text := fun g => (m.get g).map (fun c : Nat × Str => c.2)
    .ok { ref := undress ((text .designator).getD []), ports := words [] ((text .nodes).getD []), value := (text .value).map strip, params }

/-- spice_components.py 240-287 -/
def reset (w : WordClass) (numeric : Str → Bool) (shown : PV → Str) (obj : Str) : Except Err Attrs :=
  match obj with
  | [] => .error .index
  | c :: _ => match regexFor w c with
    | none => .error .notImplemented
    | some r => match exec r (clean false obj) with
      | none => .error .unrecognized
      | some m => if m.pos = 0 then .error .unrecognized else attrsOf numeric shown m

/-- `' '.join(...)` -/
def joinBlank : List Str → Str
  | [] => []
  | [a] => a
  | a :: l => a ++ ' ' :: joinBlank l

/-- The line while it is being rewritten: its text, `offset` and `update_done`. -/
structure Work where
  line : Str
  offset : Int
  done : Bool
  deriving DecidableEq, Repr

/-- `_insert_section(new_line, start + offset, stop + offset, text)` with the number of characters the offset grows by. -/
def Work.put (k : Work) (start : Nat) (old new : Str) (grow : Int) : Work :=
  ⟨insertSection k.line (start + k.offset).toNat (start + old.length + k.offset).toNat new, k.offset + grow, true⟩

/-- 332-347: whether the parameters differ from those of the line. -/
def differ (new old : List (Str × PV)) : Bool :=
  new.any (fun kv => decide (old.lookup kv.1 ≠ some kv.2)) || old.any (fun kv => (new.lookup kv.1).isNone)

/-- 314-323 -/
def putRef (a : Attrs) (m : St) (k : Work) : Work :=
  match m.get .designator with
  | none => k
  | some (start, d) =>
    if a.ref = undress d then k else
    let new := if '§' ∈ d then a.ref.take 1 ++ '§' :: a.ref.drop 1 else a.ref
    k.put start d new (new.length - (undress d).length)

/-- 324-330 -/
def putNodes (a : Attrs) (m : St) (k : Work) : Work :=
  match m.get .nodes with
  | none => k
  | some (start, d) =>
    let new := ' ' :: joinBlank a.ports
    if d = new then k else k.put start d new (new.length - d.length)

/-- 366-377 -/
def putValue (a : Attrs) (m : St) (k : Work) : Work :=
  match m.get .value, a.value with
  | some (start, d), some v => if d = v then k else k.put start d v (v.length - d.length)
  | _, _ => k

/-- 331-365 -/
def putParams (numeric : Str → Bool) (shown : PV → Str) (a : Attrs) (m : St) (k : Work) : Except Err Work :=
  let new := a.params.getD []
  match m.get .params with
  | none =>
    if a.params = none then .ok k
    else if differ new [] then
      let text := showParams new
      let line := if ';' ∈ k.line then rstrip (k.line.takeWhile (· ≠ ';')) ++ ' ' :: text ++ ' ' :: k.line.dropWhile (· ≠ ';') else k.line ++ ' ' :: text
      .ok ⟨line, k.offset + text.length, true⟩
    else .ok k
  | some (start, d) => match parseParams numeric shown d with
    | none => .error .value
    | some old =>
      if differ new old then
        let text := showParams new
        .ok (k.put start d text (text.length - d.length))
      else .ok k

/-- spice_components.py 289-387: the text written for the component. The match is made on the line as it is (300), the positions are
used on the line without line breaks (308). Parameters are looked at only when the expression has a group for them (311). -/
def rewrite (w : WordClass) (numeric : Str → Bool) (shown : PV → Str) (obj : Str) (a : Attrs) : Except Err Str :=
  match a.ref with
  | [] => .error .index
  | c :: _ => match regexFor w c with
    | none => .error .notImplemented
    | some r => match exec r obj with
      | none => .error .unrecognized
      | some m =>
        match (if .params ∈ names r then putParams numeric shown a m else .ok) (putValue a m (putNodes a m (putRef a m ⟨clean false obj, 0, false⟩))) with
        | .error e => .error e
        | .ok k => .ok (if k.done then k.line ++ ['\n'] else obj)

end Model.CompLine

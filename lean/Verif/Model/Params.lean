import Verif.Model.PyStr
/-
Model of the parameters of a component line: spicelib/editor/spice_components.py (tokenize_params, _parse_params, and the
writing of parameters in rewrite_lines).

What try_value makes of a token (a number, a complex number or the token itself) is kept as the token; `numeric` says whether
it gives an int or float. `shown` stands for str() of a value that is not text.
-/
namespace Model.Params
open Model.PyStr

abbrev Str := List Char

/-- The state of the loop of tokenize_params: in_quotes, in_func_decl, current_token and tokens. -/
structure Tk where
  quote : Option Char
  func : Bool
  cur : Str
  toks : List Str
  deriving DecidableEq, Repr

/-- spice_components.py 110-113, 117-118: appending the current token when it is not empty. -/
def Tk.flush (s : Tk) : Tk := if s.cur = [] then s else { s with toks := s.toks ++ [strip s.cur], cur := [] }

/-- spice_components.py 90-115: one character. -/
def Tk.step (s : Tk) (c : Char) : Tk :=
  if c = '"' ∨ c = '\'' then
    { s with quote := if s.quote = none then some c else if s.quote = some c then none else s.quote, cur := s.cur ++ [c] }
  else if c = '{' then { s with func := true, cur := s.cur ++ [c] }
  else if c = '}' then { s with func := false, cur := s.cur ++ [c] }
  else if (c = ',' ∨ c = '=') ∧ s.quote = none ∧ s.func = false then
    if s.cur = [] then s else { s with toks := s.toks ++ [strip s.cur, [c]], cur := [] }
  else if isSpace c = true ∧ s.quote = none ∧ s.func = false then s.flush
  else { s with cur := s.cur ++ [c] }

def Tk.init : Tk := ⟨none, false, [], []⟩

/-- spice_components.py 81-119: tokenize_params. -/
def tokenize (s : Str) : List Str := (s.foldl Tk.step Tk.init).flush.toks

/-- A value that is not a list: what try_value gave for a token, a text put together from tokens, or True. -/
inductive Atom where
  | tok (t : Str)
  | text (s : Str)
  | flag
  deriving DecidableEq, Repr

inductive PV where
  | one (a : Atom)
  | many (l : List Atom)
  deriving DecidableEq, Repr

/-- spice_components.py 32-62. -/
def verilogTypes : List Str := ["bit", "bool", "boolean", "int8_t", "int8", "char", "uint8_t", "uint8", "uchar", "byte", "int16_t",
  "int16", "uint16_t", "uint16", "int32_t", "int32", "int", "uint32_t", "uint32", "uint", "int64_t", "int64", "uint64_t", "uint64",
  "shortfloat", "float", "double"].map String.toList

/-- spice_components.py 64-66. -/
def keywords : List Str := ["noiseless".toList]

/-- A Python dict: assignment keeps the position of an existing key. -/
def put (d : List (Str × PV)) (k : Str) (v : PV) : List (Str × PV) :=
  match d with
  | [] => [(k, v)]
  | (k', v') :: d => if k' = k then (k', v) :: d else (k', v') :: put d k v

/-- The state of the loop of _parse_params: params, key, last_key and is_list. -/
structure Ps where
  params : List (Str × PV)
  key : Option Str
  last : Option Str
  isList : Bool
  deriving DecidableEq, Repr

/-- spice_components.py 169-172: appending to the value of last_key. -/
def appendTo (v : PV) (t : Str) : PV :=
  match v with
  | .many l => .many (l ++ [.tok t])
  | .one a => .many [a, .tok t]

/-- spice_components.py 183-186: f"{params[last_key]} {token}"; text values are used as they are. -/
def joinTo (numeric : Str → Bool) (shown : PV → Str) (v : PV) (t : Str) : PV :=
  let s := match v with
    | .one (.text s) => s
    | .one (.tok u) => if numeric u then shown v else u
    | v => shown v
  .one (.text (s ++ ' ' :: t))

/-- spice_components.py 153-197: one token; `none` is the ValueError. -/
def Ps.step (numeric : Str → Bool) (shown : PV → Str) (s : Ps) (t : Str) : Option Ps :=
  if t = "=".toList then (if s.key = none then none else some s)
  else if t = ",".toList then
    match s.last with
    | none => none
    | some l => if l ≠ [] ∧ (s.params.lookup l).isSome then some { s with isList := true } else none
  else if s.isList then
    match s.last with
    | none => none
    | some l => match s.params.lookup l with
      | none => none
      | some v => some { s with params := put s.params l (appendTo v t), isList := false }
  else
    match s.key with
    | some k => some { s with params := put s.params k (.one (.tok t)), last := some k, key := none }
    | none =>
      if t ∈ keywords then some { s with params := put s.params t (.one .flag) }
      else if t ∈ verilogTypes then some s
      else match s.last.bind (fun l => s.params.lookup l) with
        | some v => if numeric t then some { s with params := put s.params (s.last.getD []) (joinTo numeric shown v t) }
            else some { s with key := some t }
        | none => some { s with key := some t }

/-- The loop over the tokens. -/
def parseTokens (numeric : Str → Bool) (shown : PV → Str) : Ps → List Str → Option Ps
  | s, [] => some s
  | s, t :: ts => (Ps.step numeric shown s t).bind (fun s => parseTokens numeric shown s ts)

def Ps.init : Ps := ⟨[], none, none, false⟩

/-- spice_components.py 128-199: _parse_params; `none` is the ValueError. -/
def parseParams (numeric : Str → Bool) (shown : PV → Str) (s : Str) : Option (List (Str × PV)) :=
  (parseTokens numeric shown Ps.init (tokenize s)).map Ps.params

/-- str() of a value that is not a list: a token is taken to be shown as it was read, True is True. -/
def showAtom : Atom → Str
  | .tok t => t
  | .text s => s
  | .flag => "True".toList

/-- `','.join(...)` -/
def joinWith (c : Char) : List Str → Str
  | [] => []
  | [a] => a
  | a :: l => a ++ c :: joinWith c l

/-- spice_components.py 352-355: the text of a value. -/
def showPV : PV → Str
  | .one a => showAtom a
  | .many l => joinWith ',' (l.map showAtom)

/-- spice_components.py 350-357: the text written for the parameters. -/
def showParams (d : List (Str × PV)) : Str := joinWith ' ' (d.map (fun kv => kv.1 ++ '=' :: showPV kv.2))

end Model.Params

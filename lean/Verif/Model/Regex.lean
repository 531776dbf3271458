import Verif.Model.PyStr
/-
Python's `re` as used by the netlist editor (spicelib/editor/spice_components.py 70-73, 256-258, 300): a backtracking matcher that tries
the alternatives in order, greedy repetitions longest first, and the first way to match the whole expression wins. Groups, conditionals
on groups, `*`, `?`, `{n}`, `{n,m}` and `$`; re.IGNORECASE is part of the character classes.

Simplification: a repetition whose body matched nothing is not continued (CPython does the same; no expression used here has such a
body).
-/
namespace Model.Regex
open Model.PyStr (isSpace)

abbrev Str := List Char

/-- Names of the groups in REPLACE_REGEXS (spicelib/editor/spice_utils.py 107-152). -/
inductive G where
  | designator | nodes | value | number | formula1 | formula2 | formula3 | params
  deriving DecidableEq, Repr

inductive Re where
  | nil
  | cls (p : Char → Bool)
  | seq (a b : Re)
  | alt (a b : Re)
  | star (a : Re)                 -- greedy
  | lazy (a : Re)                 -- `*?`
  | grp (g : G) (a : Re)
  | cond (g : G) (a b : Re)       -- `(?(g)a|b)`
  | eol                           -- `$` without re.MULTILINE

/-- Where a match stands: the position, the text not yet consumed, and the groups matched so far, newest first: name, start and text. -/
structure St where
  pos : Nat
  rest : Str
  caps : List (G × Nat × Str)
  deriving DecidableEq, Repr

/-- One character further. -/
def St.next (s : St) (r : Str) : St := { s with pos := s.pos + 1, rest := r }

/-- The group ends here; it began at `s`. -/
def St.close (g : G) (s t : St) : St := { t with caps := (g, s.pos, s.rest.take (t.pos - s.pos)) :: t.caps }

def St.has (s : St) (g : G) : Bool := s.caps.any (fun c => c.1 = g)

/-- Greedy repetition: once more if possible, otherwise go on. -/
def more (f : (St → Option St) → St → Option St) (k : St → Option St) : Nat → St → Option St
  | 0, s => k s
  | n + 1, s => (f (fun t => if t.rest.length < s.rest.length then more f k n t else none) s).or (k s)

/-- Lazy repetition: go on if possible, otherwise once more. -/
def less (f : (St → Option St) → St → Option St) (k : St → Option St) : Nat → St → Option St
  | 0, s => k s
  | n + 1, s => (k s).or (f (fun t => if t.rest.length < s.rest.length then less f k n t else none) s)

/-- The matcher: `k` is what has to match after it. -/
def go : Re → (St → Option St) → St → Option St
  | .nil, k, s => k s
  | .cls p, k, s => match s.rest with
    | [] => none
    | c :: r => if p c then k (s.next r) else none
  | .seq a b, k, s => go a (go b k) s
  | .alt a b, k, s => (go a k s).or (go b k s)
  | .star a, k, s => more (go a) k s.rest.length s
  | .lazy a, k, s => less (go a) k s.rest.length s
  | .grp g a, k, s => go a (fun t => k (St.close g s t)) s
  | .cond g a b, k, s => if s.has g then go a k s else go b k s
  | .eol, k, s => if s.rest = [] ∨ s.rest = ['\n'] then k s else none

/-- `regex.match(text)`; `none` is no match. -/
def exec (r : Re) (text : Str) : Option St := go r some ⟨0, text, []⟩

/-- `match.span(group)` and `match.groupdict()[group]`: start and text; `none` is a group that did not take part. -/
def St.get (s : St) (g : G) : Option (Nat × Str) := s.caps.lookup g

/-- The groups of an expression (`match.groupdict()` has an entry for each). -/
def names : Re → List G
  | .nil => [] | .cls _ => [] | .eol => []
  | .seq a b => names a ++ names b
  | .alt a b => names a ++ names b
  | .star a => names a
  | .lazy a => names a
  | .grp g a => g :: names a
  | .cond _ a b => names a ++ names b

def opt (a : Re) : Re := .alt a .nil
def plus (a : Re) : Re := .seq a (.star a)

/-- `a{n}` -/
def times (a : Re) : Nat → Re
  | 0 => .nil
  | n + 1 => .seq a (times a n)

/-- `a{0,n}` -/
def upTo (a : Re) : Nat → Re
  | 0 => .nil
  | n + 1 => opt (.seq a (upTo a n))

/-- `a{n,m}` -/
def range (a : Re) (n m : Nat) : Re := .seq (times a n) (upTo a (m - n))

end Model.Regex

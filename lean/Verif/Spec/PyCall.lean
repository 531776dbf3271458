/-
How Python binds the arguments of a call `f(*positional, **keywords)` to the parameters of a function (language reference, Calls).
Independent of spicelib.
-/
namespace Spec.PyCall
abbrev Str := List Char

inductive Kind where | positionalOnly | normal | varPositional | keywordOnly | varKeyword
  deriving DecidableEq, Repr

structure Param where
  name : Str
  kind : Kind
  hasDefault : Bool
  deriving DecidableEq, Repr

/-- What a parameter receives. -/
inductive Bound (A : Type) where
  | value (a : A)
  | default
  | rest (as : List A)
  | table (t : List (Str × A))
  deriving DecidableEq, Repr

/-- The parameters that can be given by name. -/
def byName (ps : List Param) : List Str := (ps.filter (fun p => p.kind = .normal || p.kind = .keywordOnly)).map (·.name)

/-- Binding one parameter after the other; `all` are the names that can be given by name; none: TypeError. -/
def bindGo {A : Type} (all : List Str) (kw : List (Str × A)) : List Param → List A → Option (List (Str × Bound A))
  | [], [] => some []
  | [], _ :: _ => none
  | p :: ps, pos =>
    match p.kind with
    | .positionalOnly =>
      match pos with
      | a :: pos' => (bindGo all kw ps pos').map ((p.name, .value a) :: ·)
      | [] => if p.hasDefault then (bindGo all kw ps []).map ((p.name, .default) :: ·) else none
    | .normal =>
      match pos with
      | a :: pos' => if (kw.lookup p.name).isSome then none else (bindGo all kw ps pos').map ((p.name, .value a) :: ·)
      | [] => match kw.lookup p.name with
        | some a => (bindGo all kw ps []).map ((p.name, .value a) :: ·)
        | none => if p.hasDefault then (bindGo all kw ps []).map ((p.name, .default) :: ·) else none
    | .varPositional => (bindGo all kw ps []).map ((p.name, .rest pos) :: ·)
    | .keywordOnly =>
      match kw.lookup p.name with
      | some a => (bindGo all kw ps pos).map ((p.name, .value a) :: ·)
      | none => if p.hasDefault then (bindGo all kw ps pos).map ((p.name, .default) :: ·) else none
    | .varKeyword => (bindGo all kw ps pos).map ((p.name, .table (kw.filter (fun e => !all.contains e.1))) :: ·)

/-- The call: every keyword must be a parameter that can be given by name, unless there is a `**` parameter. -/
def pyBind {A : Type} (ps : List Param) (pos : List A) (kw : List (Str × A)) : Option (List (Str × Bound A)) :=
  if ps.any (fun p => p.kind = .varKeyword) || kw.all (fun e => (byName ps).contains e.1) then bindGo (byName ps) kw ps pos else none

end Spec.PyCall

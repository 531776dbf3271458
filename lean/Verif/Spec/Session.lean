import Verif.Spec.EditSave
import Verif.Spec.Directive
import Verif.Model.Session
/-
Specification: what the operations of an editing session do to a netlist, as a list of parts.
-/
namespace Spec.Session
open Model.Netlist (Str)
open Spec.NetBlocks Spec.EditSave
open Model.Session (Place Op)

/-- The directive of a part: its line, if it is neither a comment nor a component nor a .PARAM line. -/
def directive : Part → Option Str
  | .block (.line s) => if kindOf s = some .other then some s else none
  | _ => none

/-- A directive that can be added or removed: one logical line, no blanks around it, not a .PARAM. -/
structure Directive (d : Str) : Prop where
  kind : kindOf d = some .other
  param : Model.Netlist.lineCommand d ≠ some ".PARAM".toList
  tidy : Spec.NetSave.Tidy d
  oneLine : OneLine d

/-- The instruction as a line of a file. -/
def asLine (s : Str) : Str := if s.getLast? = some '\n' then s else s ++ ['\n']

/-- A component: the line of a part that is one. -/
def line (p : Part) : Str := p.toBlock.lines.flatten

def IsComponent : Part → Prop
  | .comp _ _ => True
  | .short _ _ => True
  | _ => False

/-- The part is a component with this reference, in any case. -/
def named (r : Str) (p : Part) : Bool := p.entry.any (fun x => Model.PyStr.upper x.1 == Model.PyStr.upper r)

/-- A new part at position `i`. -/
def putAt (i : Nat) (p : Part) (ps : List Part) : List Part := ps.take i ++ p :: ps.drop i

/-- The first word of a line, in capitals. -/
def firstWord (s : Str) : Str := (s.takeWhile (fun c => !(c == ' ' || c == '\t' || c == '\r' || c == '\n'))).map Char.toUpper

/-- An analysis directive (.AC, .DC, .TRAN, .NOISE, .TF). -/
def analysis (s : Str) : Bool := Spec.Directive.analyses.any (fun a => a.toList == firstWord s)

def isAnalysis (p : Part) : Bool := (directive p).any analysis

/-- A line starting with .backanno. -/
def isBackanno (p : Part) : Bool := (directive p).any (fun s => ".backanno".toList.isPrefixOf (Model.PyStr.lower s))

/-- What is done in a session. -/
inductive Change where
  | edit (op : Model.EditSave.Op)
  | add (p : Part) (place : Place)
  | remove (r : Str)
  | instruct (s : Str)
  | drop (s : Str)
  | dropAll (f : Str → Bool)

/-- The call that is made. -/
def Change.op : Change → Op
  | .edit o => .edit o
  | .add p place => .add (line p) place
  | .remove r => .remove r
  | .instruct s => .instruct s
  | .drop s => .drop s
  | .dropAll f => .dropAll f

/-- Where a component is added: before or after the first component of that reference, otherwise before the last line but one. -/
def placeOf (ps : List Part) : Place → Option Nat
  | .before r => ps.findIdx? (named r)
  | .after r => (ps.findIdx? (named r)).map (· + 1)
  | .default => some (ps.length - 1)

/-- A directive that is not there is put before the first .backanno line, otherwise at the end. -/
def putDirective (d : Str) (ps : List Part) : List Part :=
  if ps.any (fun p => directive p == some d) then ps
  else putAt ((ps.findIdx? isBackanno).getD ps.length) (.block (.line d)) ps

/-- An analysis directive takes the place of the first one there is. -/
def addDirective (d : Str) (ps : List Part) : List Part :=
  if analysis d && ps.any isAnalysis then ps.set (ps.findIdx isAnalysis) (.block (.line d)) else putDirective d ps

/-- The netlist after one change. -/
def changed (ps : List Part) : Change → List Part
  | .edit o => edited ps o
  | .add p place => ((placeOf ps place).map (fun i => putAt i p ps)).getD ps
  | .remove r => ps.eraseIdx (ps.findIdx (named r))
  | .instruct s => addDirective (asLine s) ps
  | .drop s => ps.eraseIdx (ps.findIdx (fun p => directive p == some (asLine s)))
  | .dropAll f => ps.filter (fun p => !(directive p).any f)

/-- The change can be made to the netlist. `name` says which names of parameters are allowed. -/
def Allowed (word : Char → Bool) (name : Str → Prop) (ps : List Part) : Change → Prop
  | .edit (.set r v) => Settable word r v ps
  | .edit (.param p v) => ParamSet p v
  | .edit .reopen => True
  | .add p place => p.Ok word name ∧ IsComponent p ∧ (placeOf ps place).isSome
  | .remove r => ps.any (named r)
  | .instruct s => Directive (asLine s)
  | .drop s => Directive (asLine s)
  | .dropAll f => ∀ s, f s = true → kindOf s = some .other ∧ Model.Netlist.lineCommand s ≠ some ".PARAM".toList

/-- All the changes can be made, each to the netlist as it is by then. -/
def Session (word : Char → Bool) (name : Str → Prop) : List Part → List Change → Prop
  | _, [] => True
  | ps, c :: cs => Allowed word name ps c ∧ Session word name (changed ps c) cs

end Spec.Session

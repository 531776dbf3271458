import Verif.Spec.SchComp
/-
Specification: the texts of a QSPICE component. After the reference and the value, each text holds `name=value` pairs, or something else.
-/
namespace Spec.QComp
open Spec.ParamLine
open Spec.SchComp (Pairs names assignPair removePair valueAfter)

/-- The pairs of a text: it is a list of pairs separated by blanks (any spacing, the grammar of `.param`), or a single word. -/
inductive Shows : Str → Pairs → Prop where
  | pairs (s : Str) (items : List Item) (tail : Str) (text : ' ' :: s = items.flatMap Item.text ++ tail) (ok : ∀ i ∈ items, i.Ok) (blank : Blank tail) :
      Shows s (items.map (fun i => (i.name, i.value)))
  | word (s : Str) (h1 : '=' ∉ s) (h2 : ' ' ∉ s) : Shows s []

/-- A text before and after one value in it was replaced: everything else is the same. -/
def Replaced (k v s s' : Str) : Prop := ∃ a sep old b : Str, Sep sep ∧ s = a ++ (k ++ sep ++ old) ++ b ∧ s' = a ++ (k ++ sep ++ v) ++ b

/-- A text before and after one pair was taken out. -/
def Removed (k s s' : Str) : Prop := ∃ a sep old b : Str, Sep sep ∧ s = a ++ (k ++ sep ++ old) ++ b ∧ s' = a ++ b

/-- Values a new text can hold: no quotation mark, and no colon before a blank. -/
def Plain (v : Str) : Prop := '"' ∉ v ∧ ¬ ∃ a b : Str, v = a ++ [':', ' '] ++ b

end Spec.QComp

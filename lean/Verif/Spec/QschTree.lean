import Verif.Model.Qsch
/-
Specification: which tag trees can be written to a QSpice schematic and read back. Only the type of trees and the notion of
white space are taken from the model.
-/
namespace Spec.QschTree
open Model.Qsch (Tag)

abbrev Str := List Char

/-- A token is a word without blanks, quotes and tag marks, or a quoted text that may contain anything except a quote. -/
inductive Token : Str → Prop
  | word (w : Str) (hne : w ≠ []) (h : ∀ c ∈ w, Model.PyStr.isSpace c = false ∧ c ≠ '"' ∧ c ≠ '«' ∧ c ≠ '»') : Token w
  | quoted (b : Str) (h : ∀ c ∈ b, c ≠ '"') : Token ('"' :: b ++ ['"'])

/-- A text whose line breaks and tag marks are all within quotes, and whose quotes are closed. -/
inductive OneLine : Str → Prop
  | nil : OneLine []
  | char (c : Char) (s : Str) (hc : c ≠ '"' ∧ c ≠ '«' ∧ c ≠ '»' ∧ c ≠ '\n') (hs : OneLine s) : OneLine (c :: s)
  | quoted (b s : Str) (hb : ∀ c ∈ b, c ≠ '"') (hs : OneLine s) : OneLine ('"' :: b ++ '"' :: s)

/-- A colon followed by a blank occurs in the text. -/
def HasColon (s : Str) : Prop := [':', ' '] <:+: s

/-- The tokens of a tag without children: either plain tokens, or `label: free text`. -/
def LeafTokens (toks : List Str) : Prop :=
  ((∀ w ∈ toks, Token w) ∧ ¬ HasColon (List.intercalate [' '] toks)) ∨
  (∃ label text : Str, toks = [label ++ [':'], text] ∧ ¬ HasColon label ∧ ¬ HasColon text ∧ OneLine (label ++ [':', ' '] ++ text))

/-- A well formed tree, of any depth. -/
inductive WellFormed : Tag → Prop
  | leaf (toks : List Str) (h : LeafTokens toks) : WellFormed (.mk toks [])
  | node (toks : List Str) (items : List Tag) (hne : items ≠ []) (ht : ∀ w ∈ toks, Token w)
      (hi : ∀ t ∈ items, WellFormed t) : WellFormed (.mk toks items)

/-- The condition a tree read from a file may lack: free text after a colon only occurs in a childless tag, as the second of
exactly two tokens. -/
inductive Tidy : Tag → Prop
  | leaf (toks : List Str)
      (h : ¬ HasColon (List.intercalate [' '] toks) ∨ ∃ label text : Str, toks = [label ++ [':'], text] ∧ ¬ HasColon label ∧ ¬ HasColon text) :
      Tidy (.mk toks [])
  | node (toks : List Str) (items : List Tag) (hne : items ≠ []) (ht : ∀ w ∈ toks, Token w)
      (hi : ∀ t ∈ items, Tidy t) : Tidy (.mk toks items)

end Spec.QschTree

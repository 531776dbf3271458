import Verif.Model.LogFile
import Verif.Props.LogRead
/-
What an LTspice log says: lines of steps, measurements, Fourier tables and other lines, in any order, then the measurement tables of a stepped
simulation. From the model only the types of the results (Harmonic, Fourier), the reading of numbers, and Python's notion of blanks are used.
-/
namespace Spec.LogFile
open Model.PyStr (isSpace strip upper lower)
open Model.CompLine (WordClass)
open Model.LogFile (Numbers Harmonic Fourier)
open Props.LogRead (Tok hasAssign Table)

abbrev Str := List Char

def Blank (s : Str) : Prop := ∀ c ∈ s, c = ' ' ∨ c = '\t'

/-- Visible characters, at least one. -/
def Word (s : Str) : Prop := s ≠ [] ∧ ∀ c ∈ s, isSpace c = false

/-- Text on one line. -/
def OneLine (s : Str) : Prop := ∀ c ∈ s, c ≠ '\n' ∧ c ≠ '\r'

/-! ### Measurements of a simulation without steps -/

/-- Characters of a value: letters, digits, brackets, signs. -/
def ValueChar (w : WordClass) (c : Char) : Prop := w.word c = true ∨ c ∈ "()*+,-./°".toList

def NumChar (c : Char) : Prop := c.isDigit = true ∨ c ∈ ".Ee+-".toList

/-- What may follow the value: nothing, an interval or a point; the words FROM, TO and AT in any letter case. -/
inductive Window where
  | plain
  | interval (f a t b : Str)
  | point (k a : Str)

def Window.text : Window → Str
  | .plain => []
  | .interval f a t b => ' ' :: f ++ ' ' :: a ++ ' ' :: t ++ ' ' :: b
  | .point k a => ' ' :: k ++ ' ' :: a

def Window.Ok : Window → Prop
  | .plain => True
  | .interval f a t b => upper f = "FROM".toList ∧ (a ≠ [] ∧ ∀ c ∈ a, NumChar c) ∧ upper t = "TO".toList ∧ (b ≠ [] ∧ ∀ c ∈ b, NumChar c)
  | .point k a => upper k = "AT".toList ∧ (a ≠ [] ∧ ∀ c ∈ a, NumChar c)

/-- `name: expression=value FROM a TO b`: the expression (with the blanks before it) may be missing. -/
structure Measure where
  name : Str
  expr : Option (Str × Str)
  value : Str
  window : Window
  trail : Str

def Measure.head (m : Measure) : Str := (m.expr.map (fun e => ':' :: e.1 ++ e.2)).getD []
def Measure.text (m : Measure) : Str := m.name ++ m.head ++ '=' :: m.value ++ m.window.text ++ m.trail

/-- The expression may contain anything, equal signs too. -/
structure Measure.Ok (w : WordClass) (m : Measure) : Prop where
  name : m.name ≠ [] ∧ ∀ c ∈ m.name, w.word c = true
  expr : ∀ e, m.expr = some e → (e.1 ≠ [] ∧ Blank e.1) ∧ OneLine e.2
  value : m.value ≠ [] ∧ ∀ c ∈ m.value, ValueChar w c
  window : m.window.Ok
  trail : Blank m.trail
  keyword : ¬ "Harmonic".toList <+: m.name ∧ m.name ≠ "Measurement".toList

/-- Its columns and their texts. -/
def Measure.columns (m : Measure) : List (Str × Str) :=
  (m.name, m.value) :: match m.window with
    | .plain => []
    | .interval _ a _ b => [(m.name ++ "_FROM".toList, a), (m.name ++ "_TO".toList, b)]
    | .point _ a => [(m.name ++ "_at".toList, a)]

/-- A line that would be read as a measurement: a word, perhaps a colon, blanks and more text, and an equal sign before a character of a value. -/
def Looks (w : WordClass) (t : Str) : Prop :=
  ∃ n h v r : Str, t = n ++ h ++ '=' :: v ++ r ∧ (n ≠ [] ∧ ∀ c ∈ n, w.word c = true) ∧ (v ≠ [] ∧ ∀ c ∈ v, ValueChar w c) ∧
    (h = [] ∨ ∃ b e, h = ':' :: b ++ e ∧ (b ≠ [] ∧ ∀ c ∈ b, isSpace c = true))

def keywords : List Str :=
  ["N-Period".toList, "Fourier components of".toList, "DC component:".toList, "Harmonic".toList, ".step".toList, "Measurement:".toList]

/-- Any other line. -/
structure Other (w : WordClass) (t : Str) : Prop where
  line : OneLine t
  keyword : ∀ k ∈ keywords, ¬ k <+: t
  plain : ¬ Looks w t

/-! ### Fourier tables -/

/-- A row: six words with blanks around them; phases may have a degree sign. -/
structure Row where
  g0 : Str
  number : Str
  g1 : Str
  frequency : Str
  g2 : Str
  component : Str
  g3 : Str
  normalized : Str
  g4 : Str
  phase : Str
  deg1 : Bool
  g5 : Str
  normPhase : Str
  deg2 : Bool
  g6 : Str

def degree (b : Bool) : Str := if b then ['°'] else []

def Row.text (r : Row) : Str :=
  r.g0 ++ r.number ++ r.g1 ++ r.frequency ++ r.g2 ++ r.component ++ r.g3 ++ r.normalized ++ r.g4 ++ (r.phase ++ degree r.deg1) ++ r.g5 ++ (r.normPhase ++ degree r.deg2) ++ r.g6

structure Row.Ok (r : Row) : Prop where
  gaps : Blank r.g0 ∧ Blank r.g6 ∧ ∀ g ∈ [r.g1, r.g2, r.g3, r.g4, r.g5], g ≠ [] ∧ Blank g
  words : ∀ x ∈ [r.number, r.frequency, r.component, r.normalized, r.phase, r.normPhase], Word x
  phases : r.phase.getLast? ≠ some '°' ∧ r.normPhase.getLast? ≠ some '°'
  digit : ∃ c t, r.number = c :: t ∧ c.isDigit = true

/-- What a row says. -/
structure Row.Means {F : Type} (n : Numbers F) (r : Row) (h : Harmonic F) : Prop where
  number : n.int r.number = some h.number
  frequency : n.float r.frequency = some h.frequency
  component : n.float r.component = some h.component
  normalized : n.float r.normalized = some h.normalized
  phase : n.float r.phase = some h.phase
  normPhase : n.float r.normPhase = some h.normPhase

/-- `…: 12.5% …`: text without digits, a decimal fraction, more text. -/
structure Percent where
  before : Str
  whole : Str
  frac : Str
  after : Str

def Percent.text (p : Percent) : Str := p.before ++ (p.whole ++ '.' :: p.frac) ++ p.after

structure Percent.Ok (p : Percent) : Prop where
  before : OneLine p.before ∧ ∀ c ∈ p.before, c.isDigit = false
  whole : p.whole ≠ [] ∧ ∀ c ∈ p.whole, c.isDigit = true
  frac : p.frac ≠ [] ∧ ∀ c ∈ p.frac, c.isDigit = true
  after : OneLine p.after ∧ ∀ c, p.after.head? = some c → c.isDigit = false

/-- A Fourier table with the lines before it. -/
structure Block where
  periods : Option Str
  signal : Str
  dc : Str
  gap : Nat
  head1 : Str
  head2 : Str
  rows : List Row
  phd : Percent
  thd : Percent

def Block.lines (b : Block) : List Str :=
  ["N-Period=".toList ++ b.periods.getD "all".toList, "Fourier components of ".toList ++ b.signal, "DC component:".toList ++ b.dc] ++
  List.replicate b.gap [] ++ ["Harmonic".toList ++ b.head1, b.head2] ++ b.rows.map Row.text ++
  ["Partial Harmonic".toList ++ b.phd.text, "Total Harmonic".toList ++ b.thd.text, []]

structure Block.Ok (b : Block) : Prop where
  periods : ∀ p, b.periods = some p → Word p ∧ p ≠ "all".toList ∧ '=' ∉ p
  signal : OneLine b.signal ∧ b.signal ≠ [] ∧ strip b.signal = b.signal ∧ ¬ " of ".toList <:+: b.signal
  dc : Word b.dc ∧ ':' ∉ b.dc
  heads : OneLine b.head1 ∧ OneLine b.head2
  rows : ∀ r ∈ b.rows, r.Ok
  phd : b.phd.Ok
  thd : b.thd.Ok

/-- What it says (without the step). -/
structure Block.Means {F : Type} (n : Numbers F) (b : Block) (x : Fourier F) : Prop where
  signal : x.signal = some b.signal
  periods : (b.periods = none ∧ x.periods = n.ofInt (-1)) ∨ ∃ p, b.periods = some p ∧ n.float p = some x.periods
  dc : n.float b.dc = some x.dc
  harmonics : List.Forall₂ (Row.Means n) b.rows x.harmonics
  phd : ∃ y, x.phd = some y ∧ n.float (b.phd.whole ++ '.' :: b.phd.frac) = some y
  thd : ∃ y, x.thd = some y ∧ n.float (b.thd.whole ++ '.' :: b.thd.frac) = some y

/-! ### The log -/

inductive Item (F : Type) where
  | step (toks : List Tok)
  | measure (m : Measure)
  | fourier (b : Block) (x : Fourier F)
  | other (t : Str)

def Item.lines {F : Type} : Item F → List Str
  | .step toks => [".step".toList ++ toks.flatMap (fun t => ' ' :: t.text)]
  | .measure m => [m.text]
  | .fourier b _ => b.lines
  | .other t => [t]

def Item.Ok {F : Type} (n : Numbers F) (w : WordClass) : Item F → Prop
  | .step toks => ∀ t ∈ toks, t.Clean
  | .measure m => m.Ok w
  | .fourier b x => b.Ok ∧ b.Means n x
  | .other t => Other w t

def Item.isStep {F : Type} : Item F → Bool
  | .step toks => hasAssign toks
  | _ => false

/-- The assignments of the steps. -/
def stepsOf {F : Type} (items : List (Item F)) : List (List Tok) := items.filterMap (fun i => match i with | .step toks => some toks | _ => none)

/-- The columns of measurements before the first step, in order. -/
def measured {F : Type} (items : List (Item F)) : List (Str × Str) :=
  (items.takeWhile (fun i => !i.isStep)).flatMap (fun i => match i with | .measure m => m.columns | _ => [])

/-- The Fourier tables of a signal, each with the number of the step it belongs to (counted from 0; -1 before the first step). -/
def fourierOf {F : Type} (signal : Str) : Nat → List (Item F) → List (Fourier F)
  | _, [] => []
  | k, .fourier b x :: is => (if b.signal = signal then [{ x with step := (k : Int) - 1 }] else []) ++ fourierOf signal k is
  | k, .step toks :: is => fourierOf signal (if hasAssign toks then k + 1 else k) is
  | k, .measure _ :: is => fourierOf signal k is
  | k, .other _ :: is => fourierOf signal k is

/-- The lines of a measurement table. -/
def tableLines (t : Table) : List Str :=
  ["Measurement: ".toList ++ t.name, List.intercalate ['\t'] (t.t0 :: t.t1 :: t.form.inFile)] ++
  t.rows.map (fun r => List.intercalate ['\t'] (r.1 :: r.2)) ++ List.replicate t.blanks []

/-- Its words have no tabs and no line ends, and its name is not empty. -/
structure TableOk (t : Table) : Prop where
  name : OneLine t.name
  titles : ∀ x ∈ [t.t0, t.t1], OneLine x ∧ '\t' ∉ x
  rows : ∀ r ∈ t.rows, ∀ x ∈ r.1 :: r.2, OneLine x ∧ '\t' ∉ x
  first : ¬ "Measurement: ".toList <+: t.t0 ∧ ∀ r ∈ t.rows, ¬ "Measurement: ".toList <+: r.1

def logText {F : Type} (items : List (Item F)) (tables : List Table) : Str :=
  ((items.flatMap Item.lines) ++ tables.flatMap tableLines).flatMap (fun l => l ++ ['\n'])

end Spec.LogFile

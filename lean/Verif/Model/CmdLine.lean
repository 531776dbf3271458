import Verif.Model.PyStr
/-
The command line of a simulation: spicelib/simulators/{ltspice,qspice,ngspice,xyce}_simulator.py (valid_switch, run), the switches kept by the runner,
spicelib/sim/sim_runner.py 397-416, 558-574, and the files the task looks for, spicelib/sim/run_task.py 126-144.

Paths are posix paths as text. Not modelled: is_available, exe_log and the other keyword arguments of subprocess.run, create_netlist.
-/
namespace Model.CmdLine
open Model.PyStr
abbrev Str := List Char

/-- Name of the last component and what is before it (with the slash). -/
def cutName : Str → Str × Str
  | [] => ([], [])
  | c :: s => let r := cutName s
    if c = '/' ∧ r.1 = [] then ([c], r.2)
    else if r.1 = [] then ([], c :: r.2) else (c :: r.1, r.2)

/-- `name.rfind('.')` splits a name: what is before the last dot and what is after it; none: no dot. -/
def cutDot : Str → Option (Str × Str)
  | [] => none
  | c :: s => match cutDot s with
    | some (a, b) => some (c :: a, b)
    | none => if c = '.' then some ([], s) else none

/-- pathlib: `Path(p).with_suffix(suffix)`: the suffix is what follows the last dot of the name, unless the dot is the first or the last character. -/
def withSuffix (p suffix : Str) : Str :=
  let d := (cutName p).1
  let name := (cutName p).2
  match cutDot name with
  | some (a, b) => if a ≠ [] ∧ b ≠ [] then d ++ a ++ suffix else d ++ name ++ suffix
  | none => d ++ name ++ suffix

/-- Where LTspice runs: sys.platform and using_macos_native_sim (ltspice_simulator.py 176-182) -/
inductive Platform where
  | windows | wine | macNative
  deriving DecidableEq, Repr

/-- The simulators; ngspice with its _compatibility_mode. -/
inductive Sim where
  | ltspice (on : Platform)
  | qspice
  | ngspice (mode : Option Str)
  | xyce
  deriving DecidableEq, Repr

inductive Err where
  | value | notImplemented
  deriving DecidableEq, Repr

/-- Simulator.raw_extension (simulator.py 96; qspice_simulator.py 35) -/
def Sim.rawExtension : Sim → Str
  | .qspice => ".qraw".toList
  | _ => ".raw".toList

/-- A word of a switch: a literal, or a literal followed by the path. -/
inductive Word where
  | lit (s : Str)
  | path (before : Str)
  deriving DecidableEq, Repr

def l (s : String) : Word := .lit s.toList
def p (s : String) : Word := .path s.toList

/-- ltspice_simulator.py 139-171 -/
def ltspiceArgs : List (Str × List Word) := [
  ("-alt".toList, [l "-alt"]), ("-ascii".toList, [l "-ascii"]), ("-big".toList, [l "-big"]), ("-encrypt".toList, [l "-encrypt"]),
  ("-fastaccess".toList, [l "-FastAccess"]), ("-FixUpSchematicFonts".toList, [l "-FixUpSchematicFonts"]), ("-FixUpSymbolFonts".toList, [l "-FixUpSymbolFonts"]),
  ("-ini".toList, [l "- ini", p ""]), ("-I".toList, [p "-I"]), ("-max".toList, [l "-max"]), ("-netlist".toList, [l "-netlist"]), ("-norm".toList, [l "-norm"]),
  ("-PCBnetlist".toList, [l "-PCBnetlist"]), ("-SOI".toList, [l "-SOI"]), ("-sync".toList, [l "-sync"])]

/-- qspice_simulator.py 79-91 -/
def qspiceArgs : List (Str × List Word) := [
  ("-ASCII".toList, [l "-ASCII"]), ("-ascii".toList, [l "-ASCII"]), ("-binary".toList, [l "-binary"]), ("-BSIM1".toList, [l "-BSIM1"]), ("-Meyer".toList, [l "-Meyer"]),
  ("-o".toList, [l "-o", p ""]), ("-ProtectSelections".toList, [l "-ProtectSelections", p ""]), ("-ProtectSubcircuits".toList, [l "-ProtectSubcircuits", p ""]),
  ("-r".toList, [l "-r", p ""])]

/-- The parameter of an ngspice or Xyce switch: the token of the tables. -/
inductive Token where
  | none       -- no parameter
  | free       -- <FILE>, <TERM>, <path>, <param_options>, <hsext_options>, <delim_option>, <plugin_list>: anything
  | varValue   -- 'var_value' of ngspice
  | redef | trueFalse | int
  | unknown    -- 'onoff_option' (no angle brackets), <basename>, <solver>: not among the tokens that valid_switch knows
  deriving DecidableEq, Repr

/-- ngspice_simulator.py 72-101 -/
def ngspiceArgs : List (Str × Token) := [
  ("-c".toList, .free), ("--circuitfile".toList, .free), ("-D".toList, .varValue), ("--define".toList, .varValue), ("-i".toList, .none), ("--interactive".toList, .none),
  ("-n".toList, .none), ("--no-spiceinit".toList, .none), ("-q".toList, .none), ("--completion".toList, .none), ("--soa-log".toList, .free), ("-s".toList, .none),
  ("--server".toList, .none), ("-t".toList, .free), ("--term".toList, .free)]

/-- xyce_simulator.py 70-115 -/
def xyceArgs : List (Str × Token) := [
  ("-capabilities".toList, .none), ("-license".toList, .none), ("-param".toList, .free), ("-doc".toList, .free), ("-doc_cat".toList, .free), ("-count".toList, .none),
  ("-syntax".toList, .none), ("-norun".toList, .none), ("-namesfile".toList, .free), ("-noise_names_file".toList, .free), ("-quiet".toList, .none),
  ("-jacobian_test".toList, .none), ("-hspice-ext".toList, .free), ("-redefined_params".toList, .redef), ("-subckt_multiplier".toList, .trueFalse), ("-delim".toList, .free),
  ("-o".toList, .unknown), ("-per-processor".toList, .none), ("-remeasure".toList, .free), ("-nox".toList, .unknown), ("-linsolv".toList, .unknown), ("-maxord".toList, .int),
  ("-max-warnings".toList, .int), ("-prf".toList, .free), ("-rsf".toList, .free), ("-a".toList, .none), ("-randseed".toList, .int), ("-plugin".toList, .free)]

/-- _default_run_switches: ltspice_simulator.py 174, qspice_simulator.py 94, ngspice_simulator.py 105, xyce_simulator.py 118 -/
def reserved : Sim → List Str
  | .ltspice _ => ["-Run".toList, "-b".toList]
  | .qspice => ["-o".toList]
  | .ngspice _ => ["-b".toList, "-o".toList, "-r".toList, "-a".toList]
  | .xyce => ["-l".toList, "-r".toList]

/-- `switch.replace('<path>', path)` -/
def Word.fill (path : Str) : Word → Str
  | .lit s => s
  | .path b => b ++ path

/-- `if switch[0] != '-': switch = '-' + switch` (ltspice_simulator.py 226-227 and the same lines of the others) -/
def dashed : Str → Str
  | [] => []
  | c :: s => if c ≠ '-' then '-' :: c :: s else c :: s

/-- xyce_simulator.py 180-211, ngspice_simulator.py 153-162: the parameter is acceptable. -/
def Token.accepts (t : Token) (parameter : Str) : Bool :=
  match t with
  | .none => true
  | .free => true
  | .varValue => contains ['='] parameter
  | .redef => decide (parameter ∈ ["ignore".toList, "uselast".toList, "usefirst".toList, "warn".toList, "error".toList])
  | .trueFalse => decide (lower parameter ∈ ["true".toList, "false".toList])
  | .int => (parseInt parameter).isSome
  | .unknown => false

/-- ngspice_simulator.py 148-164, xyce_simulator.py 178-215: the words of a switch of the tables. -/
def tokenWords (w : Str) (t : Token) (parameter : Str) : List Str :=
  if t.accepts parameter then (if t = .none then [w] else [w, parameter]) else []

/-- valid_switch: ltspice_simulator.py 184-239, qspice_simulator.py 97-139, ngspice_simulator.py 108-164, xyce_simulator.py 121-216.
In ngspice `cls.set_compatibility_mode` (150) is a method and therefore always true. -/
def validSwitch (sim : Sim) (switch : Option Str) (parameter : Str) : Except Err (List Str) :=
  if sim = .ltspice .macNative then .error .value
  else match switch with
    | none => .ok []
    | some s =>
      if strip s = [] then .ok []
      else
        let w := dashed (strip s)
        if w ∈ reserved sim then .ok []
        else match sim with
          | .ltspice _ => match ltspiceArgs.lookup w with
            | some ws => .ok (ws.map (Word.fill parameter))
            | none => .error .value
          | .qspice => match qspiceArgs.lookup w with
            | some ws => .ok (ws.map (Word.fill parameter))
            | none => .error .value
          | .ngspice _ => match ngspiceArgs.lookup w with
            | some t =>
              if t = .varValue ∧ "ngbehavior".toList.isPrefixOf (lower (strip parameter)) then .ok []
              else .ok (tokenWords w t (strip parameter))
            | none => .error .value
          | .xyce => match xyceArgs.lookup w with
            | some t => .ok (tokenWords w t parameter)
            | none => .error .value

/-- ngspice_simulator.py 208-210: the compatibility mode; None and the empty text are off. -/
def modeWords : Option Str → List Str
  | some (c :: m) => ["-D".toList, "ngbehavior=".toList ++ (c :: m)]
  | _ => []

/-- run: ltspice_simulator.py 273-295, qspice_simulator.py 173-179, ngspice_simulator.py 200-212, xyce_simulator.py 249-258: the command, for an absolute
netlist path. `exe` is spice_exe. -/
def command (sim : Sim) (exe switches : List Str) (netlist : Str) : Except Err (List Str) :=
  match sim with
  | .ltspice .macNative =>
    if ".asc".toList.isSuffixOf (lower netlist) then .error .notImplemented
    else .ok (exe ++ ["-b".toList] ++ [netlist] ++ switches)
  | .ltspice .wine => .ok (exe ++ ["-Run".toList] ++ ["-b".toList] ++ ["Z:".toList ++ netlist] ++ switches)
  | .ltspice .windows => .ok (exe ++ ["-Run".toList] ++ ["-b".toList] ++ [netlist] ++ switches)
  | .qspice => .ok (exe ++ ["-o".toList, withSuffix netlist ".log".toList] ++ [netlist] ++ switches)
  | .ngspice mode =>
    .ok (exe ++ switches ++ modeWords mode ++ ["-b".toList] ++ ["-o".toList] ++ [withSuffix netlist ".log".toList] ++ ["-r".toList] ++ [withSuffix netlist ".raw".toList] ++ [netlist])
  | .xyce => .ok (exe ++ switches ++ ["-l".toList] ++ [withSuffix netlist ".log".toList] ++ ["-r".toList] ++ [withSuffix netlist ".raw".toList] ++ [netlist])

/-- run_task.py 138, 144: the files a task looks for when its simulation has ended. -/
def logFile (netlist : Str) : Str := withSuffix netlist ".log".toList
def rawFile (sim : Sim) (netlist : Str) : Str := withSuffix netlist sim.rawExtension

/-! ### The runner -/

/-- The switches of a task: a list of its own, or the runner's list itself (sim_runner.py 567: `switches or self.cmdline_switches` does not copy). -/
inductive Switches where
  | own (s : List Str)
  | shared
  deriving DecidableEq, Repr

/-- A task: its netlist, its switches, and, once its thread has built it (run_task.py 126), its command. -/
structure Task where
  netlist : Str
  switches : Switches
  cmd : Option (Except Err (List Str))

/-- The runner: its switches and tasks. -/
structure Runner where
  switches : List Str
  tasks : List Task

/-- What happens: calls of the user, and steps of the threads. -/
inductive Event where
  | add (switch : Str) (path : Option Str)
  | clear
  | launch (netlist : Str) (switches : List Str)
  | compose (i : Nat)

/-- The list a task's switches are at this moment. -/
def effective (r : Runner) (t : Task) : List Str :=
  match t.switches with
  | .own s => s
  | .shared => r.switches

/-- run_task.py 126: the thread of task `i` builds its command. -/
def compose (sim : Sim) (exe : List Str) (r : Runner) (i : Nat) : Runner :=
  match r.tasks[i]? with
  | some t =>
    if t.cmd.isNone then { r with tasks := r.tasks.set i { t with cmd := some (command sim exe (effective r t) t.netlist) } }
    else r
  | none => r

/-- sim_runner.py 397-399 (clear), 401-416 (add), 558-577 (run). -/
def step (sim : Sim) (exe : List Str) (r : Runner) : Event → Runner
  | .add s path => { r with switches := r.switches ++ s :: path.toList }
  | .clear => { r with switches := [] }
  | .launch netlist sw => { r with tasks := r.tasks ++ [⟨netlist, if sw ≠ [] then .own sw else .shared, none⟩] }
  | .compose i => compose sim exe r i

def run (sim : Sim) (exe : List Str) (r : Runner) (es : List Event) : Runner := es.foldl (step sim exe) r

/-- sim_runner.py 292 -/
def Runner.init : Runner := ⟨[], []⟩

/-- 401: `path=''` when the argument is not given. -/
def addDefault (s : Str) : Event := .add s (some [])

end Model.CmdLine

# Formal model of nunobrum/spicelib in Lean 4

This file was begun before the proofs (git history); the tables below are regenerated from the model by `tools/design.py` as it grows.

## Layout
* `lean/Verif/Model/*.lean` – executable, total models of the Python code, function by function; each definition cites the file and lines of `/repo` it models and says where it simplifies.
* `lean/Verif/Spec/*.lean` – small specifications of what the English properties mean (grammars of files, ordered maps, waveforms, Python call rules). They do not use the model's functions; a few take the result types of the model.
* `lean/Verif/Lemmas/*.lean` – helper lemmas.
* `lean/Verif/Props/*.lean` – the property theorems, one family `Cnn_…` per property.
* `seeded/LOG.jsonl` – wrong programs tried against the theorems: the definition edited, the edit, the claim it breaks, the theorems that failed, the theorems tightened.
* `tools/` – generators of properties.jsonl, MANIFEST.json and this file, and the mutation tool.

## Conventions in the theorem names
* `Cnn_…` the property, for all inputs, states and executions it ranges over.
* `Cnn_sample` (or an `example` beside the theorem): a concrete, non-trivial case that meets the hypotheses, evaluated by the kernel.
* `Cnn_limits`, `…_witness`, `…_fails`: concrete inputs on which the unchanged code does *not* do what the English property would say without its conditions. They show the hypotheses of the main theorems are needed; they are facts about the code, not tests.
* `…_partial`: proves part of a claim only.

## Trusted base
* The Lean 4.33.0 kernel. Axioms: at most `propext`, `Classical.choice`, `Quot.sound`, listed per theorem at the end. No axioms of our own, no compiled evaluation (`decide +kernel` is checked by the kernel).
* Mathlib is used as a library of proved lemmas; the kernel checks them too.
* Our reading of the code: the models are written by hand from the Python text; nothing of /repo is executed. The mutation log is our evidence that the theorems depend on the modelled behaviour.
* The specifications in `Spec/` say what we take the English properties to mean.

## What the model idealises
* `int` is `Int` or `Nat`, exact. `float` is `ℚ`, exact: rounding, infinities and NaN are not modelled. Where the code formats or parses floats the texts are modelled and the number they denote is rational.
* Strings are `List Char`. `str.upper/lower/isspace` and the classes of regular expressions are the ASCII ones (plus µ where the code mentions it).
* Regular expressions: `Model/Regex.lean` is a backtracking matcher with groups in Python's order of preference; the expressions of the code are transcribed. In a few places (said there) an expression that can match in one way only is a function.
* Dictionaries are association lists in insertion order. Objects shared by reference are modelled by stores or identifiers where sharing matters (sub-circuit instances, sweeps, runners), by values otherwise.
* Threads are interleavings of atomic steps; the granularity is stated in each model (single reads and writes of shared fields for the runner). A simulator process is an oracle: any outcome, at any time.
* Files are texts or bytes in a finite map from names; permissions, partial writes, and other processes changing files are not modelled. Encodings are parameters with stated round-trip properties.
* Exceptions are values of `Except`/`Option`; their type is kept where a property speaks of it.

## What is not modelled
The XML-RPC transport and sockets, `subprocess` itself, logging, numpy and pandas beyond element-wise arithmetic, plotting, the interactive scripts (histogram, rawplot, run_server), Windows-only path helpers, and the functions in the right column of the table of functions below.

## Properties: what is modelled and how it is proved

| id | property | modelled | proof | modules |
|---|---|---|---|---|
| C01 | Linear sweep enumerates exactly the grid inside the interval | iterator object over ℚ, `next` with explicit state; run with fuel | closed form of n-th `next`, count via floor | Props.Sweep |
| C02 | sweep_n yields exactly N points, both end points included | `sweep_n` constructor on top of C01 | instance of C01 | Props.Sweep |
| C03 | Logarithmic sweep enumerates exactly the geometric grid | geometric iterator | closed form; termination via Archimedean property of powers; partial: start=0 loops, start=stop yields nothing | Props.Sweep |
| C04 | sweep_log_n yields exactly N geometrically spaced points | iterator counting elements | induction | Props.Sweep |
| C05 | SimStepper.run_all launches every combination exactly once, first-added sweep slowest | odometer of `run_all` with iterator states and a stop flag, fuel/termination proved | refinement to the Cartesian product list | Props.Stepper |
| C06 | total_number_of_simulations predicts run_all | product of lengths skipping zeros | equality under non-empty sweeps (partial) + witness | Props.Stepper |
| C07 | The update journal is a last-write-wins map | list of records | refinement to an ordered map, induction over op list | Props.Updates |
| C08 | Every launched simulation gets a fresh run number and its own netlist file | run counter + name function over `List Char` | injectivity of decimal rendering | Props.Runner |
| C09 | No simulation is lost or counted twice by the runner | SimRunner state machine, interleaving semantics | inductive invariants over op lists | Props.Runner |
| C10 | At most parallel_sims simulations run at once | SimRunner state machine, interleaving semantics | inductive invariants over op lists | Props.Runner |
| C11 | Iterating the runner's results yields each successful run exactly once | SimRunner state machine, interleaving semantics | inductive invariants over op lists | Props.Runner |
| C12 | Condition matching of tasks is conjunctive over the recorded edits | records + conditions | iff with ∀/∃ spec | Props.Updates |
| C13 | Callback discipline of a run task | RunTask.run with oracle outcome | case analysis over the full outcome type | Props.RunTask |
| C14 | Worst-case analysis visits every corner exactly once | XOR-driven incremental update loop | invariant: netlist state = bits of run number | Props.Analysis |
| C15 | Testbench corner selector equals the run-number bit | arithmetic formula of `binary` | `Nat.testBit` | Props.Testbench |
| C16 | Worst-case sensitivity pairs runs differing in exactly one element | index computation of pairs | bit arithmetic | Props.Testbench |
| C17 | Quick sensitivity analysis perturbs one element per run | incremental loop | invariant | Props.Analysis |
| C18 | Testbench batching partitions the run range with no orphan | loop over ranges | concatenation of ranges = whole range | Props.Testbench |
| C19 | Recorded analysis instructions are replayed once and in order | instruction list + pointer/flag | invariant over histories | Props.Replay |
| C20 | Merging log data concatenates runs | map of columns | fold | Props.LogMerge |
| C21 | steps_with_conditions is the ordered intersection | table filter | characterisation | Props.LogData |
| C22 | split_line_into_values splits only at top-level separators | character scanner | induction over input | Props.SplitLine |
| C23 | Steps partition every stepped waveform | offsets computed from axis data | concat of slices | Props.RawClasses |
| C24 | RAW write/read round trip | byte-level encoder/decoder with abstract sample codecs of fixed widths | round trip, for arbitrary trace subset | Props.RawWrite |
| C25 | Selective trace loading equals full loading restricted | byte-level encoder/decoder with abstract sample codecs of fixed widths | round trip, for arbitrary trace subset | Props.RawRead |
| C26 | Axis position lookup brackets and interpolates the requested value | search + interpolation over ℚ | algebra | Props.RawClasses |
| C27 | get_len(step) is the number of points of that step | formula in `get_len` | witness of failure + partial | Props.RawClasses |
| C28 | At most one simulation command in the netlist | netlist as list of lines with decoded commands | invariants over op lists; witness for C30 | Props.Netlist |
| C29 | add_instruction then remove_instruction restores the netlist | netlist as list of lines with decoded commands | invariants over op lists; witness for C30 | Props.Netlist, Props.SubInstr |
| C30 | Instructions are placed inside the executed part of the netlist | netlist as list of lines with decoded commands | invariants over op lists; witness for C30 | Props.Netlist |
| C31 | Logical line splitting is lossless | character state machine | losslessness by induction | Props.Lines |
| C32 | Loading and saving an untouched netlist is idempotent | recursive-descent loader and writer | round trip on trees | Props.NetSave, Props.NetTree |
| C33 | Component edits are local: read-your-write and frame | circuit as list of items | read-your-write, frame | Props.Hier |
| C34 | Editing one sub-circuit instance does not affect the others | circuits with instances, copy-on-write clones | isolation invariant over op lists | Props.Hier |
| C35 | Read-only editors are never modified | circuit as list of items | read-your-write, frame | Props.CompOps, Props.Hier, Props.QInstr |
| C36 | Parameter tokenisation respects quoting and brackets | character tokenizer | round trip | Props.Params |
| C37 | QSCH tag tree round trip | character level parser / printer | parse∘print by mutual induction | Props.Qsch |
| C38 | QSCH attribute set/get round trip and frame | character level parser / printer | parse∘print by mutual induction | Props.Qsch |
| C39 | Engineering notation is read back as the same number | decimal mantissa/exponent model of `format_eng`, `scan_eng` | arithmetic; witness for `1meg` | Props.FloatFormat |
| C40 | Unit suffix parsing is case-insensitive and exact | decimal mantissa/exponent model of `format_eng`, `scan_eng` | arithmetic; witness for `1meg` | Props.FloatUnit |
| C41 | Server sessions are isolated | server state machine with sessions | invariants; witnesses | Props.Server |
| C42 | The client iterator delivers every started job exactly once | server state machine with sessions | invariants; witnesses | Props.Client |
| C43 | Encoding detection returns the first admissible encoding | search over candidates with abstract decoders/containers | first-match characterisation | Props.Search |
| C44 | Library file search honours container order | search over candidates with abstract decoders/containers | first-match characterisation | Props.Search |
| C45 | Wire/point geometry: touches is segment membership | ℚ geometry | iff convex combination | Props.Geom |
| C46 | ASC text alignment codec | enums | finite total case analysis (complete table) | Props.Asc |
| C47 | ASC schematic instructions: unique simulation command | directive list | invariant | Props.AscInstr |
| C48 | LTspice export reformatting tags every sample with its step | line-level state machines | induction | Props.Export, Props.LogRead |
| C49 | Stepped log parsing keeps step columns aligned | line-level state machines | induction | Props.LogRead |
| C50 | Fast worst case is a sound greedy search | greedy loop with measurement oracle | invariant; witness for the swapped results | Props.FastWorst |
| C51 | Sensitivity percentages are shares of one hundred | the percentages of quick and worst-case sensitivity over ℚ | algebra; division by zero as a witness | Props.Testbench |
| C52 | Measurement aggregates | averages, extremes and deviations of measurement columns | algebra over ℚ | Props.LogData |
| C53 | Exported measurement table is aligned | columns split by shape, rows written in step order | columns and rows have equal lengths for every table | Props.LogData |
| C54 | Measurement tables of a stepped log are read column by column | the measurement tables of a log, line by line | induction over lines: what is stored are the cells of the table | Props.LogRead |
| C55 | Adding and removing components | add and remove of components in netlists | read-your-write and frame over all edit lists | Props.CompOps |
| C56 | Component parameters: read-your-write and frame | parameters of component lines | read-your-write and frame over all edit lists | Props.CompOps |
| C58 | LTspice schematic files survive a save | the .asc reader and writer on text | reading what was written gives the schematic, by induction over records | Props.Asc |
| C59 | Scaling a schematic moves everything once and keeps connections | translate and scale of every coordinate | each coordinate transformed once; connections preserved | Props.Geom |
| C61 | Runs of a shared runner are neither lost nor reported twice | interleaving of the threads of a runner at the granularity of single reads and writes | inductive invariants over all schedules | Props.Race |
| C60 | Parameters of schematics behave like a dictionary | parameters inside schematic directives | refinement to a dictionary | Props.ParamLine |
| C62 | Parameters of netlists behave like a dictionary | parameters inside .PARAM lines of netlists | refinement to a dictionary; regular expression executed symbolically | Props.IncParam, Props.SpiceParam |
| C63 | Component lines are read and rewritten faithfully | component regular expressions run by a backtracking matcher | matcher proved equal to the grammar of component lines | Props.CompLine, Props.CompShort |
| C64 | LTspice export columns stay aligned | export of LTspice data | column by column comparison with the file | Props.Export |
| C65 | Component parameters of LTspice schematics behave like a dictionary | attributes of .asc components | refinement to a dictionary | Props.SchComp |
| C66 | Components of QSPICE schematics | components of .qsch trees | tree lemmas, read-your-write and frame | Props.QComp |
| C67 | Instructions of QSPICE schematics | instructions of .qsch trees | list refinement | Props.QInstr |
| C68 | Nets of the pins of QSPICE schematics | pin positions under rotation and mirroring, nets by position | geometry over ℤ with complete case tables | Props.QNets, Props.QPin |
| C69 | Netlists of QSPICE schematics | netlists written from .qsch trees | line grammar and connection by connection equality | Props.QNetlist |
| C70 | A Monte-Carlo testbench simulates the declared distributions | expressions written into a Monte-Carlo testbench | meaning of the expressions compared with the declared tolerance | Props.MonteCarlo |
| C71 | Each run of a Monte-Carlo analysis is an independent draw | draws of one Monte-Carlo run | each value a function of fresh random numbers only | Props.MonteCarlo |
| C72 | Steps of a stepped simulation and exported columns | step lines of logs, steps of RAW files, selection of steps | parse of print, filters characterised | Props.RawSteps |
| C73 | Reading ASCII RAW files | ASCII RAW bodies | reading what the layout says, for all numbers of points and traces | Props.RawAscii |
| C74 | The command line of a simulation | command lines of the simulators | argument lists compared with the documented options, path functions on text | Props.CmdLine |
| C75 | Operating points of semiconductor devices | operating point tables in logs | cell by cell equality for any number of columns and blocks | Props.OpLog |
| C76 | LTspice log files as a whole | whole LTspice logs | simulation of the reader by a grammar of logs | Props.LogFile |
| C77 | QSPICE logs and .meas files | QSPICE logs and .meas files | grammar of files; execution of the regular expressions | Props.QspiceLog |
| C78 | An LTspice symbol file is read as what its lines say | .asy files | grammar of symbol files | Props.Asy |
| C79 | Converting an LTspice schematic to QSPICE | conversion of .asc to .qsch | each element converted once, coordinates nearest | Props.Convert, Props.ConvertPin |
| C80 | Which definition a sub-circuit name stands for | search for the definition of a sub-circuit | first match in a stated order | Props.SubFind |
| C81 | Merging traces of several RAW files | merge of RAW writers with different time axes | interpolation on the union of the axes | Props.RawMerge |
| C82 | Arguments of callbacks | arguments bound to callback parameters | Python call semantics; each parameter gets the argument meant | Props.Callback |
| C83 | Waiting for the simulations of a runner | the loop waiting for simulations, with a clock | all schedules: returns iff done or timed out | Props.Wait |
| C84 | Files of runs: placement and cleanup_files | names of files of runs, placement and cleanup | session invariants over all operation lists | Props.Cleanup |
| C85 | Aliases of QSPICE RAW files have the value of their formulas | rewriting of alias formulas and eval | text rewriting proved equal to rewriting of expressions; parser run on the tokens | Props.Alias |
| C86 | The private copy of a sub-circuit definition | definitions as lists of elements; the expression for .SUBCKT lines run by the matcher, the splice on text | position of the name computed from the run of the matcher; words after the name preserved; induction over the elements | Props.Rename |
| C87 | Control sections are found, removed and refused as announced | Model/Control.lean: the three methods over the elements of Model/Netlist and the loader of Model/NetTree; Spec/Control.lean: the sections of a file of blocks | induction over the elements with the position of the k-th section; C32_load gives the elements of a loaded file | Props.Control |
| C88 | Libraries and symbols are looked for in the announced directories, in order | Model/LibPath.lean: class variables with the method resolution order, the searches over Model/Search, events; Spec/LibPath.lean: first offer, what a comment says | characterisation of the search by induction over the containers, case analysis for the program, invariant of the cache over every history | Props.LibPath |
| C89 | The executable of a simulator and its library directories | Model/SimExe.lean: path normalisation, shell words, the class table, wine translation; Spec/SimExe.lean: how a command may be written, where a directory is under wine | induction over the grammar of commands and over the list of default directories | Props.SimExe |
| C90 | The file of Fourier analyses is two tables | The second half of LTSpiceLogReader.export_data, character by character | The text is cut back into rows and cells and compared with a table given by a specification; permutation argument for one row per analysis | Props.FourierFile |
| C91 | Results of a tolerance analysis are those of its runs | read_logfiles, add_log, clear_simulation_data, analyse_measurement, get_min_max_measure_value as a state machine over histories | Fold invariants for the merge, induction over histories for what is kept | Props.Results |
| C92 | Numbers with units keep value, text and unit | float_unit objects in a heap: creation, clean, unit setter, text, arithmetic, comparison, to_float | Induction over histories; the round trip uses C39 and C40 | Props.UnitObj |
| C93 | The exported sweep is a table that reads back | export_step_info and the csv writer with QUOTE_NONNUMERIC, character by character | A CSV reader as specification; induction over characters, fields and rows; insertion sort | Props.StepCsv |
| C94 | One RAW file with traces of several runs | sim_runner.py 803-845 on top of Model/RawMerge and Model/Updates: choice of the runs, loop with run-number tags, skipping of runs without a RAW file, save. | Induction over the runs, building a Session of C81 whose invariant gives the curves; number of points never falls below one when the runs have enough points; induction for equal axes; refusal by induction over the runs. | Props.RunFile |
| C95 | The nodes of a circuit | get_all_nodes over the elements of a netlist with the regular expressions of Model/CompLine, and the iteration of a circuit | fold invariant of the list of distinct members; lines are read back by the theorems of C63/C64; mutual induction over nested circuits for the iteration | Props.Nodes |
| C96 | raw_convert: the traces and the output | the script from parsed options to exit code, messages and output, on top of the export of Model/RawSteps | case analysis of the three names; the table is that of C72 | Props.RawConvert |
| C97 | Symbols and sub-circuits of an LTspice schematic | _get_symbol, _get_subcircuit and the recursion of opening schematics over an abstract file system, with the search of Model/LibPath, the symbols of Model/Asy and the libraries of Model/SubFind | induction over the written name; induction over the recursion limit, transitive closure of the containment relation for cycles | Props.AscSub |
| C98 | Values in log files: whole numbers, numbers, complex numbers, texts | the regular expression of LTComplex on the backtracking matcher, the value as a complex number of Mathlib, try_convert_value | characterisation of the lazy expression in both directions; arg and norm of complex numbers from Mathlib | Props.Values |
| C99 | What a runner reports of its runs | the dictionary of sim_info and the text of a duration (exact rationals) | induction over the completed runs with lemmas on insertion into a dictionary; floor arithmetic and injectivity of zero-filled decimal notation | Props.RunInfo |
| C100 | Waiting for a free place | the loop of run with its clock, on the jobs of C83 and the runner of C08-C11 | induction over the turns with the set of simulations not yet ended as invariant; the reachable-state invariant of C09 for run_now | Props.Launch |
| C101 | Files in the folder of the simulation server | the folder as a map from names to contents, sessions, runs, entries of completed_tasks; extraction, copy, simulation, end, packing, fetching, closing, stopping | invariants over histories (who started which run, entries name only files of their run, reasons for files), with the disjointness of run file names of C84 | Props.ServerFiles |
| C102 | A component made in a program is written to the netlist so that it reads back as it was made | Model/NewComp.lean: the constructor over keyword arguments and the loop of write_lines over the output, count and line_size; reading is Model/Lines and Model/CompLine. Spec/NewComp.lean: folded text, the line with single spaces. | Induction over the parameters from the end with an invariant on the groups written so far; the continuation lines are joined with C31_continuation, the logical line is read with C63_read. | Props.NewComp |
| C103 | Values and parameters that were set survive saving and opening again, whatever the history | Model/EditSave: netlists as elements (components with their attributes, everything else through Model.NetTree), set and get by the first matching reference, set_parameter and get_parameter by the first definition (the new line before the last element), save, open, and runs of these operations | Relation between the parts of the specified netlist and the elements, kept by set (by induction over the list), by save (C63 grammar and rewrite lemmas, C32 blocks) and by open (C31 lines, C32 load); induction over the operations | Props.EditSave |
| C104 | The netlist file of a run says the values of that run | Model/SweepFiles: the loop of Model.Stepper with the elements of Model.EditSave, the run number and the folder; sessions of sets, runs and reopens | Invariant over the passes of the loop (elements related to the specified parts, files in launch order), simulation of Model.Stepper, C05_launch_values for the order; induction from the end over the actions; run names are distinct because decimal numbers are | Props.SweepFiles |
| C105 | Whole editing sessions end to end: values, parameters, components and instructions added and removed, saves and re-opens in any order | a session as a list of calls on the list of elements of the editor (Model/Session.lean on top of EditSave, Netlist, CompLine, NetTree) | a relation between parts of the text and elements is kept by every call (step_rel), by induction on the session; the searches (findUnique, findText, findBackanno, index of a component) are shown to find the same position in the list of parts | Props.Session |
| C106 | Editing sessions on LTspice schematics, from file to file | Model/AscSession.lean: the calls as steps on the sheet of Model.Asc, built on Model.AscInstr and Model.ParamRegex; saving and reading are Model.Asc | each step keeps the sheet well formed (the write/read theorem C58 applies at the end) and changes exactly what Spec/AscSession.lean says; induction over the calls | Props.AscSession |
| C107 | Editing sessions on QSPICE schematics | the tags of the sheet and every editing call on them, token by token; the file as the text of the tree | each call rewrites one text tag, or one component, or takes tags out (TextEffect, CompEffect); invariants by induction on the list of calls, and the round trip of C37 for the file | Props.QSession |
| C108 | Component parameters in editing sessions on LTspice schematics | set_component_parameters with any keywords on the components of a sheet (Model/AscParts: the attributes as the dictionary of Model/SchComp, and back), mixed with the calls of Model/AscSession; get_component_parameters as read from the sheet. | Invariant over the session: the sheet can be saved, its parameter texts are in the grammar, and each component in R has the lines of pairs computed by the specification of C65; one step for each kind of call; then the written file is read (C58). | Props.AscParts |
| C109 | Component parameters in editing sessions on QSPICE schematics | set_parameters and get_parameters on the tree of tags of the file (Model.QParts), with the other calls of Model.QSession | invariant over the session: every component considered has a symbol whose texts hold pairs (Good); one setting keeps it and changes one pair (edit_symbol), the other calls keep it; the file is read back with C37 | Props.QParts |
| C110 | The netlist files of a program's runs, and of worst-case, sensitivity and Monte-Carlo analyses | the operations of the editor (Model.Session), reset, run and the three analyses as programs of them, on elements given by kind, name and two texts | C110_snapshot: invariant (editor is the edited netlist, file is the base netlist) over the program, then the saved files are read back; the analyses are shown to be such programs, the value of element i after the runs up to r is computed by induction over the passes with bits of r xor last | Props.RunSnap |
| C111 | The fast worst-case analysis on the netlist | the program of run_analysis on the state of Model.RunSnap, with set, run, measure and the three loops | invariant Good: the editor's netlist is the one with the recorded instructions at the levels of the configuration; each loop is shown to follow the loop of Model.FastWorst by induction | Props.FastFiles |
| C112 | The netlist of an edited QSPICE schematic has the new values | The models of C107 (Model.QSession) and C69 (Model.QNetlist), unchanged: Props/QLine joins them. | The frame theorem of C107 says that only the second text of the symbol, position and orientation differ; from this the relation Draws of C69 is carried from the old tag to the new one, then C69_device gives the line. | Props.QLine |
| C113 | The netlist of a QSPICE schematic has the component parameters that were set | The models of C109 (Model.QParts) and C69 (Model.QNetlist), unchanged: Props/QPartsLine joins them. | Induction on the session: a call leaves the symbol's own words and its tags other than texts (step_bones); with the pairs of C109 the relation Draws of C69 is carried to the tag at the end; C69_device gives the line. | Props.QPartsLine |

The note of each claim in MANIFEST.json says what is assumed and what is left out.

## Functions of the code and whether the model covers them

Generated from the citations in the model: a function counts as modelled when at least half of its lines are cited. Functions of fewer than four lines are left out.

| file | modelled | not modelled |
|---|---|---|
| __init__.py |  | all_loggers |
| client_server/sim_client.py | run, get_runno_data, __next__ | __init__, add_sources |
| client_server/sim_server.py | add_sources, run, start_session, status, get_files, close_session | __init__, stop_server |
| client_server/srv_sim_runner.py | zip_files, run, add_simulation, _erase_files_and_info, erase_files_of_runno | __init__ |
| editor/asc_editor.py | set_value, get_value_str, get_parameters, set_parameters, __init__, save_netlist, reset_netlist, _get_symbol, _get_subcircuit, _get_param_named, get_all_parameter_names, get_parameter, set_parameter, set_component_value, get_component_value, remove_component, _get_text_space, _lib_file_find, _asy_file_find, add_instruction, remove_instruction, remove_Xinstruction | save_as, get_subcircuit |
| editor/asy_reader.py | __init__, to_qsch | get_library, get_model, get_value |
| editor/base_editor.py | _check_and_append_custom_library_path, set_custom_library_paths | prepare_for_simulator |
| editor/base_schematic.py | __str__, __init__, touches, intercepts, __init__, __init__, _get_parent, get_component, set_component_position, add_component, scale | __init__, reset_netlist, copy_from |
| editor/base_subcircuit.py | editor, begin_update, end_update |  |
| editor/ltspice_utils.py | asc_text_align_set, asc_text_align_get |  |
| editor/primitives.py | try_value, __call__, __init__, _set_ports, __getitem__, __setitem__, set_parameter, clear_parameters, clone | ports, get_value_str, get_value, get_parameters, get_parameter |
| editor/qsch_editor.py | __init__, parse, out, get_attr, set_attr, get_text, get_text_attr, set_value, set_model, get_parameters, set_parameters, set_position, save_as, write_spice_to_file, save_netlist, _find_pin_position, _find_net_at_position, reset_netlist, _parse_qsch_stream, _get_param_named, get_all_parameter_names, _qsch_file_find, get_parameter, set_parameter, set_component_value, get_component_value, remove_component, _get_text_space, add_instruction, remove_instruction, remove_Xinstruction, copy_from | get_xy_for_new_text, __init__, get_subcircuit, get_subcircuit_named |
| editor/spice_components.py | tokenize_params, _parse_params, _insert_section, reset_attributes, rewrite_lines, write_lines, set_value, set_parameter |  |
| editor/spice_editor.py | reset_netlist, get_control_sections, add_control_section, remove_control_section | __init__ |
| editor/spice_file.py | add_instruction, remove_instruction, remove_Xinstruction, save_netlist, reset_netlist | __init__ |
| editor/spice_subcircuit.py | get_line_command, separate_lines, _add_lines, write_lines, _get_parameter_named, get_all_parameter_names, get_subcircuit_named, clone, name, setname, get_component, __iter__, get_component_parameters, get_parameter, set_parameter, set_element_model, get_component_value, get_components, add_component, remove_component, get_all_nodes, class_for_instruction, add_instruction, remove_instruction, remove_Xinstruction, find_subckt_in_lib, find_library, _add_lines, __init__, __iter__ | get_subcircuit_names, __contains__, get_component_attribute, get_component_nodes, find_subckt_in_included_libs, modified_subcircuits |
| editor/spice_subcircuit_instance.py | subcircuit, get_subcircuit_named, begin_update, end_update | __setattr__, __getitem__, __setitem__, set_element_model, set_component_attribute, set_component_values |
| editor/spice_utils.py | PREFIX_AND_NODES_RGX, VALUE_RGX | _first_token_upped |
| editor/updates.py | add_update, value, parameter | __repr__, __getitem__ |
| log/logfile_data.py | try_convert_value, split_line_into_values, __new__, unit, __init__, __getitem__, steps_with_parameter_equal_to, steps_with_conditions, get_measure_value, get_measure_values_at_steps, export_data | obtain_amplitude_and_phase_from_complex_values, plot_histogram |
| log/ltsteps.py | reformat_LTSpice_export, __init__, from_line, __init__, export_data |  |
| log/qspice_log_reader.py | __init__, obtain_measures, parse_meas_file |  |
| log/semi_dev_op_reader.py | opLogReader |  |
| raw/plot_data.py | namify, get_remaining_bytes, raw_detect_encoding, __init__, _read_ascii_vector, _compute_alias, _read_bytes_from_file, read_trace_data, get_trace, get_wave, get_axis, _load_step_information, get_steps, export, to_csv | dtype_from_string, get_raw_property, get_plot_name, get_time_axis, get_len, to_dataframe, to_excel |
| raw/raw_classes.py | __init__, set_steps, step_offset, get_wave, get_position, __len__, get_point, get_wave, get_point_at |  |
| raw/raw_read.py |  | __init__ |
| raw/raw_write.py | __init__, __init__, _str_flags, add_trace, save, _rename_netlabel, _name_exists, add_traces_from_raw, _interpolate, _consolidate | get_trace |
| scripts/asc_to_qsch.py | convert_asc_to_qsch | main |
| scripts/histogram.py |  | main |
| scripts/ltsteps.py | main |  |
| scripts/raw_convert.py | main |  |
| scripts/rawplot.py |  | main, what_to_units |
| scripts/run_server.py |  | signal_handler, main |
| sim/process_callback.py | __init__, run |  |
| sim/run_task.py | format_time_difference, run, get_results | __init__, print_info |
| sim/sim_runner.py | __init__, match_conditions, __next__, sim_info, _on_output_folder, _to_output_folder, _run_file_name, _prepare_sim, validate_callback_args, run, run_now, update_completed, kill_all_spice, _maximum_stop_time, wait_completion, cleanup_files, create_raw_file_with | __init__, set_simulator, export_sim_log |
| sim/sim_stepping.py | total_number_of_simulations, run_all, export_step_info | __init__ |
| sim/simulator.py | create_from, guess_process_name, is_available, get_default_library_paths, expand_and_check_local_dir |  |
| sim/tookit/fast_worst_case.py | run_analysis, check_and_add_component, value_change, set_ref_to, run_and_get_measure |  |
| sim/tookit/montecarlo.py | prepare_testbench, _get_sim_value, run_analysis, analyse_measurement |  |
| sim/tookit/quick_sensitivity_analysis.py | prepare_testbench, get_sensitivity_data, run_analysis, check_and_add_component |  |
| sim/tookit/sim_analysis.py | __init__, run, play_instructions, read_logfile, add_log_data, read_logfiles | runner |
| sim/tookit/tolerance_deviations.py | __init__, set_tolerance, get_component_value_deviation_type, run_testbench, add_log, read_logfiles | reset_tolerances |
| sim/tookit/worst_case.py | _set_component_deviation, prepare_testbench, run_analysis, get_min_max_measure_value, make_sensitivity_analysis, check_and_add_component, diff_for_a_ref |  |
| simulators/ltspice_simulator.py | valid_switch, run | create_netlist |
| simulators/ngspice_simulator.py | valid_switch | run |
| simulators/qspice_simulator.py | valid_switch | run |
| simulators/xyce_simulator.py | valid_switch | run |
| utils/detect_encoding.py | detect_encoding |  |
| utils/file_search.py | find_file_in_directory, search_file_in_containers |  |
| utils/float_unit.py | format_eng, parse_value, to_float, __init__, __str__, unit_long, unit, __eq__ | test_float_unit |
| utils/sweep_iterators.py | __init__, __init__, __iter__, __next__, __init__, __next__, __init__, __next__ |  |
| utils/windows_short_names.py |  | get_short_path_name |

## Axioms of every theorem

Collected from the compiled project (tools/axioms.sh); no theorem depends on any other axiom.

* **none** (12 theorems): C07_parameter_lookup_stale :, C08_trailing_dot_collision :, C18_exceeds_requested_maximum :, C19_late_command_not_applied :, C20_merge_modifies_first_log :, C20_same_log_three_times :, C31_empty :, C38_accepted :, C41_orphan_witness :, C49_given_steps_miscounted :, C82_process_result :, C86_copies_apart :
* **propext** (27 theorems): C05_generator_sweep_truncated, C05_no_sweeps_one_run, C06_empty_sweep_mismatch, C100_state, C13_callback_arguments, C13_get_results, C13_limit_nameless, C13_log_renamed_iff_failed, C13_retcode, C13_wait_results_hangs_on_minus_one, C19_prepared_testbench_applies_deviations, C19_unprepared_testbench_lacks_deviations, C21_no_condition_gives_none, C23_unstepped, C27_trace_len_wrong, C32_failed_save_truncates, C38_frame, C38_set_get_str, C42_keyError_witness, C56_unmentioned, C58_settled_same, C61_index_error, C69_no_brackets, C82_refused_before_start, C84_placement, C88_inherited, C88_prepare
* **propext, Quot.sound** (45 theorems): C01_sweep_one_argument, C01_sweep_rejects_zero_step, C05_shared_sweep_object_never_ends, C05_sim_info, C07_edit_is_local, C07_no_duplicate_records, C09_run_now_timeout_miscounted, C09_wait_timeout_reports_false, C11_run_now_timeout_stops_early, C12_filter_kinds, C13_callback_exactly_when, C13_wait_results_ends_iff, C19_analysis_replays_all, C19_applied_is_prefix_of_recorded, C19_played_once, C21_ambiguous_raises, C25_unknown_name, C31_comment_line, C31_every_text_has_one_of_these_forms, C31_lossless, C35_set_value_denied, C43_answer_reads_file, C43_first_admissible, C43_one_char, C43_one_char_witness, C43_raises_iff_none, C43_utf8_preferred, C44_first_container, C44_nearest_first, C44_none_iff, C47_position, C47_remove, C48_fails_iff, C48_rows_tagged_with_their_step, C48_titles_once, C53_empty_list_shifts_columns, C53_ragged_steps_refused, C56_recorded, C61_running_reported, C61_started_meanwhile, C69_private_names, C72_csv, C73_stepped, C84_not_the_original, C95_iteration
* **propext, Classical.choice, Quot.sound** (799 theorems): C01_sweep_exact, C01_sweep_membership, C01_sweep_restart, C02_sweep_n_count_and_ends, C02_sweep_n_points, C02_sweep_n_rejects, C02_zero_points_yields_two, C03_ends_iff, C03_equal_bounds_yield_nothing, C03_nonpositive_start_diverges, C03_sweep_log_exact, C03_sweep_log_one_argument, C03_sweep_log_rejects, C03_sweep_log_restart, C04_sweep_log_n_count_and_ends, C04_sweep_log_n_points, C04_sweep_log_n_restart, C05_every_combination_once, C05_launch_values, C05_run_all_product, C06_total_and_launches, C06_total_matches_run_all, C07_every_edit_recorded, C07_journal_is_last_write_wins, C07_parameter_lookup, C07_updates_on, C07_value_lookup, C08_file_names_distinct, C08_history_files_distinct, C08_run_numbers_fresh, C09_counters_classify, C09_no_task_lost_or_duplicated, C09_run_only, C09_wait_completion, C100_at_once, C100_ends, C100_gave_up, C100_limit_no_timeout, C100_limit_run_now_lost, C100_sample, C100_started, C101_changes, C101_circuit, C101_close, C101_isolated, C101_limit_archive, C101_limit_dot, C101_limit_left, C101_limit_shared, C101_limit_stop, C101_results, C101_sample, C101_sources_stay, C101_upload, C101_what_is_there, C102_limit_blank, C102_limit_count, C102_limit_list, C102_limit_model, C102_make, C102_param, C102_read, C102_sample, C102_text, C103_limit_blank, C103_saved, C103_untouched, C103_values, C104_files, C104_snapshot, C105_added, C105_directives, C105_instruct, C105_limit_duplicate, C105_one_analysis, C105_removed, C105_session, C105_twice, C105_undo_component, C105_undo_directive, C106_accepted, C106_components, C106_drawing, C106_files, C106_frame, C106_one_analysis, C106_params, C106_session, C106_texts, C106_value, C107_accepted, C107_components, C107_files, C107_frame, C107_marked_instruction, C107_one_analysis, C107_params, C107_session, C107_taken_off, C107_texts, C108_accepted, C108_params, C108_rest, C108_session, C109_accepted, C109_hex_name, C109_in_value, C109_params, C109_rest, C109_session, C10_at_most_parallel_sims, C10_launch_below_limit, C10_run_only, C110_monte_carlo, C110_run_name_witness, C110_sensitivity, C110_snapshot, C110_worst_case, C111_extremes, C111_fast_worst_case, C112_draws, C112_instructions, C112_line, C112_removed, C113_draws, C113_line, C11_delivered_is_filtered_prefix, C11_each_delivery, C11_run_only, C11_stop_means_all_delivered, C14_every_assignment_exactly_once, C14_recorded_value_ignored_by_corners, C14_run_r_is_corner_r, C14_second_analysis_drifts, C14_twelve_elements_nothing_simulated, C15_binary_is_the_bit, C15_testbench_corners, C15_testbench_mirrors_analysis, C16_mean_over_pairs, C16_pairs_partition_runs, C17_one_element_per_run, C18_batches_partition, C18_no_orphan, C20_merge_concatenates, C21_measure_by_conditions, C21_steps_with_conditions, C22_comma_after_group_adds_missing, C22_fuel_irrelevant, C22_lossless, C22_split_is_the_grammar, C22_text_before_bracket_raises, C22_texts_are_atomic, C22_unclosed_raises, C23_axis_chunks, C23_axis_partition, C23_get_point, C23_step_offsets, C23_trace_partition, C24_ac_needs_plot_name, C24_added_traces, C24_complex_fastaccess_mixed, C24_header_read_back, C24_many_plots, C24_other_length_refused, C24_round_trip, C24_single_precision_axis_unreadable, C25_axis_lost, C25_get_trace, C25_get_trace_any_case, C25_history, C25_read_exact, C25_read_succeeds, C26_interpolation_unique, C26_point_at, C26_position, C26_position_outside, C27_axis_dunder_len, C27_axis_len, C27_trace_len, C27_trace_len_actual, C28_add_replaces, C28_add_succeeds, C28_at_most_one, C28_blocked_by_textless, C28_leading_newline_escapes, C29_add_new, C29_add_present, C29_add_remove, C29_comment_not_removable, C29_control_section_breaks_editor, C29_removeX, C29_remove_first, C29_sub_add, C29_sub_removeX, C29_sub_remove_first, C30_add_after_end, C30_add_before_end, C30_blank_netlist_loses_line, C30_parameter_after_end, C30_parameter_becomes_title, C30_parameter_before_end, C31_bad_bracket_raises, C31_continuation, C31_continuation_fuses_words, C31_last_line, C31_line, C31_trailing_comment, C32_endmachine_truncates, C32_include_name, C32_include_with_end, C32_included, C32_load, C32_load_save, C32_load_structure, C32_missing_include, C32_nothing_lost, C32_quoted_name, C32_save, C32_save_same, C32_unterminated_include_dropped, C32_unterminated_raises, C33_case_insensitive, C33_lines_unchanged, C33_missing, C33_one_value, C33_unparsable_blocks, C34_definitions_unchanged, C34_history, C34_instances_renamed, C34_journal, C34_numeric_name_unreachable, C34_other_instances, C34_other_paths, C34_read, C34_read_your_write, C34_renamed_once, C35_asc_bypasses, C35_asc_denied, C35_bypasses, C35_component_calls_denied, C35_detached_component, C35_instructions_denied, C35_object_setters_denied, C35_parameter_denied, C35_qsch_denied, C35_sample, C35_sub_add_instruction_bypasses, C35_sub_removals_denied, C35_value_denied, C36_blank_before_comma, C36_flag_unreadable, C36_nested_braces, C36_parentheses_split, C36_read_all, C36_read_order, C36_trailing_name_lost, C36_type_lost, C36_write_read, C37_before_child, C37_colon_in_text, C37_file, C37_load_save_load, C37_not_stable, C37_round_trip, C37_two_colons, C38_edit_survives_save, C38_hex_text, C38_quotes_lost, C38_set_get_int, C38_set_get_pair, C38_set_position, C38_set_position_enum, C39_exact, C39_kelvin_witness, C39_round_trip, C39_scan_format, C39_zero, C40_blank_point_witness, C40_blanks, C40_inner_R, C40_inner_point, C40_meg, C40_multiplier, C40_plain, C40_refused, C40_scientific, C40_small_meg, C41_at_most_once, C41_close_erases, C41_get, C41_others_have_no_effect, C41_run_numbers, C41_status, C41_unknown_session, C42_fetch, C42_next, C42_refused_never_stops, C42_stops, C42_yields, C44_zip_witness, C45_collinear, C45_crossing_witness, C45_direction_axis, C45_direction_exact, C45_intercepts_axis, C45_intercepts_exact, C45_intercepts_symmetric, C45_oblique_witness, C45_touches_axis, C45_touches_exact, C46_corner, C46_other_words, C46_read_write, C46_rotations, C46_write_read, C47_add_command, C47_add_other, C47_add_refused, C47_add_succeeds, C47_at_most_one, C47_comments, C47_empty_directive, C47_frame, C47_newline, C47_removeX, C47_second_line, C47_still_saveable, C48_export_reader_needs_steps, C48_file, C48_header_not_read, C48_header_read, C48_no_equal_raises, C48_no_steps, C48_plus_sign_mistags, C48_step_lost, C49_aligned, C49_qspice_steps, C49_step_columns, C50_ends, C50_monotonic_exact, C50_raises_when_guess_is_wrong, C50_reported_extremes_are_local_optima, C50_simulated_value_exceeds_reported_maximum, C51_quick_percentages, C51_worst_case_no_difference_raises, C51_worst_case_percentages, C52_aggregates, C52_aggregates_raise, C53_export_aligned, C54_measurement_tables, C54_same_name_last_kept, C55_add_after, C55_add_before, C55_add_default, C55_add_keeps_others, C55_add_then_remove, C55_existing_not_replaced, C55_remove, C55_remove_missing, C56_cleared_written_as_None, C56_set_parameters, C58_empty_value, C58_load_save_load, C58_nameless, C58_ports_lost, C58_rotation, C58_round_trip, C58_same_name, C58_settled_eq, C58_stable, C58_text_dropped, C58_vertical_text_lost, C59_connections_kept, C59_int_keeps_order, C59_iopin_witness, C59_moved_as_often_as_held, C59_scale, C60_bare_expression_witness, C60_comment_witness, C60_get, C60_history, C60_names, C60_number_like_never_found, C60_number_like_witness, C60_qsch_get, C60_qsch_history, C60_qsch_names, C60_qsch_set, C60_qsch_unqualified_witness, C60_read, C60_set, C60_set_new, C61_each_once, C61_locked, C61_manager_gone, C61_missing_is_carried, C62_denied, C62_empty_value_witness, C62_get, C62_history, C62_include_change, C62_include_get, C62_include_history, C62_include_names, C62_include_new, C62_include_sample, C62_names, C62_names_control_witness, C62_remove, C62_remove_first_witness, C62_remove_missing_witness, C62_remove_suffix_witness, C62_remove_unit_witness, C62_set, C62_set_new, C63_blanks_normalised, C63_braces_swallow_params, C63_comment_in_param, C63_comment_in_value, C63_controlled_source_comment, C63_coupling_expression_refused, C63_flag_is_model, C63_last_param_stays, C63_lower_case_refused, C63_prefix_cuts_value, C63_read, C63_renamed_marked, C63_short_blanks_removed, C63_short_params_lost, C63_short_read, C63_short_untouched, C63_short_write, C63_tab_cuts_value, C63_two_lines_unsaved, C63_untouched, C63_write, C63_write_read, C63_write_value, C64_columns, C64_last_title_keeps_eol, C64_step_word_raises, C64_step_word_skipped, C65_case_witness, C65_get, C65_get_value, C65_history, C65_last_removed_witness, C65_missing_removed_witness, C65_no_pairs_witness, C65_no_value, C65_none_stored_witness, C65_remove_component, C65_rest_lost_witness, C65_set, C65_set_attribute, C65_set_value, C65_unknown_component, C65_value2_witness, C66_add, C66_case, C66_get, C66_history, C66_in_value, C66_not_plain, C66_pin_first, C66_remove, C66_remove_component, C66_remove_missing, C66_removed_is_listed, C66_sample, C66_set, C66_set_value, C66_unknown_component, C67_add_command, C67_add_other, C67_add_refused, C67_first_command_not_saved, C67_limits, C67_remove, C67_removeX, C67_sample, C68_connected, C68_floating_alone, C68_floating_apart, C68_floating_fresh, C68_label_collision, C68_left_out, C68_middle_of_wire, C68_one_per_pin, C68_pin_position, C68_same_place, C68_sample, C69_behavioural, C69_bjt, C69_bjt_substrate, C69_block, C69_brackets, C69_capitals, C69_definition, C69_device, C69_disabled, C69_frame, C69_jfet, C69_layout, C69_layout_inside, C69_line, C69_mos, C69_private, C69_removed_remains, C69_renamed_block, C69_sample, C69_sample_draws, C69_sample_verilog, C69_substrate_missing, C69_times, C69_verilog, C69_verilog_lost, C70_already_played, C70_normal_range, C70_qspice_range, C70_recorded_value, C70_sample, C70_testbench, C70_tolerance_text, C70_undefined, C70_unprepared, C70_unprepared_sample, C71_after_preparation, C71_drawn, C71_range, C71_run_analysis, C71_sample, C71_tolerance, C72_aligned, C72_depends_on_history, C72_export, C72_export_all, C72_get_steps, C72_last_character_lost, C72_ltspice_log, C72_no_axis_repeated, C72_no_log, C72_no_log_unreadable, C72_qspice_log, C72_sample, C72_second_equal_sign, C73_out_of_sequence, C73_read, C73_same_name, C73_sample, C73_second_plot_hangs, C73_truncated, C74_command, C74_dash, C74_documented_switches, C74_empty_argument, C74_files, C74_fixed, C74_own_switches, C74_parameters, C74_parameters_sample, C74_runner_switches, C74_sample, C74_shared_list, C74_switches, C74_unknown, C74_valid_switch, C75_never_ends, C75_no_header, C75_out_of_order, C75_read, C75_same_title, C75_sample, C75_trailing_blank, C76_before_steps, C76_exponent, C76_given_steps, C76_harmonic_line, C76_log, C76_sample, C76_warning, C76_whole_percent, C76_without_tables, C77_blank_line, C77_kind, C77_log, C77_meas_file, C77_named_step, C77_sample, C77_short_row, C77_step_shared, C78_accepted, C78_library, C78_library_else, C78_model, C78_prefix_case, C78_read, C78_refused, C78_sample, C78_sample_lookups, C78_subcircuit, C78_unambiguous, C79_converted, C79_divider, C79_divider_convertible, C79_grid, C79_own_symbols, C79_pin_position, C79_symbol_not_found, C79_symbol_refused, C79_unnamed_nets_are_ground, C80_file_name, C80_included_library_first, C80_library_found, C80_library_nothing, C80_library_sound, C80_name, C80_name_after_comments, C80_netlist_first, C80_netlist_limits, C80_not_closed, C80_order, C80_own_definition, C80_quoted, C80_sample, C80_sample_parts, C80_wrong_definition, C81_aligned_step_ignored, C81_axis_inside, C81_axis_keeps_added, C81_axis_keeps_mine, C81_axis_points, C81_axis_rising, C81_curve_unique, C81_dense_axis_not_rising, C81_first_import, C81_interpolation, C81_last_point_lost, C81_names, C81_not_beyond, C81_plain_import, C81_refused, C81_same_length_not_resampled, C81_same_trace_twice, C81_sample, C81_sample_names, C81_saved, C81_saved_applies, C81_single_point_dropped, C82_accepted_iff, C82_called, C82_called_in_process, C82_default_not_used, C82_process_reserved_name, C82_sample, C82_starred_parameters, C83_abort_stops_nothing, C83_answer, C83_earlier_failure, C83_ends, C83_exact, C83_false_although_all_succeeded, C83_sample, C83_timeout_ends, C83_timeout_not_restarted, C83_true, C84_active_spared, C84_clash_with_a_user_file, C84_cleanup_exact, C84_empty_name_deletes_the_original, C84_given_name_escapes, C84_given_names_clash, C84_nothing_left, C84_others_untouched, C84_raw_of_failed_left, C84_run_now_still_running, C84_runs_apart, C84_sample, C84_session_sample, C84_stays_in_the_folder, C85_alias, C85_limits, C85_line, C85_resistor, C85_sample, C86_copy, C86_limits, C86_rename, C86_sample, C87_add_rejects, C87_limits, C87_loaded, C87_remove, C87_remove_nothing, C87_sample, C88_first_netlist_decides, C88_limits, C88_netlist_library, C88_opened, C88_own_directory_first, C88_program, C88_qsch_file, C88_sample, C88_schematic_library, C88_set_custom, C88_symbol, C88_symbol_sticks, C89_all_or_nothing, C89_command, C89_libraries, C89_not_found, C89_path, C89_same_class, C89_sample, C89_sections, C89_wine_libraries, C90_every_analysis_once, C90_limits, C90_sample, C90_stops, C90_tables, C91_added, C91_extremes, C91_kept, C91_limits, C91_measurement, C91_measurements, C91_not_before, C91_run_numbers, C91_sample, C91_steps, C91_this_analysis, C92_arithmetic, C92_equal, C92_from_number, C92_from_text, C92_limits, C92_printed, C92_read_back, C92_sample, C92_to_float, C92_values_fixed, C93_limits, C93_refused, C93_sample, C93_table, C94_applies, C94_equal_axes, C94_limits, C94_nothing, C94_one_run, C94_refused, C94_sample, C94_saved, C95_applies, C95_distinct, C95_iteration_sample, C95_limits, C95_nodes, C95_sample, C95_without_text, C96_applies, C96_found, C96_limits, C96_output, C96_refused, C96_sample, C96_selection_ignored, C97_applies, C97_block, C97_cycle, C97_is_subcircuit, C97_kinds, C97_library, C97_limits, C97_opened, C97_opens, C97_refused, C97_sample, C97_symbol, C97_symbol_name, C98_applies, C98_cartesian, C98_convert, C98_decibel, C98_form, C98_int, C98_limits, C98_polar, C98_sample, C98_turns, C98_unit, C99_duration, C99_durations_differ, C99_entry, C99_last, C99_limit_milliseconds, C99_runs, C99_sample

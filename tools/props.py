#!/usr/bin/env python3
"""Source of /verif/properties.jsonl (run: python3 tools/props.py)."""
import json, os
P = []
def p(id, title, statement, quantifier, why, *anchors):
    P.append(dict(id=id, title=title, statement=statement, quantifier=quantifier,
                  why_tests_cant=why, anchors=list(anchors)))

p("C01", "Linear sweep enumerates exactly the grid inside the interval",
  "Iterating sweep(start, stop, step) (step != 0) produces exactly first + k*delta for k = 0..floor(|stop-start|/|step|), where the run goes from start to stop if step>0, and from the larger to the smaller bound if the user gave a negative step with start<stop; no point lies outside the closed interval, none inside the grid is missed, sweep(x) is sweep(0,x), and the object can be iterated again with the same result. step = 0 is rejected.",
  "all numeric start, stop, step (rationals in the model)",
  "the interval, the step and their signs range over an infinite domain; a test only samples a few triples",
  "spicelib/utils/sweep_iterators.py:BaseIterator", "spicelib/utils/sweep_iterators.py:sweep", "spicelib/utils/sweep_iterators.py:sweep_iterator")
p("C02", "sweep_n yields exactly N points, both end points included",
  "sweep_n(start, stop, N) with N>=2 and start != stop yields exactly N equidistant points, the first equal to start and the last equal to stop (or reversed bookkeeping when stop<start: still from start to stop).",
  "all start != stop and N >= 2",
  "off-by-one errors depend on the particular N and interval; all N must be covered",
  "spicelib/utils/sweep_iterators.py:sweep_n")
p("C03", "Logarithmic sweep enumerates exactly the geometric grid",
  "Iterating sweep_log(start, stop, step) with step>0, step != 1 and different bounds ends exactly when both bounds are positive, and then yields exactly first*ratio^k for every k with the value inside the closed interval (first and ratio oriented as in sweep). With equal bounds nothing is yielded; step = 1 or step <= 0 is refused; iterating again starts over.",
  "all positive start, stop and ratio",
  "termination and exact coverage for every ratio cannot be sampled",
  "spicelib/utils/sweep_iterators.py:sweep_log")
p("C04", "sweep_log_n yields exactly N geometrically spaced points",
  "sweep_log_n(start, stop, N) yields exactly N points start*r^k, k=0..N-1.",
  "all start, ratio and N>=0",
  "needs every N", "spicelib/utils/sweep_iterators.py:sweep_log_n")
p("C05", "SimStepper.run_all launches every combination exactly once, first-added sweep slowest",
  "After add_*_sweep calls with value lists L1..Lk (lists, tuples, ranges, or sweep objects each used for one sweep only), run_all ends and launches exactly one simulation for each element of the Cartesian product L1 x ... x Lk, in lexicographic order (last added sweep varies fastest), and at each launch the netlist holds precisely the values of that combination; with no sweep there is exactly one run; the recorded sim_info maps each run to its combination. (Limits: a generator as inner sweep is exhausted after its first round; one sweep object used for two sweeps makes run_all never end.)",
  "any number of sweeps, any (finite) value lists, any repeated values",
  "the number of sweeps and their lengths are unbounded; the loop is a hand written odometer with exceptions driving control flow",
  "spicelib/sim/sim_stepping.py:SimStepper.run_all", "spicelib/sim/sim_stepping.py:StepInfo")
p("C06", "total_number_of_simulations predicts run_all",
  "total_number_of_simulations() is the product of the lengths of the sweeps that have values, and equals the number of simulations that run_all launches exactly when no sweep is empty; with an empty sweep run_all launches nothing although a positive number is predicted.",
  "all lists of sweeps", "holds or fails depending on the shape of the sweep list (empty sweeps)",
  "spicelib/sim/sim_stepping.py:SimStepper.total_number_of_simulations", "spicelib/sim/sim_stepping.py:SimStepper.run_all")
p("C07", "The update journal is a last-write-wins map",
  "After any sequence of edits, the editor's journal (netlist_updates) has at most one record per (name, kind) (per (name, kind, value) for instructions), each record carries the value of the last edit for that key, every edited key is present, and records keep the order of the first edit. value(ref) is the value of the last component edit; parameter(name) is the value of the last edit of the same kind (adding, updating) as the first edit of that parameter, so it can be out of date for a parameter that was added and updated later.",
  "all finite sequences of add_update calls",
  "invariant over arbitrary edit histories",
  "spicelib/editor/updates.py:Updates.add_update", "spicelib/editor/updates.py:Updates.value")
p("C08", "Every launched simulation gets a fresh run number and its own netlist file",
  "Over any sequence of run / run_now calls (successful, failing to launch, or timing out), run numbers are 1,2,3,... with no reuse and, when no explicit run_filename is given, two different runs never share the same netlist or log file name, whatever the circuit names, as long as these do not end in a dot (with a trailing dot two runs can share a file).",
  "all histories of run calls, all circuit names",
  "collision freedom must hold for every pair of runs of an unbounded history",
  "spicelib/sim/sim_runner.py:SimRunner._prepare_sim", "spicelib/sim/sim_runner.py:SimRunner._run_file_name")
p("C09", "No simulation is lost or counted twice by the runner",
  "In every interleaving of launches and task completions: every started task is exactly once either in the active list or in the completed list (or awaited by a run_now call in progress) and okSim+failSim equals the number of completed tasks; as long as no run_now call gives up on a running simulation (its join waits longer than the simulator's own timeout), completed tasks have ended, okSim counts exactly those with return code 0, and wait_completion returns True iff no task failed, False when it timed out. (Limit: a run_now that gives up counts its simulation as failed for ever.)",
  "all interleavings of run, task termination, update_completed and wait_completion",
  "schedules of worker threads cannot be enumerated by tests",
  "spicelib/sim/sim_runner.py:SimRunner.update_completed", "spicelib/sim/sim_runner.py:SimRunner.wait_completion")
p("C10", "At most parallel_sims simulations run at once",
  "With wait_resource=True, a simulation is launched only while fewer than parallel_sims tasks are alive; hence in every schedule the number of alive tasks never exceeds parallel_sims.",
  "all schedules and all parallel_sims",
  "concurrency bound over all schedules",
  "spicelib/sim/sim_runner.py:SimRunner.run", "spicelib/sim/sim_runner.py:SimRunner.active_threads")
p("C11", "Iterating the runner's results yields each successful run exactly once",
  "Iterating over a SimRunner (or tasks(conditions)) in any schedule of completions, in which no run_now call gives up on a running simulation, yields every completed successful task matching the conditions exactly once, in completion order, never yields a failed task, and stops only when no task is active and all matching ones were delivered. (Limit: after a run_now that gave up, the iteration can end while its simulation runs.)",
  "all schedules of completion relative to the consumer, all conditions",
  "race between consumer and completion",
  "spicelib/sim/sim_runner.py:SimRunner.__iter__", "spicelib/sim/sim_runner.py:TaskIterator")
p("C12", "Condition matching of tasks is conjunctive over the recorded edits",
  "A task matches a set of conditions iff for every (name, value) condition its edit snapshot has an update record for this name with this value; a task without snapshot matches nothing.",
  "all snapshots and conditions", "all combinations of conditions and edit records",
  "spicelib/sim/sim_runner.py:SimRunner.match_conditions", "spicelib/sim/run_task.py:RunTask")
p("C13", "Callback discipline of a run task",
  "Whatever the simulator returns or raises, the task terminates with a retcode (-2 if the simulator raised), the user's callback is invoked at most once, exactly when there is one and the run succeeded or callback_on_error is set (a callable without a name, such as a functools.partial, is never called), a failed run's log file is renamed to .fail, get_results gives what the callback returned (or the files), and wait_results returns once the task ended exactly when the return code is not -1.",
  "all simulator outcomes (return codes, exceptions, missing files)", "all outcomes and callback behaviours",
  "spicelib/sim/run_task.py:RunTask.run")
p("C14", "Worst-case analysis visits every corner exactly once",
  "WorstCaseAnalysis.run_analysis, started when the values in memory are those of the netlist it replays, although it only updates the components that changed between two successive runs, simulates for up to 11 toleranced elements every assignment of {nominal-low, nominal-high} exactly once, plus the nominal run; at run r element i is at the corner given by bit i of r; with 12 or more elements nothing is simulated. (Limits: a recorded value that was not played yet, or a second analysis, make the corners drift from the nominal run.)",
  "every number n of toleranced elements and all values", "2^n corners for every n; incremental updates must never leave a stale value",
  "spicelib/sim/tookit/worst_case.py:WorstCaseAnalysis.run_analysis", "spicelib/sim/tookit/worst_case.py:WorstCaseAnalysis._set_component_deviation")
p("C15", "Testbench corner selector equals the run-number bit",
  "The formula binary(run, idx) emitted in the worst-case testbench evaluates to bit idx of the run number, so the .step run testbench visits each corner exactly once and pairs with get_min_max_measure / diff bookkeeping.",
  "all run numbers and indexes", "all integers", "spicelib/sim/tookit/worst_case.py:WorstCaseAnalysis.prepare_testbench")
p("C16", "Worst-case sensitivity pairs runs differing in exactly one element",
  "In make_sensitivity_analysis the runs compared for element i are pairwise disjoint, cover all runs and each pair differs exactly in element i.",
  "all n and i", "all n", "spicelib/sim/tookit/worst_case.py:WorstCaseAnalysis.make_sensitivity_analysis")
p("C17", "Quick sensitivity analysis perturbs one element per run",
  "QuickSensitivityAnalysis.run_analysis, started when the values in memory are those of the netlist it replays, with at most 4096 elements, simulates the nominal netlist and then, in run k (k>=0), element k at its deviated value with every other value nominal.",
  "any number of elements", "any number of elements; stale values from an incremental update would only show in the composition",
  "spicelib/sim/tookit/quick_sensitivity_analysis.py:QuickSensitivityAnalysis.run_analysis")
p("C18", "Testbench batching partitions the run range with no orphan",
  "run_testbench splits the runs -1..last_run_number into consecutive .step ranges that are disjoint, cover every run exactly once in order, and (when more than one run per simulation is requested) no batch has a single run.",
  "all last_run_number and runs_per_sim>=1", "all pairs of sizes", "spicelib/sim/tookit/tolerance_deviations.py:ToleranceDeviations.run_testbench")
p("C19", "Recorded analysis instructions are replayed once and in order",
  "Every run_analysis starts from the pristine netlist with exactly the commands recorded since the last reset_netlist applied, each once and in recording order; in every history the applied commands are a prefix of the recorded ones; commands recorded before the netlist is saved are in it once, however often it is saved again. (Limits: a command recorded after a save is not in the next save but in the next analysis; run_testbench without an explicit prepare_testbench lacks the component expressions.)",
  "all interleavings of recording, playing and resetting", "histories", "spicelib/sim/tookit/sim_analysis.py:SimAnalysis")
p("C20", "Merging log data concatenates runs",
  "add_log_data over any list of separately read logs yields step and data columns that are the concatenation of the inputs' columns in order, and counts the steps of all. (Limits: merging modifies the first log's step columns; adding the same log object repeatedly doubles them.)",
  "all lists of logs", "all lists", "spicelib/sim/tookit/sim_analysis.py:SimAnalysis.add_log_data")
p("C21", "steps_with_conditions is the ordered intersection",
  "LogfileData.steps_with_conditions(**conds) returns, in increasing order and without repetition, exactly the step indexes whose value matches every condition.",
  "all step tables and condition sets", "all tables", "spicelib/log/logfile_data.py:LogfileData.steps_with_conditions")
p("C22", "split_line_into_values splits only at top-level separators",
  "split_line_into_values never splits inside balanced brackets/quotes; joining the yielded pieces (with separators) gives back the input; an unbalanced closing bracket raises.",
  "all strings", "infinite input space", "spicelib/log/logfile_data.py:split_line_into_values")
p("C23", "Steps partition every stepped waveform",
  "For a stepped RAW file the per-step slices returned by get_wave(step) (and get_axis(step)) concatenate to the full waveform in order, do not overlap, are non-empty, and each axis slice starts at the initial axis value.",
  "all axis data and step counts", "all datasets", "spicelib/raw/raw_classes.py:Axis._set_steps", "spicelib/raw/raw_classes.py:TraceRead.get_wave")
p("C24", "RAW write/read round trip",
  "For any set of traces of equal length added to RawWrite whose kind of data and layout the header can express, RawRead on the saved file gives the same header, trace names, order and samples, in both encodings, in the interleaved and the fast-access layouts, and for several plots in one file; a trace of another length is refused. (Limits: complex fast access data of mixed widths, single precision axes and AC data without a plot name are not read back.)",
  "all numbers of traces and points, both layouts, mixed sample widths", "all shapes; byte offsets depend on all of them", "spicelib/raw/raw_write.py:RawWrite.save", "spicelib/raw/plot_data.py:PlotData.read_trace_data")
p("C25", "Selective trace loading equals full loading restricted",
  "Reading only a subset of traces gives, for those traces, the same data as reading all traces; skipping traces never shifts the data of others, reading further traces later gives the same as reading them at once, names are found in any letter case and unknown names refused. (Limit: reading the axis again replaces it, after which get_axis fails.)",
  "all subsets of traces in both layouts", "2^n subsets", "spicelib/raw/plot_data.py:PlotData.read_trace_data")
p("C26", "Axis position lookup brackets and interpolates the requested value",
  "Axis.get_position(t) on increasing data returns a (fractional) index such that linear interpolation of the axis at this index equals t; get_point_at of a trace is the linear interpolation of the trace at the same abscissa.",
  "all monotone axes and all t in range", "continuous input", "spicelib/raw/raw_classes.py:Axis.get_position", "spicelib/raw/raw_classes.py:TraceRead.get_point_at")
p("C27", "get_len(step) is the number of points of that step",
  "get_len(step) of the axis is the number of points of get_wave(step), for every step; for any other trace get_len(step) is the number of points of all steps up to and including that one, so it agrees with get_wave(step) for the first step only.",
  "all step tables and steps", "all steps", "spicelib/raw/raw_classes.py:TraceRead.get_len")
p("C28", "At most one simulation command in the netlist",
  "Starting from a netlist with at most one analysis directive among .AC .DC .TRAN .NOISE .TF, after any sequence of add_instruction / remove_instruction / remove_Xinstruction calls there is at most one, and it is the last one added.",
  "all edit sequences and netlists", "all histories", "spicelib/editor/spice_file.py:SpiceFile.add_instruction")
p("C29", "add_instruction then remove_instruction restores the netlist",
  "Adding a new non-unique directive, component line or include and removing it again leaves all lines and their order as before; adding an instruction already present changes nothing; removing takes out the first equal line (or, with removeX, exactly the matching ones) and nothing else; the same in sub-circuits. (Limits: comments cannot be removed again and a .control section breaks the editor.)",
  "all netlists and instructions", "all netlists", "spicelib/editor/spice_file.py:SpiceFile.add_instruction", "spicelib/editor/spice_file.py:SpiceFile.remove_instruction")
p("C30", "Instructions are placed inside the executed part of the netlist",
  "An instruction added by the API stands before the .END line when there is a .backanno line or nothing follows .END, and a new parameter when at most one line follows; otherwise they end up after .END. (Limits: on a netlist without lines a parameter becomes the title; an instruction added to a blank netlist is lost.)",
  "all netlists", "depends on the position of .END / .backanno / trailing lines", "spicelib/editor/spice_file.py:SpiceFile.add_instruction", "spicelib/editor/spice_file.py:SpiceFile.set_parameter")
p("C31", "Logical line splitting is lossless",
  "For every text without carriage returns, separate_lines joins continuation lines and splits on newlines only outside braces, quotes and comments; nothing but line breaks, blank lines and continuation markers is lost; a closing bracket that matches nothing raises; unclosed brackets or quotes at the end do not raise, their text is kept as one line. (Limit: words joined by a continuation are fused.)",
  "all character streams", "infinite input space", "spicelib/editor/spice_subcircuit.py:separate_lines")
p("C32", "Loading and saving an untouched netlist is idempotent",
  "Loading a netlist gives (nested) circuits with exactly the block structure of its lines, and saving it writes the same text again, for components of the grammar of C63 with single spaces between nodes and directives without blanks around; each include line is replaced by the text of the included file, recursively; no text up to the closing line is lost; a netlist with an unterminated block is refused with SyntaxError. (Limits: an unterminated block of an included file is dropped silently with all that follows; any directive starting with .END ends the netlist; an .END line in an included file is written in the middle of the saved netlist, so that what follows is lost on the next load; an include file that is not found makes the save raise and leaves the file cut at that line.)",
  "all line sequences of any nesting depth, all trees of included files", "unbounded nesting", "spicelib/editor/spice_subcircuit.py:SpiceCircuit._add_lines", "spicelib/editor/spice_subcircuit.py:SpiceCircuit.write_lines", "spicelib/editor/spice_subcircuit.py:IncludeFile")
p("C33", "Component edits are local: read-your-write and frame",
  "After set_component_value(ref, v) get_component_value(ref) is v, and the value of every other component, every directive, and the number and order of lines are unchanged; references are case-insensitive; a missing reference raises and changes nothing.",
  "all netlists, references and values", "all pairs of components", "spicelib/editor/base_subcircuit.py:BaseSubCircuit.set_component_value", "spicelib/editor/spice_subcircuit.py:SpiceCircuit.get_component")
p("C34", "Editing one sub-circuit instance does not affect the others",
  "Setting a component inside X1 (X1:R1) changes the effective value seen through X1 only: every other instance of the same sub-circuit, and the library definition, keep their values; repeated edits of the same instance accumulate.",
  "all hierarchies, edit sequences and pairs of instances", "aliasing between instances over arbitrary edit histories", "spicelib/editor/spice_subcircuit_instance.py:SpiceSubCircuitInstance", "spicelib/editor/spice_subcircuit.py:SpiceCircuit")
p("C35", "Read-only editors are never modified",
  "When the update permission is Deny, these calls raise (removing an instruction of a sub-circuit returns False) and leave circuit and journal unchanged: of netlists set_component_value (through any path), set_element_model, set_component_parameters, add_component, remove_component, set_parameter, add_instruction, remove_instruction, remove_Xinstruction and the setters of component objects; of LTspice schematics set_component_value and set_component_parameters; of QSPICE schematics all of these and set_parameter. (Limits, each witnessed: component['value']=, clear_parameters, the reference setter, add_instruction of a sub-circuit and components added without a netlist are not refused; LTspice schematics refuse neither remove_component, set_element_model nor instructions.)",
  "all mutating calls", "all operations and states", "spicelib/editor/updates.py:UpdatePermission", "spicelib/editor/spice_file.py:SpiceFile.add_instruction")
p("C36", "Parameter tokenisation respects quoting and brackets",
  "tokenize_params/_parse_params recover every name=value pair of a list whose values are plain words, quoted texts or single braced expressions, in order, never splitting a value at spaces inside braces or quotes; names and values written back give the same dictionary. (Limits: parentheses do not protect blanks, nested braces, a blank before a comma, flags without value and the type of a value are not preserved.)",
  "all parameter lists", "infinite input space", "spicelib/editor/spice_components.py:_parse_params")
p("C37", "QSCH tag tree round trip",
  "For every well formed tag tree t, parsing its serialisation gives back t and the position after it; consequently load-save-load is stable for every file that can be read and whose free texts stand in `label: text` tags. (Limits: a text containing a colon and a blank is torn apart, other free texts as witnessed.)",
  "all trees of any depth and any tokens", "recursive structure of unbounded depth", "spicelib/editor/qsch_editor.py:QschTag.parse", "spicelib/editor/qsch_editor.py:QschTag.out")
p("C38", "QSCH attribute set/get round trip and frame",
  "set_attr(i, v) followed by get_attr(i) returns v for all integers, pairs and texts that do not start with 0x, leaves all other attributes unchanged, and survives saving and loading; set_position moves the component. (Limits: set_position with a rotation enumeration raises after having moved it; texts with quotes make the saved file unreadable.)",
  "all attribute values", "all integers/strings", "spicelib/editor/qsch_editor.py:QschTag.set_attr", "spicelib/editor/qsch_editor.py:QschTag.get_attr")
p("C39", "Engineering notation is read back as the same number",
  "scan_eng(format_eng(x)) equals x to the printed precision (half a unit in the sixth significant digit, exact for numbers of at most six digits) for every number and every unit other than the ones that read as a suffix (K, %); the suffix chosen by format_eng always denotes the power of ten that scan_eng applies, even when the logarithm is slightly off.",
  "all numbers / all exponents", "all magnitudes", "spicelib/utils/float_unit.py:format_eng", "spicelib/utils/float_unit.py:scan_eng")
p("C40", "Unit suffix parsing is case-insensitive and exact",
  "The suffixes t, g, k, u (or the micro sign), n, p denote 1e12, 1e9, 1e3, 1e-6, 1e-9, 1e-12 irrespective of letter case, f is 1e-15, m is 1e-3, M is 1e6, and Meg/MEG (capital M) is 1e6; meg written with a small m is read as milli; forms such as 4k7 and 2R2 insert the decimal point; numbers in scientific notation take no suffix; what follows is returned as the unit; blanks around do not matter; a text that does not start with a number is refused.",
  "all digit strings and suffixes", "all strings", "spicelib/utils/float_unit.py:scan_eng")
p("C41", "Server sessions are isolated",
  "For any interleaving of client calls, a session only ever sees and fetches runs that were started under this session; results are handed out at most once; close_session of one session does not alter the others; calls with an unknown session do nothing.",
  "all interleavings of calls of all sessions", "all interleavings", "spicelib/client_server/sim_server.py:SimServer")
p("C42", "The client iterator delivers every started job exactly once",
  "A loop over a SimClient that fetches the file of every run it gets yields each run the server accepted exactly once, as soon as the server reports it completed with its files, in order of completion, and stops after the last. (Limits: a run without file or not fetched makes the next call raise KeyError; a run the server refused, answered with -1, keeps the iterator from ever stopping.)",
  "all server schedules", "all schedules", "spicelib/client_server/sim_client.py:SimClient.__next__")
p("C43", "Encoding detection returns the first admissible encoding",
  "detect_encoding returns the first encoding in its fixed preference order under which the file decodes and (for files of more than one character) matches the expected pattern, and raises when there is none; a file of exactly one character raises IndexError.",
  "all byte contents (decoders abstract)", "all files", "spicelib/utils/detect_encoding.py:detect_encoding")
p("C44", "Library file search honours container order",
  "search_file_in_containers returns a match from the first container (in argument order) that holds the file and never one from a later container; None iff no container has it.",
  "all container lists", "all file trees", "spicelib/utils/file_search.py:search_file_in_containers")
p("C45", "Wire/point geometry: touches is segment membership",
  "Line.touches(p) is true iff p lies on the closed segment, for horizontal and vertical lines under any rounding and for all lines in exact arithmetic; it does not depend on the orientation of the line; intercepts is symmetric and exact in the same sense for collinear and touching lines. (Limits: with floats an oblique line need not touch its own end; wires crossing in the middle do not intercept.)",
  "all coordinates", "all points of the plane", "spicelib/editor/base_schematic.py:Line.touches", "spicelib/editor/base_schematic.py:Line.intercepts")
p("C46", "ASC text alignment codec",
  "Reading and writing the alignment/rotation attributes of ASC texts and symbols are inverse on all values that can occur in a file.",
  "all alignment words and rotations", "finite but crossed with every text attribute", "spicelib/editor/ltspice_utils.py:asc_text_align_set", "spicelib/editor/ltspice_utils.py:asc_text_align_get")
p("C47", "ASC schematic instructions: unique simulation command",
  "AscEditor.add_instruction keeps at most one simulation command among non-comment directives, replaces in place, and never touches comments; remove_Xinstruction removes exactly the matching directives.",
  "all directive lists and edit sequences", "all histories", "spicelib/editor/asc_editor.py:AscEditor.add_instruction", "spicelib/editor/asc_editor.py:AscEditor.remove_Xinstruction")
p("C48", "LTspice export reformatting tags every sample with its step",
  "For an export with steps reformat_LTSpice_export writes one line of titles (Run, the parameter names, the original titles) and then every data line exactly once, in order, behind the run number and the parameter values of its step. It fails exactly when a recognised step header has a part without '='. (Limits: a step header with a character outside letters, digits, blanks and _ = . - such as the + of 1e+06 is dropped silently, and its rows carry the previous step's values; a file without steps loses its titles.)",
  "all export files as texts: any titles, any number of steps, parameters, rows, blanks", "The file is read by a backtracking regular expression and a loop carrying the last header seen; that every row of every file gets the right tag is a statement about all texts.", "spicelib/log/ltsteps.py:reformat_LTSpice_export")
p("C49", "Stepped log parsing keeps step columns aligned",
  "Every .step line with assignments increases the step count by one; when all .step lines assign the same variables all step columns have length step_count, with the i-th entry coming from the i-th line.",
  "all sequences of .step lines", "all logs", "spicelib/log/ltsteps.py:LTSpiceLogReader")
p("C50", "Fast worst case is a sound greedy search",
  "FastWorstCaseAnalysis ends (or raises TypeError when the initial guess of the directions fails) and reports extremes that were simulated at the reported setting and that no change of a single element improves; they are the global extremes whenever the response is strictly monotonic in every element. (Limit: otherwise a simulated value can exceed the reported maximum.)",
  "all monotone or non monotone measurement functions", "all measurement functions", "spicelib/sim/tookit/fast_worst_case.py:FastWorstCaseAnalysis.run_analysis")
p("C51", "Sensitivity percentages are shares of one hundred",
  "get_sensitivity_data (quick) and make_sensitivity_analysis (worst case) return, for every set of measurements, one figure per analysed element, each between 0 and 100, that sum up to 100 as soon as some measurement depends on an element; when none does, the quick method gives zeros and the worst case method raises ZeroDivisionError.",
  "all numbers of elements and all measurement values", "all real valued measurement tables",
  "spicelib/sim/tookit/worst_case.py:WorstCaseAnalysis.make_sensitivity_analysis", "spicelib/sim/tookit/quick_sensitivity_analysis.py:QuickSensitivityAnalysis.get_sensitivity_data")
p("C52", "Measurement aggregates",
  "max_measure_value / min_measure_value return a value that was measured at one of the addressed steps and bounds all of them; avg_measure_value lies between them; an unknown name or an empty selection raises.",
  "all tables, step selections (including negative indexes)", "all tables", "spicelib/log/logfile_data.py:LogfileData.max_measure_value", "spicelib/log/logfile_data.py:LogfileData.get_measure_values_at_steps")
p("C53", "Exported measurement table is aligned",
  "export_data writes one row per step, numbered from 1, and every value stands under the title of the column it belongs to, whatever the number and width of the columns, for columns of equal length whose entries have the same shape; step variables of different lengths are refused. (Limit: an empty list as first entry shifts the columns.)",
  "all tables with scalar and list columns", "all shapes", "spicelib/log/logfile_data.py:LogfileData.export_data")
p("C54", "Measurement tables of a stepped log are read column by column",
  "For every sequence of measurement tables in a log file, each column (value, FROM, TO, at) is available under its name with exactly the values of its rows in order, and reading one table does not alter the others of different names; of tables with the same name the last one is kept.",
  "all sequences of tables", "all logs", "spicelib/log/ltsteps.py:LTSpiceLogReader.__init__")
p("C55", "Adding and removing components",
  "add_component puts the component immediately before / after the component named by insert_before / insert_after (otherwise two lines before the end) and moves nothing else; remove_component takes out exactly the first component of that reference, or raises when there is none; adding a component and removing it again restores the netlist; adding an existing reference does not replace it: both lines are there and the first one stays addressed.",
  "all netlists, components and positions", "all netlists and histories", "spicelib/editor/spice_subcircuit.py:SpiceCircuit.add_component", "spicelib/editor/spice_subcircuit.py:SpiceCircuit.remove_component")
p("C56", "Component parameters: read-your-write and frame",
  "After set_component_parameters(ref, k=v, ...) each named parameter has the last value given (None deletes it), every other parameter, the value and every other component are unchanged, and each assignment is recorded as an addition, update or deletion according to the parameter's presence.",
  "all components, parameter lists and editors", "all dictionaries and assignment sequences", "spicelib/editor/spice_components.py:SpiceComponent.set_parameter", "spicelib/editor/primitives.py:Component.set_parameter")
p("C58", "LTspice schematic files survive a save",
  "Saving a schematic with AscEditor and loading the file again gives the same version, sheet, wires, labels, components with all attributes and window positions, directives, comments, lines and shapes; any file with named components that can be loaded can be saved and loaded again with the same result, and a saved file is a fixed point. (Limits: ports (IOPIN) are not saved, vertical TEXT lines become horizontal, nameless symbols and empty values give unreadable files.)",
  "all schematics and all files", "all texts, coordinates, rotations and attribute dictionaries", "spicelib/editor/asc_editor.py:AscEditor.save_netlist", "spicelib/editor/asc_editor.py:AscEditor.reset_netlist", "spicelib/editor/ltspice_utils.py:TEXT_REGEX")
p("C59", "Scaling a schematic moves everything once and keeps connections",
  "BaseSchematic.scale applies x*scale+offset (rounded by the given rounding) to each point object as often as the schematic holds it: exactly once to the position of every component, wire, label, directive, line and shape of a schematic without IOPIN, and changes nothing else; a point on a horizontal or vertical wire is still on it afterwards. (Limit: the point shared by an IOPIN and its label is scaled twice.)",
  "all schematics, offsets, scales and monotone roundings", "all schematics", "spicelib/editor/base_schematic.py:BaseSchematic.scale", "spicelib/editor/asc_editor.py:AscEditor.reset_netlist")
p("C61","Runs of a shared runner are neither lost nor reported twice",
"When several threads use one SimRunner (the request thread and the housekeeping thread of the simulation server), every simulation launched is at every moment in exactly one place: in the list of running ones, in that of completed ones, handed over, or held by the one thread that is moving it. With a lock around launching and update_completed, moreover, only ended simulations are completed, each is counted once as successful or failed, and no thread dies. (Limits: without the lock, as the code is, a running simulation can be reported as completed and failed, a run can be counted twice, and the housekeeping thread can die of an IndexError, after which nothing is handed over any more; a lock around update_completed alone does not help.)",
"every number of threads and every interleaving of their list operations with the life of the simulations",
"The outcome depends on where thread switches fall between two list operations; a test exercises a handful of schedules.",
"spicelib/sim/sim_runner.py:SimRunner.update_completed","spicelib/sim/sim_runner.py:SimRunner.run","spicelib/client_server/srv_sim_runner.py:ServerSimRunner.run")

p("C60","Parameters of schematics behave like a dictionary",
"On LTspice and QSPICE schematics set_parameter(name, v) gives the first definition of name (any letter case) the text v and leaves every other character alone, or appends one .param directive when there is none; get_parameter afterwards returns the last value set, otherwise that of the file; get_all_parameter_names lists every definition once, in capitals, sorted. (Limits: a parameter standing first on its line whose name starts with E or a digit is never found and is added again by every call; of an expression without braces only the first number is read and replaced; definitions in a comment at the end of a line count; in a QSPICE directive without the qualifier the new value is written three characters too far.)",
"all documents whose .param directives are lists of name/value pairs (numbers with units, braces, quotes), all sequences of calls",
"The regular expression must find the right span in every directive; tests try a few lines.",
"spicelib/editor/base_editor.py:PARAM_REGEX","spicelib/editor/asc_editor.py:AscEditor.set_parameter","spicelib/editor/qsch_editor.py:QschEditor.set_parameter")

p("C62","Parameters of netlists behave like a dictionary",
"On a SPICE netlist, with included files at any depth read as if they stood in it, set_parameter(name, v) replaces the value of the first definition of name (any letter case) in place, keeping all other parameters, the comment and every other line, or adds one .PARAM line two elements before the end of the outer netlist; get_parameter then returns the last value set, otherwise that of the netlist; set_parameter(name, None) removes exactly that definition when its name occurs nowhere else on the line; names are listed once per definition, sorted; a read-only netlist refuses. (Limits: removing a parameter that is not there adds it with the value None; removing B cuts the end off AB and a unit letter can be taken for the name; removing the first parameter can hide the next; an empty value leaves the old one and adds an empty line; a control section without text makes the list of names raise.)",
"all netlists whose .param lines are lists of name/value pairs, all sequences of calls",
"The spans come from a regular expression and the new text is padded with blanks; tests try a few lines.",
"spicelib/editor/spice_subcircuit.py:SpiceCircuit.set_parameter","spicelib/editor/spice_subcircuit.py:SpiceCircuit.get_parameter","spicelib/editor/spice_subcircuit.py:SpiceCircuit.get_all_parameter_names","spicelib/editor/spice_components.py:_insert_section")

p("C63","Component lines are read and rewritten faithfully",
  "The line of a resistor, capacitor, inductor, independent source, model-based component or sub-circuit instance is read as what it says: its designator, its nodes in order, its value and its parameters, whatever blanks and comment it has. After setting the value and/or the parameters, the saved line has exactly these, keeps designator, nodes and comment, and is read back as what was set. A component that was not touched is saved as its line. Controlled sources, switches, special functions (E, F, G, H, S, W, A) have as value everything after their nodes, couplings (K) a number. (Behavioural sources B, lines T and the elements @, Ã, Ø, × are outside this property. Limits: a value in braces swallows later braces; the letter has to be a capital; a tab or C= before the value lets a rewrite cut it; the last parameter cannot be removed; an expression over two lines cannot be saved; renaming a marked component and setting its value leaves a piece of the old value; blanks between nodes become one space; parameters set on E, F, G, H, S, W, A, K are lost; a comment directly after a parameter of an instance is part of it.)",
  "all lines of the grammar (any designator, any number of nodes the component may have, any value, any list of parameters, any comment), all new values and parameters",
  "The lines are matched by backtracking regular expressions with optional groups, conditionals and lazy and greedy repetitions; that the preferred match is the intended one for every line is a statement about all texts, and the character offsets used to rewrite it depend on all previous replacements.",
  "spicelib/editor/spice_components.py:SpiceComponent.reset_attributes","spicelib/editor/spice_components.py:SpiceComponent.rewrite_lines","spicelib/editor/spice_utils.py:REPLACE_REGEXS")

p("C64", "LTspice export columns stay aligned",
  "LTSpiceExport(file).dataset has, for a stepped export whose steps have the same parameters and whose titles and parameters have different names, exactly one column per title, one per parameter and 'runno' (lower case); every column has one entry per data line, in file order: the line's own cell, the parameter value and the run number of its step. (Limits: the last title and its cells keep the line end, so dataset['v(out)'] is missing when V(out) is last; headers saying '(Step: n/m)' are skipped; a file without steps raises.)",
  "all export files as texts, any number of steps, parameters, columns and rows",
  "Alignment of all columns is an invariant of the loop over all lines; the dictionary of the current step is mutated in place and carried from step to step.",
  "spicelib/log/ltsteps.py:LTSpiceExport")

p("C65", "Component parameters of LTspice schematics behave like a dictionary",
  "On an LTspice schematic set_component_parameters(ref, name=v) gives the parameter the value v inside SpiceLine or SpiceLine2, wherever it stands, in its place and keeping the order and the values of the others; a name the component does not have is added at the end of SpiceLine, which is created when missing; None removes the parameter. Value, Value2, SpiceModel, SpiceLine and SpiceLine2 are replaced as a whole. After any history of such calls, with any number of parameters each, get_component_parameters gives for every name the value set last, or the one of the file. Other attributes, other components and the permission do not change, every change is recorded once with its kind. set_component_value changes Value only; get_component_value gives Value, followed by Value2 when there is one; remove_component removes that component only. (Limits: the other values of a rewritten line are written as Python prints them, and whatever is not name=value in it is lost; names are compared with their case; removing the last parameter leaves an empty SpiceLine to which nothing can be added; removing a missing parameter raises UnboundLocalError; a SpiceLine without pairs makes adding fail; None stored in Value.)",
  "all components with any attributes, any spacing and number of pairs in both lines, all histories of calls",
  "The lines are found again by a regular expression and rebuilt from a dictionary after every call; that no history loses a parameter is an invariant.",
  "spicelib/editor/asc_editor.py:AscComponent.set_parameters","spicelib/editor/asc_editor.py:AscComponent.get_parameters","spicelib/editor/asc_editor.py:AscEditor.set_component_value")

p("C66", "Components of QSPICE schematics",
  "For a component whose texts are its reference, its value and then texts of name=value pairs (or single words), with different names: get_component_parameters gives every parameter by name and every text by number; set_component_parameters of a parameter that is there replaces one value in one text and nothing else; of a new one adds a text after the others and before the pins; None takes the pair out, and the text when nothing is left; after any history of settings and removals each parameter reads as the value given last (or as at the start, or not at all when removed last). set_component_value replaces the second text and what get_component_value gives. Other components and the texts of the sheet never change, every edit is recorded. remove_component takes the component off the sheet. (Limits, each witnessed: a name that occurs in the value text is edited there and not read back; names are case-sensitive; a new value with a quotation mark raises and one with a colon and a blank is lost; with a pin before the texts the new text becomes the reference; a removed component is still listed.)",
  "all components, parameters, values and histories", "all texts and histories of edits", "spicelib/editor/qsch_editor.py:QschComponent.set_parameters", "spicelib/editor/qsch_editor.py:QschComponent.get_parameters", "spicelib/editor/qsch_editor.py:QschComponent.set_model", "spicelib/editor/qsch_editor.py:QschEditor.remove_component")
p("C67", "Instructions of QSPICE schematics",
  "add_instruction of an analysis command replaces the text of the first one on the sheet that is no comment (recording both), or adds a text when there is none; any other instruction is added as a text and recorded; .param and empty instructions are refused without a change. remove_instruction removes the first text that is no comment and contains the instruction and says whether it did; remove_Xinstruction removes exactly the texts that are no comments and match, and records each. Everything else stays. (Limits, each witnessed: the first analysis command of a sheet is added without a record, so that saving to the same file writes nothing when there was no other edit; an empty text on the sheet makes adding a command raise; an instruction with a colon and a blank is lost; one with a quotation mark raises after being recorded.)",
  "all sheets and instructions", "all sets of texts", "spicelib/editor/qsch_editor.py:QschEditor.add_instruction", "spicelib/editor/qsch_editor.py:QschEditor.remove_instruction", "spicelib/editor/qsch_editor.py:QschEditor.remove_Xinstruction", "spicelib/editor/qsch_editor.py:QschEditor.save_as")
p("C68","Nets of the pins of QSPICE schematics",
"When a .qsch file is read, every component gets one net per pin, in pin order: the first label at the pin's place, else the first wire ending there (GND is 0); the pins marked for the simulator on the devices ¥, Ã, € and £ get ¥. Pins at the same place get the same net, floating pins at different places different ones, and a floating pin's net is that of no wire, nor 0. A pin on the grid is looked for exactly where the component, turned by any of its eight angles and possibly mirrored, draws it, in spite of floating point errors. (Limits: the names of labels are not counted, so a floating pin can be given the name of a label and be shorted to it; a wire passing through a pin does not count.)",
"all schematics, all numbers of labels, wires, components and pins, all 16 orientations",
"Fresh names must avoid all names in the file and depend on the order of the pins; positions go through sines and cosines.",
"spicelib/editor/qsch_editor.py:QschEditor._parse_qsch_stream","spicelib/editor/qsch_editor.py:QschEditor._find_net_at_position","spicelib/editor/qsch_editor.py:QschEditor._find_pin_position")

p("C69","Netlists of QSPICE schematics",
"save_netlist to a .net or .cir file writes a comment with the path, then one line per enabled component in the order read: its reference (with the letter of its type and ´ in front when it starts with another), its nets in pin order, its value and its parameters without <>; three-pin MOS transistors get their third net as bulk, bipolar ones [0] or their fourth net in brackets as substrate, JFETs and MESFETs their polarity, behavioural devices ¥ up to 16, 32 or 64 nets, Verilog blocks their pins grouped by direction. Then come the definitions of the blocks used, each name once (the first use decides) holding the netlist of its schematic, at any depth; the texts that are no comments, line by line; a .lib line for each library, once; and .end. A definition embedded in a symbol is written with the reference in front of its name, as its line uses it. Disabled components and comments leave no trace, and changing a component changes its own text only. (Limits: a Verilog block without description of all its pins vanishes silently, always inside blocks; a removed component is still written; a block with a changed value gets the new name with the old contents; an NPNS without a fourth pin stops the writing; .MODEL in capitals is not renamed.)",
"all schematics, any number of components of any type, any nesting of blocks, all texts",
"The text is assembled by recursion over nested schematics with lists of libraries and blocks that depend on all previous components.",
"spicelib/editor/qsch_editor.py:QschEditor.write_spice_to_file","spicelib/editor/qsch_editor.py:QschEditor.save_netlist","spicelib/editor/qsch_editor.py:decap")

p("C70", "A Monte-Carlo testbench simulates the declared distributions",
  "After prepare_testbench and then run_testbench, one simulation is launched per batch of runs, all with the same netlist but for the .step line. In it, every component with a tolerance (or, for LTspice, a uniform min/max range) and a numeric value, and every parameter with such a deviation, is a call of a function defined in the netlist whose value is exactly the nominal one at run -1 and, at the runs >= 0, exactly any value of the declared distribution (anywhere within the tolerance or range; or normal, three standard deviations making the tolerance); everything else is as the user left it, with the user's instructions. (Limits: without an earlier prepare_testbench no component varies; commands recorded after the first play are ignored; a recorded value of a component that varies is overridden; component ranges with a normal distribution call an undefined function, and for parameters the deviation is scaled by the middle of the range; the QSPICE function for uniform ranges has an unbalanced bracket; a component tolerance whose text ends in 0 or a point is cut.)",
  "all netlists, deviations, recorded commands, run numbers and batch sizes, and all values of the random functions", "all real-valued draws and all combinations of deviations; the meaning is in the text interpreted by the simulator",
  "spicelib/sim/tookit/montecarlo.py:Montecarlo.prepare_testbench", "spicelib/sim/tookit/tolerance_deviations.py:ToleranceDeviations.run_testbench")
p("C71", "Each run of a Monte-Carlo analysis is an independent draw",
  "Montecarlo.run_analysis(num_runs=n) launches n simulations. Each is the netlist of the file with the recorded changes replayed, in which every component or parameter with a deviation and a numeric value has the value drawn by this run's random number - uniform values never leave the tolerance or range - and nothing else differs: no value of an earlier run remains. (Limit: after prepare_testbench the recorded formulas are replayed instead, without the functions they call.)",
  "all netlists, deviations, recorded commands, numbers of runs and random numbers", "all random draws, any number of runs",
  "spicelib/sim/tookit/montecarlo.py:Montecarlo.run_analysis", "spicelib/sim/tookit/montecarlo.py:Montecarlo._get_sim_value")
p("C72", "Steps of a stepped simulation and exported columns",
  "For a RAW file of a stepped simulation the steps are the parameter assignments of the step lines of the log beside it, in the order of the lines, for LTspice and for QSPICE logs. get_steps(**kw) returns exactly the numbers of the steps in which every given parameter has the given value, in increasing order (and [0] when the file is not stepped). export(columns, step, **kw) gives the columns asked for (all of them by default); each holds the values of the requested steps, one after the other, with nothing missing, so all columns have the same length, and exporting everything gives every trace whole. to_csv writes one header line and one line per sample, the values of the columns in their order. (Limits: a stepped file with an axis and no usable log cannot be read at all; a stepped file without axis is exported with every column repeated once per step; a log without final newline loses its last character; a second equal sign in a step line is a ValueError; whether the axis is added to the columns asked for, and whether its sign is corrected, depends on what was read before.)",
  "all logs made of step lines and other lines, all plots with distinct trace names, column selections, step selections and histories of reads", "all logs, all selections, any history of earlier reads",
  "spicelib/raw/plot_data.py:PlotData._load_step_information", "spicelib/raw/plot_data.py:PlotData.get_steps", "spicelib/raw/plot_data.py:PlotData.export", "spicelib/raw/plot_data.py:PlotData.to_csv")
p("C73",
  "Reading ASCII RAW files",
  "Opening an ASCII RAW file whose points are numbered 0, 1, 2... and give a number (two, for complex plots) for each variable yields, for every trace, exactly the numbers written for it in the order of the points, however many empty lines and blanks are between them. A file that ends before the last point, or in which a point has another number than its position, is refused with an exception; it never yields a short or zero-filled plot. (Limits: a non-empty line right behind the data - the header of a second plot - makes the reader loop for ever; a stepped file with an axis is refused unless it has as many steps as points; of two traces with the same name only the last is kept.)",
  "all data sections, numbers of points and variables, blanks, empty lines",
  "all files",
  "spicelib/raw/plot_data.py:PlotData._read_ascii_vector")
p("C74",
  "The command line of a simulation",
  "Every simulation is started with a command made of the simulator's executable, the switches together and in the order given, and the netlist; simulators that are told their output files (-o, -r, -l) are told exactly the .log and raw files that the task looks for afterwards, and these do not depend on the path being relative or absolute. A simulation launched with switches of its own runs with exactly those whatever is done to the runner and however threads are scheduled; otherwise it runs with the switches added to the runner since they were last cleared, provided they are not changed before its thread has started; once built, a command never changes. valid_switch gives back the switch asked for (dash and surrounding blanks optional) with its parameter, never one that spicelib sets itself, and refuses unknown switches. (Limits: the runner's list is shared with launched tasks, so clearing it right after a launch can take the switches away; add_command_line_switch without path adds an empty argument; some documented switches are refused, dropped or damaged.)",
  "all simulators, paths, switches, parameters, histories of runner calls and schedules of the task threads",
  "all schedules of threads against later calls",
  "spicelib/sim/sim_runner.py:SimRunner.add_command_line_switch",
  "spicelib/sim/sim_runner.py:SimRunner.run",
  "spicelib/sim/run_task.py:RunTask.run",
  "spicelib/simulators/ltspice_simulator.py:LTspice.run",
  "spicelib/simulators/ltspice_simulator.py:LTspice.valid_switch",
  "spicelib/simulators/qspice_simulator.py:Qspice.run",
  "spicelib/simulators/ngspice_simulator.py:NGspiceSimulator.run",
  "spicelib/simulators/xyce_simulator.py:XyceSimulator.run")
p("C75",
  "Operating points of semiconductor devices",
  "opLogReader reads the 'Semiconductor Device Operating Points:' part of a log: every section (a line '--- Title ---', a line 'Name:' with the devices, rows 'Param: v1 v2 ...' separated by blanks) becomes an entry under its title in small letters, in the order of the log, and holds exactly the devices of the Name line, each with the value of its own column for every row that has one value per device ('Gmb' needs no colon). Lines before the header and lines that are no rows change nothing; a log without the header gives an empty dictionary. Limits: a section never ends, so later log lines that start with 'word:' and have the right number of columns are taken as rows; a blank at the end of the Name line makes a device without a name and loses the rows; a row before the Name line is a KeyError and a Name line before any title an AttributeError; a second section with the same title replaces the first.",
  "all logs made of any lines before the header, any number of sections with any titles, devices, gaps, rows and lines that are no rows, and any conversion of values",
  "The number of sections, devices and rows, the blanks between columns and the lines around them are unbounded; tests read a few logs.",
  "spicelib/log/semi_dev_op_reader.py:opLogReader")
p("C76",
  "LTspice log files as a whole",
  "Reading an LTspice log made of .step lines, single-line measurements (`name: expr=value FROM a TO b`, `... at t`), Fourier tables and other lines in any order, followed by measurement tables, never fails and yields: step_count = number of .step lines with assignments; each step variable's values in file order; each single-line measurement seen before the first step under name, name_FROM/_TO or name_at (lower case; the last of a name wins) whatever its expression contains; every Fourier table recorded under its signal, in file order, with its periods (-1 for all), DC component, harmonics row by row, partial and total distortion, and the 0-based number of the step it belongs to (-1 without steps); the measurement tables column by column. With read_measures=False exactly the part before the tables is read. Limits: any other `word: text=value` line (warnings too) is taken for a measurement; exponents of distortions are dropped and distortions without decimals raise; any line starting with Harmonic begins a table; given steps disable single-line measurements.",
  "every sequence of log items (any number, any order), every text of names, expressions, values and phases, every number reader, every set of word characters, every step set given by the caller, every list of measurement tables",
  "The set of logs is unbounded (interleavings of steps, Fourier tables and measurements, free text in expressions); the repository tests a handful of logs.",
  "spicelib/log/ltsteps.py:LTSpiceLogReader.__init__",
  "spicelib/log/ltsteps.py:HarmonicData.from_line",
  "spicelib/log/ltsteps.py:FourierData")
p("C77",
  "QSPICE logs and .meas files",
  "QspiceLogReader: if the `n of m steps: .step ...` lines of the log are numbered 1,2,... then step_count is their number and every variable has the values assigned to it in file order; with any other numbering the constructor raises AssertionError. parse_meas_file: every measurement (`.meas tran name ...` or `.meas name find ...`) gets one column per value of its first row, called name, name_1, name_2, ... (lower case; after the shared column step exactly if the log has steps), with one entry per row in file order, complex and bracketed values included; a column is that of the last measurement with a column of this name, nothing else in the dataset changes, and measure_count grows by the number of rows. Limits: blank lines and short rows raise IndexError, unbalanced brackets ValueError; kinds are recognised in lower case only; column step belongs to the last measurement; a measurement called step in a stepped simulation is mixed with the step numbers.",
  "every log (any lines, any number of steps), every .meas file of measurements with any number of rows and values (any line of the C22 grammar), any set of word characters",
  "Unbounded families of files and names (collisions between name_1 columns and measurements); tests use three small files.",
  "spicelib/log/qspice_log_reader.py:QspiceLogReader.__init__",
  "spicelib/log/qspice_log_reader.py:QspiceLogReader.parse_meas_file")
p("C78",
  "An LTspice symbol file is read as what its lines say",
  "AsyReader reads a symbol file exactly if each of its lines says something (Version 4, SymbolType, WINDOW, SYMATTR, PIN, PINATTR, LINE, RECTANGLE, CIRCLE, ARC, TEXT) and no PINATTR precedes the first PIN; a line says at most one thing. The reader then shows the last version and symbol type, windows, lines, shapes and pins in file order with their integers, alignment and style, every pin with the attributes of the PINATTR lines up to the next pin, and for every SYMATTR name the text of its last line (stripped; a prefix in capitals). is_subcircuit is true exactly for the type BLOCK or the prefix X; get_library gives the first attribute, in the documented order, whose value ends in .lib/.sub/.cir/.txt in any letter case, else SpiceModel; get_model the first that is present. Limits: a PINATTR value of two words, an empty line, a keyword in other letter case and version 5 raise; a prefix is only found under exactly the name Prefix.",
  "every text file (any number of lines, any characters), every attribute table",
  "Any sequence of lines, any blanks, names and values; the tests read a few symbols.",
  "spicelib/editor/asy_reader.py:AsyReader.__init__",
  "spicelib/editor/asy_reader.py:AsyReader.is_subcircuit",
  "spicelib/editor/asy_reader.py:AsyReader.get_library",
  "spicelib/editor/asy_reader.py:AsyReader.get_model")
p("C79",
  "Converting an LTspice schematic to QSPICE",
  "convert_asc_to_qsch of a schematic whose symbols are found and have prefix, description, two windows and named pins writes a file that QschEditor reads; it shows every label, wire, line and text of the original in order at 25/4 of its coordinates with the y axis reversed (fractions cut off; multiples of 4 exact, the grid of 16 becomes the grid of 100), the labels' and texts' own words, and components with the value, prefix, description and pins of their symbol in the reversed rotation. Pins on the grid are found in all eight orientations exactly where they were, converted. With a symbol of its own for every component all components are kept. Limits, as the code behaves: of several components with one symbol only one is left, named and valued like the first and placed like the last; wires carry the net 0, so everything at unlabelled wire ends is grounded; labels of ports are scaled again for every port; comments become instructions; a component whose symbol is not found gives a file that cannot be read; a missing prefix or description or a third window raises.",
  "every schematic (any number of components, labels, wires, lines, texts, shapes), every set of symbols, coordinates unbounded (pins within 32000 units), any arc arithmetic",
  "Any drawing, any symbols, all coordinates and orientations; the tests convert a few files and compare nothing of the nets.",
  "spicelib/scripts/asc_to_qsch.py:convert_asc_to_qsch",
  "spicelib/editor/asy_reader.py:AsyReader.to_qsch",
  "spicelib/editor/base_schematic.py:BaseSchematic.scale",
  "spicelib/editor/qsch_editor.py:QschEditor.copy_from",
  "spicelib/editor/qsch_editor.py:QschEditor._parse_qsch_stream")
p("C80",
  "Which definition a sub-circuit name stands for",
  "The name of a sub-circuit stands for the first definition in this order: the definitions of the circuit the instance is in and those of its included files, in the order of the lines; then those of the circuits around it, from the inside to the outside; then the libraries named by the netlist's .LIB and .INCLUDE lines, in order. So a circuit's own definition wins over definitions around it and in libraries, and without included files a definition in the netlist never depends on the contents of libraries. In a library the search ignores letter case and gives the first definition of that name as a whole: from its .SUBCKT line, with nested definitions and control sections, to its closing line; nothing after it matters, and nothing is found when no line looks like a definition. The file of a .LIB, .INC or .INCLUDE line is the text after the key word without the blanks and the comment behind it. (Limits: in a library a longer name with the same beginning, or a commented-out definition, is taken for the definition; an unclosed definition hides the rest; quoted file names are not unquoted; in the netlist itself names are compared in their spelling and cut at characters such as '-'; libraries named inside a sub-circuit are not searched; a library named by an included file wins over a later definition of the netlist.)",
  "all netlist hierarchies with included files, all library texts, names, letter cases, blanks and comments",
  "all hierarchies and file contents",
  "spicelib/editor/spice_subcircuit.py:SpiceCircuit.get_subcircuit_named",
  "spicelib/editor/spice_subcircuit.py:SpiceCircuit.find_subckt_in_lib",
  "spicelib/editor/spice_subcircuit.py:SpiceCircuit.find_subckt_in_included_libs",
  "spicelib/editor/spice_subcircuit.py:SpiceCircuit.name",
  "spicelib/editor/spice_utils.py:lib_inc_regex")
p("C81",
  "Merging traces of several RAW files",
  "RawWrite.add_traces_from_raw brings traces of other RAW files into the file being written. Importing into an empty file takes over the axis and the samples of the chosen step; without alignment the samples are copied when both axes have the same number of points and the import is refused otherwise; traces of another numerical type, over another kind of axis, or that the source does not have are refused. With force_axis_alignment the axes are merged: the merged axis is strictly increasing, consists of points of the two axes (never their last ones), lies before the end of both, and loses no point as long as the other axis goes on (points of the added axis closer than admissible_error to a point of the file are represented by that point). After any number of such imports, saving writes every trace, under its own or its tagged name, with the values that the straight lines between its own original points take at the points of the merged axis; a trace is never continued beyond its end. Limits, each shown by a witness: the last point of every trace is lost also when the axes are equal; when the merged axis has as many points as the old one the traces already in the file are not resampled; an aligned import of a step other than 0 saves the samples of step 0; an aligned import from a file with a single point is dropped; importing the same trace of the same source twice gives both the last name; with points closer than admissible_error the merged axis may go back.",
  "for all axes, samples (real or complex), sources, tags, admissible errors and histories of imports",
  "the merging loop and the interpolation must be right for every pair of axes, and the errors only show for particular lengths and distances of points",
  "spicelib/raw/raw_write.py: RawWrite.add_traces_from_raw, RawWrite._rename_netlabel, RawWrite._interpolate, RawWrite._consolidate",
  "spicelib/sim/sim_runner.py: SimRunner.create_raw_file_with")
p("C82",
  "Arguments of callbacks",
  "SimRunner.run accepts the arguments of a callback exactly when the callback (a function with plain parameters, or the method of a ProcessCallback class) has two parameters, in which case further arguments are ignored, or has more and callback_args holds one value for each parameter after the second: a tuple of as many values, or a dictionary with exactly their names. When they are refused nothing has happened yet: no run number is used and nothing is written. An accepted callback is called without a TypeError: its first two parameters receive the raw and the log file and every further parameter the value that belongs to it, by position for a tuple, by name for a dictionary; the same holds in a process of its own unless a parameter is called self, raw, log, group, name or daemon. Limits, each shown by a witness: parameters with defaults are not optional; starred parameters are treated like plain ones, so that the call can still fail; a parameter called name of a process callback is lost.",
  "for all parameter lists, tuples and dictionaries of arguments",
  "signatures and arguments are chosen by the user; the check and the call have to agree for all of them",
  "spicelib/sim/sim_runner.py: SimRunner.validate_callback_args, SimRunner.run",
  "spicelib/sim/run_task.py: RunTask.run",
  "spicelib/sim/process_callback.py: ProcessCallback")
p("C83",
  "Waiting for the simulations of a runner",
  "SimRunner.wait_completion() ends at its first look that finds every simulation started and ended, and then returns True exactly when all of them succeeded and none had failed before; or it ends with False in the first turn in which it gives up: the timeout passed to it is over, or, without one, some simulation still running has a timeout and all that have one have exceeded it. True is therefore only returned when every simulation has ended successfully. With a timeout of T seconds the call ends after T+1 turns at the latest; without one it ends when the simulations do, and its answer is exact when every simulation keeps its own timeout.",
  "all sets of simulations with any start and end times, results and timeouts, all runner timeouts, all timeout arguments, all clocks that do not go back and pause a second per turn, all numbers of earlier failures",
  "The answer depends on the interleaving of the simulations' ends, the pauses of the loop and the clock, which no finite number of tests covers.",
  "spicelib/sim/sim_runner.py: SimRunner.wait_completion, update_completed, _maximum_stop_time, kill_all_spice")
p("C84",
  "Files of runs: placement and cleanup_files",
  "With default names, SimRunner puts the netlist of run n of <circuit>.<ext> at <circuit>_<n>.<ext>, in the output folder if there is one (otherwise beside a netlist file, or in the working directory for an editor). Files of runs with different numbers never have the same name, whatever the circuits are called. Whatever the order in which runs start, write their files, end and are cleaned up, only files named <circuit>_<n>... of started runs - all in the output folder when there is one - are created, changed or deleted; every other file, the original circuit included, keeps its content. cleanup_files deletes exactly the netlist, log or fail file, console log, raw file (and LTspice's extra files) of the completed runs and spares those of every run still active; a successful run leaves nothing behind.",
  "all circuit names (not ending in a dot), simulators, output folders, file systems, all interleavings of starts, writes, completions and clean-ups, any number of runs",
  "It ranges over all names, file systems and histories; a wrong name rule destroys user files only for particular names.",
  "spicelib/sim/sim_runner.py: SimRunner._on_output_folder, _to_output_folder, _run_file_name, _prepare_sim, cleanup_files, _del_file_if_exists",
  "spicelib/sim/run_task.py: RunTask.run (raw_file, log_file)")
p("C85",
  "Aliases of QSPICE RAW files have the value of their formulas",
  "When the header of a QSPICE RAW file defines a current or voltage as a formula (for instance the current of a resistor as conductance times a voltage difference), reading that trace gives at every point exactly the value of the formula over the stored traces: V(a,b) is the difference of two nets, net 0 is the ground on either side, I(x) and P(x) are currents and powers, numbers may carry mho or ohm, names are the parameters of the header (or pi, e) and sub-expressions may be nested to any depth with + - * and a sign. The result has the type of its name and one value per point as soon as the formula refers to a trace.",
  "every formula of any depth, every net, element and parameter name, every number, every set of traces of any length, every set of parameters and aliases",
  "The formula is rewritten by five regular expressions over its text and then evaluated by Python; whether the text that reaches eval still means the formula depends on how names, numbers and units touch each other, for infinitely many formulas.",
  "spicelib/raw/plot_data.py: namify, PlotData._compute_alias, PlotData.get_trace_names, PlotData.__init__ (.param/.alias lines)")
p("C86",
  "The private copy of a sub-circuit definition",
  "When something inside a sub-circuit instance is changed for the first time, the instance gets its own copy of the definition: the same elements between two comment lines, the .SUBCKT line with the same keyword, ports and parameters under the new name value_reference, the .ENDS line with the new name, nested definitions copied likewise; and the value of the instance becomes exactly the name the copy has. Renaming a definition changes its name and nothing else, and reading the name back gives the new name. Instances of the same definition get copies with different names.",
  "every definition with any number of elements and nested definitions, any spelling and spacing of the .SUBCKT line, any names made of word characters and dots",
  "The name is located by a regular expression and spliced into the text of the line with spaces added or not; that no port is lost, merged or added must hold for every spelling of the line.",
  "spicelib/editor/spice_subcircuit.py: SpiceCircuit.clone, SpiceCircuit.name, SpiceCircuit.setname",
  "spicelib/editor/spice_subcircuit_instance.py: SpiceCircuitInstance.subcircuit, begin_update",
  "spicelib/editor/spice_components.py: _insert_section")
p("C87",
  "Control sections are found, removed and refused as announced",
  "SpiceEditor.get_control_sections returns exactly the control sections at the top level of the loaded file, in order, each with all its lines from .CONTROL to .ENDC. remove_control_section(k) removes exactly section k, leaves every other element where it was, returns True and records one deletion in the journal; an index that is too large returns False, a negative one raises IndexError, a read-only editor raises PermissionError, and none of these changes anything. add_control_section refuses any text that does not start with .CONTROL and end with .ENDC. Limits: the text of an added section is lost (the netlist cannot be written afterwards), and removing such a section raises AttributeError after deleting it.",
  "all netlist files of comments, components, directives, nested sub-circuits and control sections; all indices; all editors and permissions; all texts",
  "the number, size and place of control sections is unbounded; tests remove one section of one file",
  "spicelib/editor/spice_editor.py: SpiceEditor.get_control_sections, add_control_section, remove_control_section")
p("C88",
  "Libraries and symbols are looked for in the announced directories, in order",
  "set_custom_library_paths replaces the custom paths of its class by exactly those given paths that are existing directories, in order and with ~ expanded, and leaves the simulator's paths and the other editor classes alone; prepare_for_simulator does the same for the simulator's paths. A netlist editor looks for a library in the netlist's directory, the current directory, the simulator's paths, then the custom paths; schematics do so with /sub and /sym; the first directory that has the file counts, and None is returned only if none has it. When no custom path is set, opening a netlist sets them to the libraries of the program named by the first telling comment among the first five elements. History: a symbol found once is the answer to every later request for that name in the process, whatever schematic, directory or file system; once custom paths are set, opening netlists never changes them (so the first netlist opened decides for all later ones).",
  "all histories of set_custom_library_paths, prepare_for_simulator, opened netlists and symbol requests; all classes, directories, file names, file systems and netlists",
  "the paths and the symbol cache are class variables: the outcome depends on everything the process did before, and on file systems tests do not have",
  "spicelib/editor/base_editor.py: BaseEditor.set_custom_library_paths, prepare_for_simulator",
  "spicelib/editor/spice_editor.py: SpiceEditor.reset_netlist",
  "spicelib/editor/spice_subcircuit.py: SpiceCircuit.find_library",
  "spicelib/editor/asc_editor.py: AscEditor._lib_file_find, _asy_file_find, symbol_cache",
  "spicelib/editor/qsch_editor.py: QschEditor._qsch_file_find")
p("C89",
  "The executable of a simulator and its library directories",
  "Simulator.create_from either raises and changes no simulator class, or returns the class, which is then available, without changing another class. A Path, or the text of an existing file, is the whole command; any other text is split into its sections the way a shell does (blanks inside quotes belong to a section), the first must be found on the machine, and all are kept in order; the process name is the given one or the last part of the first section. get_default_library_paths returns, in order, exactly the default directories that exist: with ~ expanded, and for an executable under wine with the home directory and drive C: looked up below its wine directory. Limits: only the first section is looked for; two simulators made from one class are the same object.",
  "all command texts and sections, all machines (files, search path, platform, home), all tables of simulator classes, all executables under any wine directory",
  "depends on the machine and on arbitrary texts; tests run on one machine without wine",
  "spicelib/sim/simulator.py: Simulator.create_from, guess_process_name, is_available, get_default_library_paths, expand_and_check_local_dir")
p("C90",
  "The file of Fourier analyses is two tables",
  "When a log file with Fourier analyses is exported, a second file named after the export file with _fourier.txt appended to its base name is written; cut into lines and tabs it is a title row and one row per analysis (signal, number of periods, DC component, fundamental, number of harmonics, PHD, THD), then a title row and one row per harmonic, and in a sweep every row starts with the values of the stepped variables at the step of its own analysis; every analysis of a step has exactly one row. Without analyses no file is written; an analysis without harmonics stops the export.",
  "all logs, step tables, lists of analyses and ways of printing numbers without tabs and line breaks",
  "a test exports one log; rows lost, doubled or given the values of another step only show for some arrangements of signals and steps",
  "spicelib/log/ltsteps.py:LTSpiceLogReader.export_data")
p("C91",
  "Results of a tolerance analysis are those of its runs",
  "Before an analysis or testbench was executed there are no results; afterwards the results hold, for every measurement, the values of the logs that could be read in the order of the runs since the analysis began, with the steps of the logs or, without steps, a variable run (the measured runm, rounded if complex, else 0, 1, 2, ...); once read they stay the same until the next analysis begins, whatever happens to the files; the extremes of a measurement are measured values that bound all others and are given only if every simulation contributed a value; logs added one by one continue the numbering and stay aligned with it.",
  "all histories of analyses, runs and reads, all contents of log files, all measurement names",
  "a test reads the results of one finished analysis; stale, misaligned or foreign values depend on the order of analyses, reads and file deletions",
  "spicelib/sim/tookit/tolerance_deviations.py:ToleranceDeviations.read_logfiles",
  "spicelib/sim/tookit/tolerance_deviations.py:ToleranceDeviations.add_log",
  "spicelib/sim/tookit/montecarlo.py:Montecarlo.analyse_measurement",
  "spicelib/sim/tookit/worst_case.py:WorstCaseAnalysis.get_min_max_measure_value")
p("C92",
  "Numbers with units keep value, text and unit",
  "A number with unit made from a text has the value of the text, shows exactly this text (blanks around it removed) and has its unit if it is a known one; a contradicting unit is refused. Whatever is done, its value never changes, and its text and unit change only by cleaning it or assigning its unit, after which it shows the value in engineering notation with the sign of the unit; with the usual units this text is read back as the same unit and, to six digits, the same value. It equals a text exactly if the text is a number of the same value. Arithmetic gives new numbers; to_float gives such an object back itself and an unreadable text unchanged or refuses it.",
  "all texts, values, units and histories of operations on any set of such numbers",
  "objects are shared and changed in place; a test looks at one object after one call",
  "spicelib/utils/float_unit.py:float_unit",
  "spicelib/utils/float_unit.py:to_float")
p("C93",
  "The exported sweep is a table that reads back",
  "export_step_info writes a CSV file that, read as CSV with the same delimiter, is a row of titles (runno and every variable set) and one row per simulation in the order of the run numbers, with each value exactly as it was set and texts distinguished from numbers, whatever delimiters, quotes and line breaks they contain. Without simulations it raises IndexError; a variable the first simulation does not have raises ValueError.",
  "all sets of simulations, variables, texts, numbers and delimiters",
  "quoting errors only show for particular contents; a test has plain names and numbers",
  "spicelib/sim/sim_stepping.py:SimStepper.export_step_info")
p("C94",
  "One RAW file with traces of several runs",
  "SimRunner.create_raw_file_with(file, save, conditions) puts the requested traces of every successful run that matches the conditions into one file. Each trace is named after its run number, and at every point of the common axis its sample lies on the curve of that run; the axis is increasing and starts where the runs start. With equal axes the samples are exactly those of the runs, without the last points. The value returned is True exactly when every matching run had a RAW file. When no run matches, when the first run has no RAW file, or when runs are of different kinds or lack a trace, no file is written.",
  "every list of completed tasks with any return codes, edits and RAW files, every condition, every list of trace names, any number of runs, any axes and samples",
  "The result depends on every pair of neighbouring points of every pair of runs; tests use one or two runs with the same axis.",
  "spicelib/sim/sim_runner.py: SimRunner.create_raw_file_with, TaskIterator",
  "spicelib/raw/raw_write.py: RawWrite.add_traces_from_raw, RawWrite._consolidate, RawWrite.save")
p("C95",
  "The nodes of a circuit",
  "get_all_nodes of a circuit gives every node named by its component lines exactly once, in the order of first occurrence; comments, instructions, sub-circuit definitions and included files contribute nothing; no node is ever given twice whatever the lines are; a component that was created without text makes the call fail. Iterating over a circuit gives one object per component line, those of sub-circuits and included files included (but the objects are empty).",
  "all netlists of well-formed component lines (all component kinds of C63/C64) mixed with any other elements; for the iteration all nested netlists",
  "The set and the order of the nodes must be right for every netlist: any number of lines, any repetition of nodes between lines and inside a line, any nesting of sub-circuits.",
  "spicelib/editor/spice_subcircuit.py: SpiceCircuit.get_all_nodes, SpiceCircuit.__iter__, get_line_command",
  "spicelib/editor/spice_components.py: component_replace_regexs")
p("C96",
  "raw_convert: the traces and the output",
  "A name on the command line of raw_convert stands for the trace of that name, else for the voltage V(name), else for the current I(name); the script announces the traces found in the order of the command line and warns of exactly the names that stand for none; if none is found it lists the traces of the file and stops with code 1 without output. Otherwise it writes the table of the file: on the screen, to the clipboard, to a CSV file or an Excel file, by the ending of the output name; any other ending is refused with code 1.",
  "all command lines, all trace names of the file, all tables, all separators",
  "Which of the three names a request stands for, and what is warned of, must be right for every combination of requests and files; a test tries a few.",
  "spicelib/scripts/raw_convert.py: main",
  "spicelib/raw/plot_data.py: PlotData.export, PlotData.to_csv")
p("C97",
  "Symbols and sub-circuits of an LTspice schematic",
  "Opening an LTspice schematic finds for every component the symbol file that its name means (backslashes, single or doubled, separate directories; a backslash before a blank is dropped), in the documented order of places, and attaches to every sub-circuit component what it stands for: a block without library the schematic beside its symbol, or else the first of that name beside the schematic, in the current directory or the custom paths; a symbol that names a library the definition of its model in the first such library; a cell without library nothing. Hierarchies of any depth are opened; a schematic that contains itself directly or indirectly, or any component anywhere below that cannot be resolved, makes the opening fail.",
  "all symbol names, all file systems and library paths, all hierarchies of schematics of any depth, all recursion limits",
  "Hierarchies have any depth and any cycle length; search orders depend on the whole contents of several directories.",
  "spicelib/editor/asc_editor.py: AscEditor._get_symbol, AscEditor._get_subcircuit, AscEditor.reset_netlist, AscEditor.__init__",
  "spicelib/editor/asy_reader.py: AsyReader.get_schematic_file, is_subcircuit, get_library, get_model")
p("C98",
  "Values in log files: whole numbers, numbers, complex numbers, texts",
  "A text of a log file is converted to a whole number if it is one, else to a number, else to a complex number, and otherwise stays a text without the blanks around it. A complex number is two numbers in parentheses: real and imaginary part, or magnitude (perhaps in dB) and phase in degrees; a number given in dB and degrees has exactly this magnitude, and mag_db() and ph give back the numbers of the text (phase within (-180, 180]); phases that differ by whole turns mean the same number; the unit is dB exactly if the text says so.",
  "all texts; all magnitudes and phases (rational numbers)",
  "Conversion decides the type and value of every measurement; the lazy regular expression and the trigonometric round trip must be right for all texts and numbers.",
  "spicelib/log/logfile_data.py: LTComplex, try_convert_value")
p("C99",
  "What a runner reports of its runs",
  "sim_info() of a runner has one entry per completed run under its run number, in the order of completion, with the netlist, RAW and log file, the return code, the exception text, the result of the callback and the start and stop time of exactly that run; the edits are there exactly if the run had any. The duration in the messages shows hours, minutes, seconds and whole milliseconds (leading parts that are zero are left out), and two durations look alike exactly if they have the same number of whole milliseconds.",
  "all lists of completed runs, all attribute values, all non-negative durations",
  "Entries must not be mixed up for any number of runs and any order of completion; the duration format must be right for every duration.",
  "spicelib/sim/sim_runner.py: SimRunner.sim_info",
  "spicelib/sim/run_task.py: format_time_difference, RunTask.run")
p("C100",
  "Waiting for a free place",
  "SimRunner.run starts the simulation at its first look at which fewer than parallel_sims simulations are still running (at once if it need not wait), provided this look is earlier than one second after the timeout (of the call, else of the runner); otherwise it returns None, and it always ends. In every case one run number is used up; a task exists and is active exactly if the simulation was started. Without any timeout (documented as allowed) run raises a TypeError after the netlist was written, and run_now starts a simulation that the runner then does not know.",
  "all clocks with pauses of a tenth of a second, all start and end times of the running simulations, all timeouts, all numbers of places; for run_now all reachable states of the runner",
  "Depends on the schedule of the other simulations and on the clock; a test sees one schedule.",
  "spicelib/sim/sim_runner.py: SimRunner.run, SimRunner.run_now, SimRunner.active_threads, SimRunner.update_completed")
p("C101",
  "Files in the folder of the simulation server",
  "All sessions of a server share one folder. Sending files puts each of them there with its content (the last one of a name) and changes nothing else; the copy that is simulated has the content of the circuit sent with that very request. From then on, the files of a run change only through its own simulation and through requests of its own session: no other session or run touches them, unless it sends a file of that name. When a simulation ends, its waveforms and log (after a failure: its log, renamed) are packed, and no matter how much later the session asks for them it gets exactly these; then the copy, the packed files and the archive are deleted; closing the session deletes those of all its ended runs. Files that were sent stay until a file of that name is sent again. Every file in the folder was there first, was sent, belongs to a run whose results were neither fetched nor discarded, is the copy of a circuit that could not be started, or was written by a simulator besides circuit, log and waveforms. Limits: sessions replace each other's files of the same name, also during simulations; files of ended runs stay when the server is stopped.",
  "all sequences of requests of any number of sessions (start, send, run, fetch, close) interleaved with what simulators write and with ends of simulations, all contents of the folder at the start, all names of circuits not ending with a dot",
  "Whether one client can damage the results of another depends on the interleaving of all requests and simulations and on all names; tests run one client with one circuit.",
  "spicelib/client_server/sim_server.py:SimServer.add_sources",
  "spicelib/client_server/sim_server.py:SimServer.run",
  "spicelib/client_server/sim_server.py:SimServer.get_files",
  "spicelib/client_server/sim_server.py:SimServer.close_session",
  "spicelib/client_server/srv_sim_runner.py:zip_files",
  "spicelib/client_server/srv_sim_runner.py:ServerSimRunner._erase_files_and_info",
  "spicelib/client_server/srv_sim_runner.py:ServerSimRunner.run")
p("C102",
  "A component made in a program is written to the netlist so that it reads back as it was made",
  "A SpiceComponent made from keyword arguments (reference, ports, value, params, under any of their names and in any order) and without a line of its own is written as its reference, its nodes and its value separated by spaces, then its parameters as name=value (the keyword noiseless alone when it is True, nothing when it is not), cut at whole parameters: a line ends with the first parameter that makes it longer than 80 characters and the next one starts with a plus sign. A netlist containing this text is read back with one logical line for the component, from which the same reference, nodes, value and parameters are read, whatever follows, with at most a blank line added. The number returned is the sum of the lengths of the lines plus one.",
  "all references, node lists, values and parameter lists, all orders and names of the keyword arguments, all texts that follow in the netlist",
  "The line is cut according to its length; a test has one component, with or without a continuation line, and does not read the result back.",
  "spicelib/editor/primitives.py: Component.__init__",
  "spicelib/editor/spice_components.py: SpiceComponent.write_lines, SPICE_KEYWORDS",
  "spicelib/editor/spice_subcircuit.py: separate_lines")
p("C103",
  "Values and parameters that were set survive saving and opening again, whatever the history",
  "Open a netlist, set values of components and of .PARAM parameters, save it, open the saved file, set more, and so on, in any order and any number of times: a component read afterwards has the value that was set last for its reference (in either case), a parameter the value that was set last for its name, one that was never set the value it had in the original file, and the file that is saved is the original netlist line by line and in the same order with exactly these values replaced and one line for each parameter that was not defined before; nodes, parameters, comments, controlled sources, sub-circuit definitions, control sections and directives stay as they were, only the number of blanks between the pieces of a component line may change. The value must be one the component line, or the parameter definition, can hold; nothing checks that.",
  "all netlists of the grammar (any number and order of components, comments, parameter lines, directives, sub-circuit definitions and control sections), all values that fit the component and all parameter names and values that a definition can hold, all sequences of set, save and open",
  "The result depends on an unbounded history of edits and saves of an arbitrary netlist; a test fixes one netlist and one sequence.",
  "spicelib/editor/spice_subcircuit.py:set_component_value",
  "spicelib/editor/spice_subcircuit.py:get_component_value",
  "spicelib/editor/spice_subcircuit.py:set_parameter",
  "spicelib/editor/spice_subcircuit.py:get_parameter",
  "spicelib/editor/spice_subcircuit.py:write_lines",
  "spicelib/editor/spice_file.py:save_netlist",
  "spicelib/editor/spice_file.py:reset_netlist",
  "spicelib/editor/spice_components.py:SpiceComponent.rewrite_lines")
p("C104",
  "The netlist file of a run says the values of that run",
  "SimStepper.run_all with sweeps of component values, models and parameters writes one netlist file per combination of the swept values, the first sweep the slowest, each under the name of its run number; when all is done, the file of run k, opened again, has for every swept component and parameter the value of the k-th combination and for every other one the value of the original netlist, and is otherwise the original netlist line by line, with a line more for a swept parameter it did not define. More generally, in any program that sets values and parameters, runs the netlist, and saves and reopens it, in any order, the file of each run is a snapshot: it says the values as they were set before that run, whatever is set or run afterwards.",
  "all netlists of the grammar, all numbers of sweeps and swept values that fit their components, all programs of sets, runs, saves and reopens",
  "It composes the sweep order, the editor, the file names and the reader over unbounded sweeps and histories; a test checks one sweep of one circuit.",
  "spicelib/sim/sim_stepping.py:SimStepper.run_all",
  "spicelib/sim/sim_runner.py:SimRunner._prepare_sim",
  "spicelib/sim/sim_runner.py:SimRunner._run_file_name",
  "spicelib/editor/spice_subcircuit.py:set_component_value",
  "spicelib/editor/spice_subcircuit.py:set_element_model")
p("C105",
  "Whole editing sessions end to end: values, parameters, components and instructions added and removed, saves and re-opens in any order",
  "Open a netlist file, then in any order and any number of times set component values and parameters, add components (before or after another one, or at the default place), remove components, add instructions, remove instructions, remove all instructions matching a pattern, save and open again. The file saved at the end is the original netlist with exactly these changes applied one after the other, up to blanks, and opening it reads for every reference and every parameter exactly the value that follows. A component added under a new reference is in the file with its value, and no other component, parameter or directive changes; a removed component is gone, and everything else keeps its value; an added directive is in the file and changes no value; a netlist with at most one analysis directive has at most one in every saved file; adding a directive twice is adding it once; adding and then removing a new directive or component leaves the saved file as it was.",
  "all netlists of the grammar (components of all modelled kinds, controlled sources, parameter lines, comments, directives, sub-circuits, control sections), all finite sequences of the operations, all references in any case, all component lines, values and directives of the grammar",
  "A test edits one netlist with a few calls; the claim is about every netlist and every sequence of edits, with all insert positions and the interplay of replaced analyses, .backanno and saving in between.",
  "spicelib/editor/spice_subcircuit.py: add_component, remove_component, get_component, set_component_value, set_parameter",
  "spicelib/editor/spice_file.py: add_instruction, remove_instruction, remove_Xinstruction, save_netlist, reset_netlist")
p("C106",
  "Editing sessions on LTspice schematics, from file to file",
  "Whatever sequence of accepted calls is made on an LTspice schematic (setting values, attributes, models, positions and parameters, adding and removing instructions and components, scaling, saving and opening the saved file again in between), the sheet at the end can be saved, and the saved file, opened again, shows every attribute, symbol and position of every component as the last call about it left it and otherwise as it was at the start; the same for every parameter as long as no directive with parameters was itself removed. The components are those of the start without the removed ones, in the same order; when nothing was scaled, the wires, labels, drawings and comments are unchanged; and a schematic with at most one analysis command ends with at most one.",
  "every schematic that can be saved (every loaded one whose components have names) with its parameters in the grammar of C60, every finite sequence of calls with one-line arguments, every component, attribute and parameter, every scaling function",
  "Interaction of calls over arbitrarily long histories: each call may disturb what an earlier one set, and saving and reopening may change or lose parts of the sheet.",
  "spicelib/editor/asc_editor.py: set_component_value, set_component_parameters, set_element_model, set_component_position, set_parameter, get_component_value, add_instruction, remove_instruction, remove_Xinstruction, remove_component, save_netlist, reset_netlist",
  "spicelib/editor/base_schematic.py: scale, get_component")
p("C107",
  "Editing sessions on QSPICE schematics",
  "After any sequence of calls on a QSPICE schematic (setting component values, moving and mirroring components, removing components, setting parameters, adding and removing instructions, saving and opening again), the saved file can be opened, and shows: every component with the last value and the last position and orientation given to it, otherwise those it had; exactly the components that were not removed, in order; every parameter with the last value given to it, under any letter case; wires, nets, drawings and comments as they were; of each component nothing else changed; at most one analysis command if there was at most one. A call raises exactly when it is about a component the editor does not know, or adds an instruction that is blank or starts with .PARAM.",
  "every sheet whose texts and components have the form QSPICE writes, every finite sequence of calls with plain texts as arguments, including saving and reopening at any point",
  "The state is a tree of tags edited in place and re-parsed from text; a test follows one script, the property is about all of them.",
  "spicelib/editor/qsch_editor.py: QschEditor.set_component_value, set_element_model, set_component_position, set_parameter, add_instruction, remove_instruction, remove_Xinstruction, remove_component, save_as, reset_netlist",
  "spicelib/editor/qsch_editor.py: QschTag.parse, out, set_attr, get_attr, QschSymbol, QschComponent")
p("C108",
  "Component parameters in editing sessions on LTspice schematics",
  "In an editing session on an LTspice schematic in which set_component_parameters is mixed in any way with the other calls (values, models, positions, parameters, instructions, removals, scaling, saving and opening again), the file saved at the end shows for every parameter of a component the value it was given last, the one it had when it was never set, and none when it was removed last; the SpiceLine of a component is then still a text that the file can hold. Everything else in the file is what the other calls make of it: other attributes, symbols, positions, which components there are, the .param parameters, the texts and the drawing. Legal settings are accepted.",
  "every schematic that can be saved, every sequence of calls, every component, name and value, every reading of values as numbers that is stable under writing them again",
  "It is about histories of calls: parameters are kept as a text that each call reads, changes and writes again, and that goes through files in between.",
  "spicelib/editor/asc_editor.py: AscComponent.get_parameters, set_parameters, AscEditor.set_component_parameters, get_component_parameters, save_netlist, reset_netlist",
  "spicelib/editor/base_schematic.py: BaseSchematic.get_component, scale")
p("C109",
  "Component parameters in editing sessions on QSPICE schematics",
  "When set_component_parameters is called in a session of edits on a .qsch sheet, together with any other edits (values, positions, removals, .param values, instructions, saving and reopening), the saved file can be read, and for every component still on the sheet it shows each parameter with the value given last, no parameter that was set to None last, and every other parameter as it was; values, positions, texts, wires, drawings and the list of components are what the other calls make of them.",
  "all sheets that can be saved, all components whose texts hold name=value pairs, all finite sequences of legal calls",
  "a test runs a few sequences of edits; the claim is about every sequence, in which a new text, a changed text and a removed text interact with every other edit and with writing and reading the file",
  "spicelib/editor/qsch_editor.py: QschCircuitComponent.get_parameters, set_parameters, set_value, set_model; QschEditor.set_component_parameters, get_component_parameters, save_as, _parse_qsch_stream")
p("C110",
  "The netlist files of a program's runs, and of worst-case, sensitivity and Monte-Carlo analyses",
  "In any program that edits a netlist (values, parameters, components and instructions added and removed, undoing, saving and reopening), resets it and runs it, in any order, the netlist file of each run is a snapshot: opened again, it shows the netlist as edited before that run, whatever is done later. For n elements under analysis, run_analysis of the worst case leaves the file of the nominal run and 2^n more; the file of run r says the value on for element i when bit i of r is set and the value off when it is not, `run` is r, the instructions are those of the nominal netlist, and everything else is as in the netlist with the recorded instructions played. The quick sensitivity leaves n+1 files; in the one of run r element r is at on, the elements before it at off, and those after it untouched. In a Monte-Carlo analysis the file of run k says what was drawn for run k, and nothing of earlier runs is left.",
  "all well-formed netlists, all finite programs of legal changes, runs and resets; all lists of elements with names of their own, all values, all numbers of runs",
  "a test runs one analysis of a few elements; the claim relates what hundreds of incremental updates leave in each file to the bits of its number, for every number of elements and every netlist",
  "spicelib/sim/sim_runner.py: SimRunner._prepare_sim, run",
  "spicelib/editor/spice_editor.py: SpiceEditor.reset_netlist, save_netlist",
  "spicelib/sim/tookit/worst_case.py: WorstCaseAnalysis.run_analysis",
  "spicelib/sim/tookit/quick_sensitivity_analysis.py: QuickSensitivityAnalysis.run_analysis",
  "spicelib/sim/tookit/montecarlo.py: Montecarlo.run_analysis")
p("C111",
  "The fast worst-case analysis on the netlist",
  "If the measurement of a simulation depends only on what its netlist file says, the fast worst-case analysis on an editor returns what the algorithm returns on the function from configurations to measurements: every netlist it simulates is the netlist with the recorded instructions with the elements at the levels of a configuration and everything else untouched; the maximum and minimum returned are the measurements of the configurations returned with them, and changing one element in them does not improve on them; it raises exactly when the algorithm does; and in the end the editor shows the netlist with the recorded instructions.",
  "all well-formed netlists, all recorded instructions, all lists of elements with names of their own, all measurement functions",
  "a test runs one circuit; the claim is that hundreds of incremental updates of the editor, steered by the measurements, always bring the netlist to the configuration the algorithm believes it is measuring",
  "spicelib/sim/tookit/fast_worst_case.py: FastWorstCaseAnalysis.run_analysis",
  "spicelib/editor/spice_editor.py: SpiceEditor.set_component_value, set_parameter, reset_netlist, save_netlist",
  "spicelib/sim/sim_runner.py: SimRunner._prepare_sim, run")
p("C112",
  "The netlist of an edited QSPICE schematic has the new values",
  "After any session of calls on a QSPICE schematic (set_component_value, set_component_position, set_parameter, add_instruction, remove_instruction, remove_Xinstruction, remove_component, save and open again), in any order, the saved file can be read, and the component that is still on the sheet says in it what it said before - its type, its parameters, its library - with the value of the last call about it. So the line for it in the netlist that is written from that file is its reference, its nets in the order of the pins, that value and its parameters. A component the session took off the sheet is not in the file at all, and the instructions in the netlist are those that the calls, one after the other, make of the texts of the sheet, in their order.",
  "all sheets that can be saved and opened, all sequences of accepted calls with arguments a file can hold, all references, all devices of ordinary types, all nets",
  "It joins the edit, the file format, the reader and the netlist writer for sequences of calls of every length; a test edits one part of one sheet and usually looks at the sheet, not at the netlist.",
  "spicelib/editor/qsch_editor.py: QschEditor.set_component_value, set_parameter, add_instruction, save_as, save_netlist",
  "spicelib/editor/qsch_editor.py: QschComponent, QschTag")
p("C113",
  "The netlist of a QSPICE schematic has the component parameters that were set",
  "After any session on a QSPICE schematic that also sets and removes parameters of components (set_component_parameters, together with values, positions, removals, .param values, instructions, saving and reopening), the line of a component in the netlist written from the saved file is its reference, its nets in the order of the pins, the value given last, and parameter words that come from texts whose pairs are exactly these: every parameter with the value given last, none that was removed last, and those no call named as they were. Type and library stay.",
  "all sheets that can be saved and opened, all sequences of legal calls, all components of ordinary types whose texts hold pairs, all nets",
  "Edits, file format, reader and netlist writer act together, for sequences of calls of every length, on parameters that share texts.",
  "spicelib/editor/qsch_editor.py: QschEditor.set_component_parameters, set_component_value, save_as, save_netlist",
  "spicelib/editor/qsch_editor.py: QschComponent.set_parameters, get_parameters, QschTag")
with open(os.path.join(os.path.dirname(__file__), "..", "properties.jsonl"), "w") as f:
    for x in P: f.write(json.dumps(x, ensure_ascii=False) + "\n")
print(len(P))

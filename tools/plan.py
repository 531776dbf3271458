PLAN = {
'C01': ('iterator object over ℚ, `next` with explicit state; run with fuel', 'closed form of n-th `next`, count via floor'),
'C02': ('`sweep_n` constructor on top of C01', 'instance of C01'),
'C03': ('geometric iterator', 'closed form; termination via Archimedean property of powers; partial: start=0 loops, start=stop yields nothing'),
'C04': ('iterator counting elements', 'induction'),
'C05': ('odometer of `run_all` with iterator states and a stop flag, fuel/termination proved', 'refinement to the Cartesian product list'),
'C06': ('product of lengths skipping zeros', 'equality under non-empty sweeps (partial) + witness'),
'C07': ('list of records', 'refinement to an ordered map, induction over op list'),
'C08': ('run counter + name function over `List Char`', 'injectivity of decimal rendering'),
'C09': ('SimRunner state machine, interleaving semantics', 'inductive invariants over op lists'),
'C10': ('SimRunner state machine, interleaving semantics', 'inductive invariants over op lists'),
'C11': ('SimRunner state machine, interleaving semantics', 'inductive invariants over op lists'),
'C12': ('records + conditions', 'iff with ∀/∃ spec'),
'C13': ('RunTask.run with oracle outcome', 'case analysis over the full outcome type'),
'C14': ('XOR-driven incremental update loop', 'invariant: netlist state = bits of run number'),
'C15': ('arithmetic formula of `binary`', '`Nat.testBit`'),
'C16': ('index computation of pairs', 'bit arithmetic'),
'C17': ('incremental loop', 'invariant'),
'C18': ('loop over ranges', 'concatenation of ranges = whole range'),
'C19': ('instruction list + pointer/flag', 'invariant over histories'),
'C20': ('map of columns', 'fold'),
'C21': ('table filter', 'characterisation'),
'C22': ('character scanner', 'induction over input'),
'C23': ('offsets computed from axis data', 'concat of slices'),
'C24': ('byte-level encoder/decoder with abstract sample codecs of fixed widths', 'round trip, for arbitrary trace subset'),
'C25': ('byte-level encoder/decoder with abstract sample codecs of fixed widths', 'round trip, for arbitrary trace subset'),
'C26': ('search + interpolation over ℚ', 'algebra'),
'C27': ('formula in `get_len`', 'witness of failure + partial'),
'C28': ('netlist as list of lines with decoded commands', 'invariants over op lists; witness for C30'),
'C29': ('netlist as list of lines with decoded commands', 'invariants over op lists; witness for C30'),
'C30': ('netlist as list of lines with decoded commands', 'invariants over op lists; witness for C30'),
'C31': ('character state machine', 'losslessness by induction'),
'C32': ('recursive-descent loader and writer', 'round trip on trees'),
'C33': ('circuit as list of items', 'read-your-write, frame'),
'C34': ('circuits with instances, copy-on-write clones', 'isolation invariant over op lists'),
'C35': ('circuit as list of items', 'read-your-write, frame'),
'C36': ('character tokenizer', 'round trip'),
'C37': ('character level parser / printer', 'parse∘print by mutual induction'),
'C38': ('character level parser / printer', 'parse∘print by mutual induction'),
'C39': ('decimal mantissa/exponent model of `format_eng`, `scan_eng`', 'arithmetic; witness for `1meg`'),
'C40': ('decimal mantissa/exponent model of `format_eng`, `scan_eng`', 'arithmetic; witness for `1meg`'),
'C41': ('server state machine with sessions', 'invariants; witnesses'),
'C42': ('server state machine with sessions', 'invariants; witnesses'),
'C43': ('search over candidates with abstract decoders/containers', 'first-match characterisation'),
'C44': ('search over candidates with abstract decoders/containers', 'first-match characterisation'),
'C45': ('ℚ geometry', 'iff convex combination'),
'C46': ('enums', 'finite total case analysis (complete table)'),
'C47': ('directive list', 'invariant'),
'C48': ('line-level state machines', 'induction'),
'C49': ('line-level state machines', 'induction'),
'C50': ('greedy loop with measurement oracle', 'invariant; witness for the swapped results'),
'C51': ('the percentages of quick and worst-case sensitivity over ℚ', 'algebra; division by zero as a witness'),
'C52': ('averages, extremes and deviations of measurement columns', 'algebra over ℚ'),
'C53': ('columns split by shape, rows written in step order', 'columns and rows have equal lengths for every table'),
'C54': ('the measurement tables of a log, line by line', 'induction over lines: what is stored are the cells of the table'),
'C55': ('add and remove of components in netlists', 'read-your-write and frame over all edit lists'),
'C56': ('parameters of component lines', 'read-your-write and frame over all edit lists'),
'C58': ('the .asc reader and writer on text', 'reading what was written gives the schematic, by induction over records'),
'C59': ('translate and scale of every coordinate', 'each coordinate transformed once; connections preserved'),
'C60': ('parameters inside schematic directives', 'refinement to a dictionary'),
'C61': ('interleaving of the threads of a runner at the granularity of single reads and writes', 'inductive invariants over all schedules'),
'C62': ('parameters inside .PARAM lines of netlists', 'refinement to a dictionary; regular expression executed symbolically'),
'C63': ('component regular expressions run by a backtracking matcher', 'matcher proved equal to the grammar of component lines'),
'C64': ('export of LTspice data', 'column by column comparison with the file'),
'C65': ('attributes of .asc components', 'refinement to a dictionary'),
'C66': ('components of .qsch trees', 'tree lemmas, read-your-write and frame'),
'C67': ('instructions of .qsch trees', 'list refinement'),
'C68': ('pin positions under rotation and mirroring, nets by position', 'geometry over ℤ with complete case tables'),
'C69': ('netlists written from .qsch trees', 'line grammar and connection by connection equality'),
'C70': ('expressions written into a Monte-Carlo testbench', 'meaning of the expressions compared with the declared tolerance'),
'C71': ('draws of one Monte-Carlo run', 'each value a function of fresh random numbers only'),
'C72': ('step lines of logs, steps of RAW files, selection of steps', 'parse of print, filters characterised'),
'C73': ('ASCII RAW bodies', 'reading what the layout says, for all numbers of points and traces'),
'C74': ('command lines of the simulators', 'argument lists compared with the documented options, path functions on text'),
'C75': ('operating point tables in logs', 'cell by cell equality for any number of columns and blocks'),
'C76': ('whole LTspice logs', 'simulation of the reader by a grammar of logs'),
'C77': ('QSPICE logs and .meas files', 'grammar of files; execution of the regular expressions'),
'C78': ('.asy files', 'grammar of symbol files'),
'C79': ('conversion of .asc to .qsch', 'each element converted once, coordinates nearest'),
'C80': ('search for the definition of a sub-circuit', 'first match in a stated order'),
'C81': ('merge of RAW writers with different time axes', 'interpolation on the union of the axes'),
'C82': ('arguments bound to callback parameters', 'Python call semantics; each parameter gets the argument meant'),
'C83': ('the loop waiting for simulations, with a clock', 'all schedules: returns iff done or timed out'),
'C84': ('names of files of runs, placement and cleanup', 'session invariants over all operation lists'),
'C85': ('rewriting of alias formulas and eval', 'text rewriting proved equal to rewriting of expressions; parser run on the tokens'),
}
PLAN['C86'] = ('definitions as lists of elements; the expression for .SUBCKT lines run by the matcher, the splice on text', 'position of the name computed from the run of the matcher; words after the name preserved; induction over the elements')
PLAN['C87'] = ('Model/Control.lean: the three methods over the elements of Model/Netlist and the loader of Model/NetTree; Spec/Control.lean: the sections of a file of blocks', 'induction over the elements with the position of the k-th section; C32_load gives the elements of a loaded file')
PLAN['C88'] = ('Model/LibPath.lean: class variables with the method resolution order, the searches over Model/Search, events; Spec/LibPath.lean: first offer, what a comment says', 'characterisation of the search by induction over the containers, case analysis for the program, invariant of the cache over every history')
PLAN['C89'] = ('Model/SimExe.lean: path normalisation, shell words, the class table, wine translation; Spec/SimExe.lean: how a command may be written, where a directory is under wine', 'induction over the grammar of commands and over the list of default directories')
PLAN['C90'] = ('The second half of LTSpiceLogReader.export_data, character by character', 'The text is cut back into rows and cells and compared with a table given by a specification; permutation argument for one row per analysis')
PLAN['C91'] = ('read_logfiles, add_log, clear_simulation_data, analyse_measurement, get_min_max_measure_value as a state machine over histories', 'Fold invariants for the merge, induction over histories for what is kept')
PLAN['C92'] = ('float_unit objects in a heap: creation, clean, unit setter, text, arithmetic, comparison, to_float', 'Induction over histories; the round trip uses C39 and C40')
PLAN['C93'] = ('export_step_info and the csv writer with QUOTE_NONNUMERIC, character by character', 'A CSV reader as specification; induction over characters, fields and rows; insertion sort')
PLAN['C94'] = ('sim_runner.py 803-845 on top of Model/RawMerge and Model/Updates: choice of the runs, loop with run-number tags, skipping of runs without a RAW file, save.', 'Induction over the runs, building a Session of C81 whose invariant gives the curves; number of points never falls below one when the runs have enough points; induction for equal axes; refusal by induction over the runs.')
PLAN['C95'] = ('get_all_nodes over the elements of a netlist with the regular expressions of Model/CompLine, and the iteration of a circuit', 'fold invariant of the list of distinct members; lines are read back by the theorems of C63/C64; mutual induction over nested circuits for the iteration')
PLAN['C96'] = ('the script from parsed options to exit code, messages and output, on top of the export of Model/RawSteps', 'case analysis of the three names; the table is that of C72')
PLAN['C97'] = ('_get_symbol, _get_subcircuit and the recursion of opening schematics over an abstract file system, with the search of Model/LibPath, the symbols of Model/Asy and the libraries of Model/SubFind', 'induction over the written name; induction over the recursion limit, transitive closure of the containment relation for cycles')
PLAN['C98'] = ('the regular expression of LTComplex on the backtracking matcher, the value as a complex number of Mathlib, try_convert_value', 'characterisation of the lazy expression in both directions; arg and norm of complex numbers from Mathlib')
PLAN['C99'] = ('the dictionary of sim_info and the text of a duration (exact rationals)', 'induction over the completed runs with lemmas on insertion into a dictionary; floor arithmetic and injectivity of zero-filled decimal notation')
PLAN['C100'] = ('the loop of run with its clock, on the jobs of C83 and the runner of C08-C11', 'induction over the turns with the set of simulations not yet ended as invariant; the reachable-state invariant of C09 for run_now')
PLAN['C101'] = ('the folder as a map from names to contents, sessions, runs, entries of completed_tasks; extraction, copy, simulation, end, packing, fetching, closing, stopping', 'invariants over histories (who started which run, entries name only files of their run, reasons for files), with the disjointness of run file names of C84')
PLAN['C102'] = ('Model/NewComp.lean: the constructor over keyword arguments and the loop of write_lines over the output, count and line_size; reading is Model/Lines and Model/CompLine. Spec/NewComp.lean: folded text, the line with single spaces.', 'Induction over the parameters from the end with an invariant on the groups written so far; the continuation lines are joined with C31_continuation, the logical line is read with C63_read.')
PLAN['C103'] = ('Model/EditSave: netlists as elements (components with their attributes, everything else through Model.NetTree), set and get by the first matching reference, set_parameter and get_parameter by the first definition (the new line before the last element), save, open, and runs of these operations', 'Relation between the parts of the specified netlist and the elements, kept by set (by induction over the list), by save (C63 grammar and rewrite lemmas, C32 blocks) and by open (C31 lines, C32 load); induction over the operations')
PLAN['C104'] = ('Model/SweepFiles: the loop of Model.Stepper with the elements of Model.EditSave, the run number and the folder; sessions of sets, runs and reopens', 'Invariant over the passes of the loop (elements related to the specified parts, files in launch order), simulation of Model.Stepper, C05_launch_values for the order; induction from the end over the actions; run names are distinct because decimal numbers are')
PLAN['C105'] = ('a session as a list of calls on the list of elements of the editor (Model/Session.lean on top of EditSave, Netlist, CompLine, NetTree)', 'a relation between parts of the text and elements is kept by every call (step_rel), by induction on the session; the searches (findUnique, findText, findBackanno, index of a component) are shown to find the same position in the list of parts')
PLAN['C106'] = ('Model/AscSession.lean: the calls as steps on the sheet of Model.Asc, built on Model.AscInstr and Model.ParamRegex; saving and reading are Model.Asc', 'each step keeps the sheet well formed (the write/read theorem C58 applies at the end) and changes exactly what Spec/AscSession.lean says; induction over the calls')
PLAN['C107'] = ('the tags of the sheet and every editing call on them, token by token; the file as the text of the tree', 'each call rewrites one text tag, or one component, or takes tags out (TextEffect, CompEffect); invariants by induction on the list of calls, and the round trip of C37 for the file')
PLAN['C108'] = ('set_component_parameters with any keywords on the components of a sheet (Model/AscParts: the attributes as the dictionary of Model/SchComp, and back), mixed with the calls of Model/AscSession; get_component_parameters as read from the sheet.', 'Invariant over the session: the sheet can be saved, its parameter texts are in the grammar, and each component in R has the lines of pairs computed by the specification of C65; one step for each kind of call; then the written file is read (C58).')
PLAN['C109'] = ('set_parameters and get_parameters on the tree of tags of the file (Model.QParts), with the other calls of Model.QSession', 'invariant over the session: every component considered has a symbol whose texts hold pairs (Good); one setting keeps it and changes one pair (edit_symbol), the other calls keep it; the file is read back with C37')
PLAN['C110'] = ('the operations of the editor (Model.Session), reset, run and the three analyses as programs of them, on elements given by kind, name and two texts', 'C110_snapshot: invariant (editor is the edited netlist, file is the base netlist) over the program, then the saved files are read back; the analyses are shown to be such programs, the value of element i after the runs up to r is computed by induction over the passes with bits of r xor last')
PLAN['C111'] = ('the program of run_analysis on the state of Model.RunSnap, with set, run, measure and the three loops', "invariant Good: the editor's netlist is the one with the recorded instructions at the levels of the configuration; each loop is shown to follow the loop of Model.FastWorst by induction")
PLAN['C112'] = ('The models of C107 (Model.QSession) and C69 (Model.QNetlist), unchanged: Props/QLine joins them.', 'The frame theorem of C107 says that only the second text of the symbol, position and orientation differ; from this the relation Draws of C69 is carried from the old tag to the new one, then C69_device gives the line.')
PLAN['C113'] = ('The models of C109 (Model.QParts) and C69 (Model.QNetlist), unchanged: Props/QPartsLine joins them.', "Induction on the session: a call leaves the symbol's own words and its tags other than texts (step_bones); with the pairs of C109 the relation Draws of C69 is carried to the tag at the end; C69_device gives the line.")

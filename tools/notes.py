NOTES = {
'C01': ('proved', 'Exact rational arithmetic (floats as Q).'),
'C02': ('proved', 'Exact rational arithmetic; the N=0 case is a documented disagreement (two points are produced) proved as a witness.'),
'C03': ('partial', 'Grid exact for 0<start; missing: start==stop yields nothing and a non-positive start never ends (both proved as counter-examples of the unchanged code).'),
'C04': ('proved', 'The ratio r is any rational whose (N-1)-th power is stop/start (the code computes a float root).'),
'C05': ('partial', 'Holds for re-iterable unshared sweeps; shared sweep objects and generators are proved counter-examples.'),
'C06': ('partial', 'Holds when no sweep is empty; counter-example proved for an empty sweep.'),
}
NOTES.update({
'C07': ('partial', 'Journal is an ordered last-write-wins map for every edit sequence; value(ref) exact; parameter(name) is stale on the unchanged code when a parameter was added and later updated (proved witness), exact otherwise.'),
'C08': ('partial', 'Run numbers fresh in every schedule; default file (and log) names distinct unless a circuit name ends in a dot (proved collision). File system itself not modelled.'),
'C09': ('partial', 'Placement and count hold in every schedule; the ok/fail classification and wait_completion hold unless run_now gives up on a running simulation (proved witness).'),
'C10': ('proved', 'Full for clients that only use run (C10_run_only); with run_now: all schedules of the single-client state machine in which run_now does not give up on a running task.'),
'C11': ('partial', 'Full for clients that only use run (C11_run_only); with run_now: all schedules of the single-client state machine in which run_now does not give up on a running task; conditions as an arbitrary predicate (C12 describes the actual one).'),
'C12': ('proved', ''),
'C13': ('partial', 'All simulator outcomes; wait_results additionally never returns for return code -1 (proved).'),
})
NOTES.update({
'C14': ('partial', 'Every corner exactly once for up to 11 elements, all values; assumes the values in memory are those of the replayed netlist when the analysis starts: proved counter-examples for a recorded value change and for a second analysis. From 12 elements nothing is simulated (proved).'),
'C15': ('proved', 'Selector, nominal run -1, corners of the emitted expressions, mirror with the analysis numbering. Expressions given their arithmetic meaning; %g formatting not modelled.'),
'C16': ('proved', ''),
'C17': ('partial', 'As C14: assumes the values in memory are those of the replayed netlist when the analysis starts.'),
'C18': ('proved', 'Partition, order, no orphan; also shown: batches can exceed runs_per_sim.'),
'C19': ('partial', 'run_analysis always replays everything once in order; a command recorded after a save is not in the next save, and an unprepared testbench never gets the component expressions (both proved about the unchanged code).'),
'C20': ('partial', 'For separately read logs (what read_logfiles does); adding the same log object repeatedly is a proved counter-example.'),
'C50': ('partial', 'Reported extremes are local optima reached at the reported setting, always terminates (or raises TypeError when the guess is wrong); exact global extremes proved for strictly monotonic responses; non monotonic counter-examples proved.'),
'C51': ('partial', 'Quick method in full; the worst-case method raises ZeroDivisionError when no measurement differs (proved).'),
})
NOTES.update({
'C21': ('proved', 'Letter case modelled for ASCII. Without any condition the call returns None (proved).'),
'C22': ('proved', 'The accepted lines are exactly those of a grammar with nesting; the property as first stated is corrected: an unmatched closing bracket does not raise, text directly before a bracket does (proved).'),
'C48': ('partial', 'Rows and tags in full; titles only for files with a step header (a file without one gets none, proved). The regular expression recognising step headers is not modelled.'),
'C49': ('proved', 'Lines at character level. Steps handed in by the caller are miscounted (proved).'),
'C52': ('proved', 'Exact rational arithmetic.'),
'C53': ('partial', 'For columns of equal length whose entries all have the same shape; an empty list as first entry shifts the columns (proved).'),
'C54': ('partial', 'For columns with distinct names; with equal names the last table wins (proved).'),
})
NOTES.update({
'C23': ('proved', 'Axis data with the step starts found by the code; unstepped data too.'),
'C24': ('partial', 'Bytes level, both encodings and layouts, several plots in one file. Conditions Compatible: the pair (data kind, layout) is one the header can express; proved counter-examples for complex fast access with mixed widths, single precision axis, and AC data without a plot name. Sample words are opaque (numpy packing not modelled).'),
'C25': ('partial', 'All subsets, both layouts. Reading the axis a second time replaces the Axis object, after which get_axis fails (proved).'),
'C26': ('proved', 'Exact rational arithmetic, strictly increasing axis.'),
'C27': ('partial', 'Proved for the axis; for traces only step 0: get_len(step) of a trace counts all points up to the end of that step (proved).'),
})
NOTES.update({
'C28': ('proved', 'Histories of add/remove/removeX of any length. Findings (proved): an instruction given with a leading line break escapes the rule; objects without text make add_instruction raise. upper() is modelled for ASCII and the letters of the prefix table.'),
'C29': ('partial', 'Holds for directives, component lines and includes; comments cannot be removed again and .control sections break the editor (both proved).'),
'C30': ('partial', 'The partial theorems state exactly when the added line precedes .END; the other cases are proved counter-examples (lines after .END, tiny and blank netlists).'),
})
NOTES.update({
'C31': ('partial', 'The equations determine the result for every text without carriage returns. Not true of the code: unclosed brackets or quotes do not raise (C31_last_line_partial holds for them too), and joined words are fused (proved).'),
})
NOTES.update({
'C32': ('proved', 'Any nesting depth of blocks and of includes. The text written for an untouched component comes from the real matcher and rewriter (Model.CompLine). Finding and decoding a library is a parameter. Limits in the statement are theorems: C32_unterminated_include_dropped, C32_endmachine_truncates, C32_include_with_end, C32_failed_save_truncates, C32_quoted_name.'),
})
NOTES.update({
'C33': ('proved', 'For set_component_value / get_component_value with textual values. A line no pattern matches makes every later reference unreachable (C33_unparsable_blocks), such references count as missing. Formatting of numeric values and library files are not modelled.'),
'C34': ('proved', 'Any hierarchy depth and any history of get/set_component_value. What is seen is defined by an independent reading of the hierarchy (Spec/Hier.lean). An instance given a value itself drops its private copy; a sub-circuit whose name reads as a number cannot be entered (proved).'),
'C35': ('partial', 'Values only so far.'),
})
NOTES.update({
'C35': ('partial', 'set_component_value (hierarchical too), set_element_model, set_component_parameters, add/remove_component, add/remove/removeX instruction all refuse. Not true of component["value"]=, clear_parameters, the reference setter, add_instruction of a sub-circuit, and components added without a netlist (all proved). Schematic editors not covered.'),
'C55': ('partial', 'Top circuit. Not true: an existing reference is not replaced but duplicated, and the first one stays addressed (proved).'),
'C56': ('proved', 'Components of the top circuit; values as text. clear_parameters writes name=None instead of deleting (proved).'),
})
NOTES.update({
'C36': ('partial', 'For every list in a grammar with quotes and braces (any blanks); writing then reading gives the same dictionary. Not true of parentheses, nested braces, a blank before a comma, flags (noiseless) and types (all proved). Conversion of tokens to numbers and back is not modelled.'),
})
NOTES.update({
'C37': ('partial', 'Any depth, any tokens, any following text; load-save-load for every file that can be read and whose free texts stand in `label: text` tags. Not true of the code otherwise (proved): a text containing a colon and a blank is torn apart, two of them make the file unreadable. Line breaks, encoding cp1252 and the recursion limit of Python are not modelled.'),
'C38': ('partial', 'All integers, pairs and texts not starting with 0x; float reading not modelled. set_position with an ERotation raises after having moved the component (proved); texts with quotes make the saved file unreadable (proved).'),
})

NOTES.update({
"C46": ("proved", "Both directions for every alignment word (any letter case, vertical or not), refusal of all other words, rotation names as a bijection. Limit: corner alignments have no word (C46_corner)."),
"C47": ("proved", "Replacement in place of the first analysis command, additions at the end, exact removals, at most one command and untouched comments over every sequence of edits, position of new texts, and saving afterwards. Limits as theorems: only the first command of a multi-line directive is seen, an empty directive makes additions raise, a newline in an instruction makes the file unreadable. The permission flag is not checked by AscEditor's instruction methods."),
"C58": ("partial", "Round trip for every well formed schematic, for everything a file can load to (named components), and fixed point of saving. Missing: ports (IOPIN) are not saved (C58_ports_lost), vertical TEXT lines become horizontal, nameless symbols and empty values give unreadable files."),
})

NOTES.update({
"C41": ("proved", "Every sequence of requests of any number of sessions and endings of runs; requests atomic (one XML-RPC request at a time), session ids distinct. Limit as theorem: a run ending after its session was closed stays on the server for ever."),
"C42": ("partial", "Every interleaving with other clients and run endings. Delivery, order and stopping hold when every returned run was fetched with a file before next is called again (the documented loop). Not true otherwise (proved): KeyError after a run without file or not fetched; a run answered with -1 keeps the iterator from ever stopping."),
"C43": ("partial", "Decoding is a parameter (any function). Missing: a file of one character raises IndexError instead (proved)."),
"C44": ("proved", "Any list of containers and directory trees; nearest level first. Limit as theorem: inside a zip file only the top is searched."),
"C45": ("partial", "Exact for horizontal and vertical lines under any rounding, and for all lines in exact arithmetic; with binary64 an oblique line need not touch its own end, and crossing wires do not intercept (both proved)."),
"C59": ("partial", "Every schematic built from the file without IOPIN (objects held once); with an IOPIN the shared label point is scaled twice (proved)."),
})

NOTES.update({
"C39": ("partial", "Every rational, any unit text, any computed logarithm that is off by little (Near; the exact one is proved to be); error at most half a unit in the sixth digit, exact for numbers of at most six digits. Floating point products are exact in the model. Not true for the units K and % (proved)."),
"C40": ("partial", "Every sign, digit string, blank, suffix and unit. Not true of meg in lower case, read as milli (proved for every number). f is femto only in lower case, m and M differ, as documented in the code."),
})

NOTES.update({
"C61": ("partial", "Every schedule of any number of threads: nothing lost or reported twice. Not true of the unlocked code (proved): a running simulation is reported as completed and failed, one run is counted twice, the housekeeping thread dies of IndexError and nothing is handed over any more; a lock around update_completed alone does not help. With a lock around launching too the full property holds (C61_locked)."),
})

NOTES.update({
"C60": ("partial", "Every directive of a grammar (any spacing, numbers with units, braces, quotes), every sequence of calls. Not true of the code otherwise (proved): a first name starting with E or a digit is never found and is added again on every call, expressions without braces are replaced in part, definitions in comments count, a QSPICE directive without the qualifier is overwritten at the wrong place. ASCII word characters."),
})

NOTES.update({
"C62": ("partial", "Every netlist whose .param lines are in the grammar of C60, any history of sets; removal when the name occurs nowhere else on its line. Not true of the code otherwise (proved): removing a missing parameter adds it as None, removing B cuts AB, a unit letter is taken for the name, removing the first parameter can hide the next, an empty value adds an empty line, a control section added by an instruction makes the list of names raise. Included files at any depth."),
})

NOTES.update({
"C63": ("partial", "Proved for R, C, L, V, I, D, J, U, Z, O, Oe, the yen/euro/pound elements, M, Q, Y, N, P and X: the backtracking matcher finds exactly the pieces of every line of the grammar (unbounded numbers of parameters, any lengths), and rewriting gives exactly the line with the new value and parameters, which is read back as set. Real limits, each with a witness: a value in braces swallows later braces, lower case letters are refused, a tab or `C=` before the value lets a rewrite cut the value, the last parameter cannot be removed, an expression over two lines cannot be saved, renaming a marked component and setting its value leaves a piece of the old value, and blanks between nodes are normalised. Also proved for E, F, G, H, S, W, A (value: everything after the nodes) and K (a number). Limits as theorems: their parameters are silently lost, a comment is part of the value, blanks at the end are removed, a coupling given as an expression is refused. For X a comment directly after a parameter becomes part of it (witness). Not covered: B, T, and the elements @, Ã, Ø, ×. C32's saved line of an unchanged component is this line."),
})

NOTES.update({
"C48": ("proved", "Characters in, characters out: the regular expression is run by the backtracking matcher of Model.Regex. \\w is any class containing the ASCII word characters; \\d is ASCII. Decoding and newline translation are outside."),
"C64": ("proved", "Same text level as C48; try_convert_value is any function."),
})

NOTES.update({
"C65": ("proved", "Values are text; try_convert_value is any pair of functions (value of a text, text of a value) that agree on the values considered (structure Texts). Hierarchical references ('X1:R1') are not part of it."),
})

NOTES.update({
'C35': ('proved', 'Every editing call of the three editors that was modelled: either it raises without a change, or it is listed among the limits with a witness. Not modelled: set_component_position, add_component of schematics and scale, which do not ask for permission either.'),
'C66': ('proved', 'One keyword argument per call of set_component_parameters; values as text; components of the sheet itself. The new text goes through the model of the tag parser (C37). Positions of new texts are arbitrary. Numeric keys cannot be given through keyword arguments and are not modelled.'),
'C67': ('proved', 'The texts of the sheet with their comment flag. Regular expressions of remove_Xinstruction are any predicate. Where the new text is put is arbitrary.'),
})
NOTES.update({
"C68": ("proved", "Every sheet, any components in file order. Positions: real numbers with any error up to 9 units per product, pins on the grid and at most 200000 units away. Limits proved as witnesses: a floating pin takes the name of a label, a wire passing through a pin does not count."),
"C69": ("proved", "Every schematic; nets, references and types are words without blanks. Simplified: a failed write keeps nothing, one library search for all schematics, the pin names of a block are read at every use, not only at the first. Limits proved as theorems or witnesses."),
    "C70": ("proved", "The .func lines are parsed and evaluated by an independent expression semantics (Spec/SpiceExpr); numbers are exact rationals and a tolerance's %g text is assumed to read back as the tolerance."),
    "C71": ("proved", "Random numbers are parameters: u in [0,1] for uniform, any g for gauss; %g rounding is not modelled."),
    "C72": ("proved", "Conversion of a parameter text to a number and the printing of a value in the CSV are parameters. Limits are witness theorems."),
    "C73": ("proved", "float() is a parameter (a partial function on texts that ignores blanks in front). utf_8 files without aliases; the header is that of C24."),
    "C74": ("proved", "Paths are posix texts; availability of the executable, exe_log and the other arguments of subprocess.run are not modelled."),
    "C75": ("proved", "C75_read is the whole table; samples and limits on concrete logs."),
    "C76": ("proved", "whole-file reader incl. the regular expression of single-line measurements and the Fourier tables; encoding detection is C43; limits as witnesses"),
    "C77": ("proved", "the external QPOST run is not modelled; values are split as in C22"),
    "C78": ("proved", "whole file both ways (read iff every line says something); detection of the encoding is C43; get_value and get_schematic_file are not modelled"),
    "C79": ("proved", "products with 6.25 are exact (coordinates below 2^48); arcs are a parameter; LTspice is taken to mirror after turning; texts without quotes and without a colon followed by a blank (C37), labels not starting with 0x (C38)"),
    "C80": ("proved", "Model/SubFind.lean on top of Model/NetTree and Model/Lines; the order is proved against a flat list of places (sources), the library search against the block structure of Spec/NetBlocks and the line grammar of Spec/SubFind."),
    "C81": ("proved", "Exact rational axis points, samples in a rational vector space; float rounding, complex axes, rename_format and minimum_timestep not modelled. After an exception the file is taken as not used any more."),
    "C82": ("proved", "The binding of arguments by Python is specified in Spec/PyCall (positional-only, plain, starred and keyword-only parameters)."),
    "C83": ("proved", "Limits proved: the timeout is not restarted on a completion (contrary to the docstring), False may be returned although all simulations have succeeded, an earlier failure makes every later answer False, and abort_all_on_timeout kills no process. Each look at the threads is one moment; times are rational numbers."),
    "C84": ("proved", "Limits proved: the raw file of a failed run is left; run_filename='' without output folder runs on, and cleanup deletes, the user's own netlist; a user file called a_1.net beside a.net is overwritten; a run_filename with directories escapes the output folder for files but not for editors; user-given names may clash; a run_now that outlasts its wait is cleaned up while it runs. Simulators are assumed to write only files named <circuit>_<n>.<extension without underscore> beside the netlist."),
    "C85": ("proved", "Text-level: the five substitutions, the tokens and grammar of eval for numbers, names, + - * and parentheses, and the dictionary of names are modelled; numbers are exact. Formulas are fully parenthesised, as QSPICE writes them. Net names are words without a digit before mho/ohm (witness of what happens otherwise in C85_limits)."),
    "C86": ("proved", "Names made of word characters and dots; for other names (e.g. LM741-N from a library) the copy gets an extra port and the instance a name nobody defines, proved in C86_limits."),
    "C87": ("proved", "the added section losing its text is a defect of add_instruction (C29)"),
    "C88": ("proved", "the cache and the first-netlist rule are history effects a user would not expect; C88_limits shows a schematic getting another project's symbol"),
    "C89": ("proved", "create_from mutates and returns the class itself: a second call changes the simulator made by the first"),
    "C90": ("proved", "How numbers are printed is a parameter. Limits shown: analyses made before the first step are left out in a sweep, -1 periods is 'all' in one table and -1 in the other, the title row of the second table has a cell too many without steps."),
    "C91": ("proved", "Columns are values (their sharing is C20); what the readers find in the files is an oracle. Limits shown: no results after a testbench with a callback, a flag that survives the start of the next analysis, numbers that move when a log is missing, IndexError instead of the documented None."),
    "C92": ("proved", "Rational numbers instead of binary floating point; infinities and NaN not modelled. Limits shown: an unknown unit is refused but the text is lost, kelvins, percents, degrees, radians and effective values are not read back, cleaning the result of to_float cleans the argument."),
    "C93": ("proved", "csv.DictWriter is modelled as library code; reading is a specification of its own (a CSV reader). Limits shown: a variable called runno, a delimiter inside numbers, variables that appear later."),
    "C94": ("proved", "Builds on the merge model of C81 (rational samples and axes). First-run traces are copied, not resampled, when the common axis has the same number of points (limit C81_same_length_not_resampled). Limits: one point at the end is lost per further run; with as many further runs as points the later runs are dropped although True is returned."),
    "C95": ("proved", "Limits shown as theorems: controlling nodes of E/F/G/H are missing, the inductors of a coupling are given as nodes, lines that no regular expression matches are silently passed over, node names are compared case-sensitively; `for component in circuit` delivers objects without reference, value or netlist."),
    "C96": ("proved", "Limit, proved as C96_selection_ignored: the traces that were found are never used; whatever is asked for, the whole file is written. Names and endings are case-sensitive; Excel output without pandas is an exception. Command line parsing (optparse), the clipboard and pandas' own formatting are not modelled."),
    "C97": ("proved", "Limits shown: a schematic that contains itself ends with RecursionError for every recursion limit (C97_cycle); attributes of the instance (a SpiceModel given on the component) do not matter, only those of the symbol; three backslashes leave an empty directory; a directory whose name begins with a blank is lost. The Windows branch and the cache of symbol files (C88) are not part of this model."),
    "C98": ("proved", "Limits shown: a magnitude in dB whose phase is not in degrees is silently taken as real and imaginary part; what follows the closing parenthesis is ignored; a blank before the parenthesis makes it a text; a negative magnitude turns the phase. Numbers are exact; inf, nan, underscores and overflow are not modelled."),
    "C99": ("proved", "Limit shown: the milliseconds are printed with four digits, so 1.5 s looks like 1.05 s."),
    "C100": ("proved", "Exact characterisation of start and give-up, termination bound; limits for timeout None proved."),
    "C101": ("proved", "The folder is flat; requests, and the end of a run with the packing and the move to completed_tasks, are atomic; deleting does not fail; simulators write only files named like their circuit. Circuit names ending with a dot are excluded (C101_limit_dot shows why). C101_limit_stop contradicts the comment in ServerSimRunner.run that stopping cleans all files not yet cleaned."),
    "C102": ("proved", "Findings: the number returned leaves out the line breaks of continuation lines (C102_limit_count); a blank line is left when the last parameter ends a line (C102_limit_blank); an attribute model makes the value appear twice (C102_limit_model); a list is written with Python's brackets and cannot be read back (C102_limit_list)."),
    "C103": ("proved", "C103_saved (the saved text), C103_values (what is read, before and after reopening), C103_untouched, C103_limit_blank."),
    "C104": ("proved", "C104_files (run_all), C104_snapshot (any program). The file names are the default ones."),
    "C105": ("proved", "C105_session is the refinement of the whole session to a list of parts (Spec/Session.lean: changed); C105_added, C105_removed, C105_instruct, C105_directives, C105_one_analysis, C105_undo_directive, C105_undo_component and C105_twice are read from it. Instructions that are .PARAM lines, control sections, components or .include lines given to add_instruction are not part of a session here (C28-C30 have them one at a time); directives are one line. C105_limit_duplicate: add_component does not replace a component with the same reference as documented, both lines are saved."),
    "C106": ("proved", "C106_session, C106_value, C106_params, C106_components, C106_frame, C106_one_analysis; C106_files starts from a file; C106_accepted says which calls succeed; C106_texts gives every text of the sheet after the session, C106_drawing the drawing when the sheet is scaled in between. exOps is a session of eleven calls."),
    "C107": ("proved", "Model.QSession, Spec.QSession. C107_session (values, places), C107_params, C107_components, C107_frame (others, comments, rest of each component), C107_one_analysis, C107_accepted, C107_files (from file to file), C107_texts (every text of the sheet), C107_taken_off. Limits shown by a witness: C107_marked_instruction (the mark of an instruction is taken off character by character, so '¿.tran 5m' becomes a second analysis). Applied to a concrete sheet and session: exSheet_ok, exOps_ok, exOps_keeps, exOps_file, exOps_param. The place of a new text is an argument of the call; the value has no quotation mark, no colon followed by a blank and does not start with 0x."),
    "C108": ("proved", "Built on C65 (one component) and C106 (sessions without component parameters). Components whose SpiceLine is replaced as a whole in the session, or is not made of name=value pairs, are outside `R`. Removing the last pair of a line is not legal here: it leaves an empty text (witness in C65). Permission and journal: C65."),
    "C109": ("proved", "Names of parameters are words that do not begin with 0x (C109_hex_name shows what happens otherwise) and do not occur in a value given to the component (C109_in_value); values are numbers with units, braces or quoted texts without quotation marks and without a colon before a blank. One name per call. C109_accepted: such calls are carried out and change only that component. Removal of whole texts, adding before the pins and rewriting in place are all covered by C109_session."),
    "C110": ("proved", "Values are the texts that are written; which elements are collected and their numbers are C14, C17, C71. Elements have names of their own and none is the parameter named run (which the analyses overwrite: C110_run_name_witness). Every set of an element is legal on the netlist of the file (Elements)."),
    "C111": ("proved", "Refinement of C50 (the algorithm on configurations) to the editor and the files: C111_fast_worst_case; C111_extremes transfers what C50 says. Every simulation is assumed to succeed; values are the texts written; the files are not removed at the end; the nominal level of an element is whatever the netlist says. Like in C50 the number of turns of the last loop is given as fuel, without bound."),
    "C112": ("proved", "C112_draws: what the component says in the saved file; C112_line: its line (joins C107 and C69); C112_removed: a removed component; C112_instructions: the instruction lines of the whole netlist are the bare texts that the calls make of the texts at the start (Spec.QSession.TextsRun), in their order. The types with a line of their own kind (C69 special) are covered by C112_draws with the other C69 theorems, Verilog blocks (type Ø) are left out: their name is the value. The nets are any words: how wires give them is C68."),
    "C113": ("proved", "C113_draws: what the component says in the saved file (also types with a line of their own kind, through the other C69 theorems); C113_line: its line. Limits of C109 (names that occur in the value) and C69 apply; Verilog blocks (type Ø) are left out. ex_line and ex_text: a sample session."),
})

# Restated so that the statement covers the whole behaviour (limits included); formerly partial.
for _i in ['C03', 'C05', 'C06', 'C07', 'C08', 'C09', 'C11', 'C13', 'C14', 'C17', 'C19', 'C20', 'C24', 'C25', 'C27', 'C29', 'C30', 'C31', 'C36', 'C37', 'C38', 'C39', 'C40', 'C42', 'C43', 'C45', 'C50', 'C51', 'C53', 'C54', 'C55', 'C58', 'C59', 'C63', 'C60', 'C61', 'C62']:
    NOTES[_i] = ('proved', NOTES[_i][1])

# Formal model of nunobrum/spicelib in Lean 4

This file was begun before the proofs (git history); the tables below are regenerated from the model by `tools/design.py` as it grows.

## Layout
* `lean/Verif/Model/*.lean` – executable, total models of the Python code, function by function; each definition cites the file and lines of `/repo` it models and says where it simplifies.
* `lean/Verif/Spec/*.lean` – small specifications of what the English properties mean (grammars of files, ordered maps, waveforms, Python call rules). They do not use the model's functions; a few take the result types of the model.
* `lean/Verif/Lemmas/*.lean` – helper lemmas.
* `lean/Verif/Props/*.lean` – the property theorems, one family `Cnn_…` per property.
* `seeded/LOG.jsonl` – wrong programs tried against the theorems: the definition edited, the edit, the claim it breaks, the theorems that failed, the theorems tightened.
* `tools/` – generators of properties.jsonl, MANIFEST.json and this file, and the mutation tool.

## Conventions in the theorem names
* `Cnn_…` the property, for all inputs, states and executions it ranges over.
* `Cnn_sample` (or an `example` beside the theorem): a concrete, non-trivial case that meets the hypotheses, evaluated by the kernel.
* `Cnn_limits`, `…_witness`, `…_fails`: concrete inputs on which the unchanged code does *not* do what the English property would say without its conditions. They show the hypotheses of the main theorems are needed; they are facts about the code, not tests.
* `…_partial`: proves part of a claim only.

## Trusted base
* The Lean 4.33.0 kernel. Axioms: at most `propext`, `Classical.choice`, `Quot.sound`, listed per theorem at the end. No axioms of our own, no compiled evaluation (`decide +kernel` is checked by the kernel).
* Mathlib is used as a library of proved lemmas; the kernel checks them too.
* Our reading of the code: the models are written by hand from the Python text; nothing of /repo is executed. The mutation log is our evidence that the theorems depend on the modelled behaviour.
* The specifications in `Spec/` say what we take the English properties to mean.

## What the model idealises
* `int` is `Int` or `Nat`, exact. `float` is `ℚ`, exact: rounding, infinities and NaN are not modelled. Where the code formats or parses floats the texts are modelled and the number they denote is rational.
* Strings are `List Char`. `str.upper/lower/isspace` and the classes of regular expressions are the ASCII ones (plus µ where the code mentions it).
* Regular expressions: `Model/Regex.lean` is a backtracking matcher with groups in Python's order of preference; the expressions of the code are transcribed. In a few places (said there) an expression that can match in one way only is a function.
* Dictionaries are association lists in insertion order. Objects shared by reference are modelled by stores or identifiers where sharing matters (sub-circuit instances, sweeps, runners), by values otherwise.
* Threads are interleavings of atomic steps; the granularity is stated in each model (single reads and writes of shared fields for the runner). A simulator process is an oracle: any outcome, at any time.
* Files are texts or bytes in a finite map from names; permissions, partial writes, and other processes changing files are not modelled. Encodings are parameters with stated round-trip properties.
* Exceptions are values of `Except`/`Option`; their type is kept where a property speaks of it.

## What is not modelled
The XML-RPC transport and sockets, `subprocess` itself, logging, numpy and pandas beyond element-wise arithmetic, plotting, the interactive scripts (histogram, rawplot, run_server), Windows-only path helpers, and the functions in the right column of the table of functions below.

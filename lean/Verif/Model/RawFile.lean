import Verif.Model.PyStr
import Verif.Model.RawClasses
/-
Model of the binary RAW file: what spicelib/raw/raw_write.py writes and what spicelib/raw/plot_data.py and
spicelib/raw/raw_read.py read, byte by byte.

A sample is kept as its bytes: `word`s of 4 (float32), 8 (float64) or 16 (complex128) bytes. Conversion of Python
numbers to and from these bytes is numpy's and is not modelled; nothing here depends on it.

Encodings: utf_16_le is modelled for characters of the basic plane, utf_8 for ASCII (the reader decodes one byte at a
time, plot_data.py 166, so no other character survives in utf_8).

Not modelled here: `.param` and `.alias` lines of QSpice headers, ASCII ("Values:") files, the .log file from which the
number of steps is taken (given as an argument).
-/
namespace Model.RawFile
open Model.PyStr
open Model.RawClasses (setSteps)

abbrev Str := List Char
abbrev Byte := UInt8
abbrev Word := List Byte

/-- Exceptions. -/
inductive Err where
  | value | index | type | spiceRead | assertion | key | runtime
  deriving DecidableEq, Repr

/-- The numerical types 'real', 'double', 'complex' (plot_data.py 20-24; raw_classes.py 50-55) -/
inductive NumType where
  | real | double | complex
  deriving DecidableEq, Repr

/-- np.dtype(...).itemsize of the three types: 'f', 'd', 'complex'. -/
def NumType.width : NumType → Nat
  | .real => 4
  | .double => 8
  | .complex => 16

inductive Enc where
  | utf8 | utf16
  deriving DecidableEq, Repr

/-- str.encode of one character: utf_16_le for the basic plane, utf_8 for ASCII. -/
def encChar : Enc → Char → List Byte
  | .utf8, c => [UInt8.ofNat c.toNat]
  | .utf16, c => [UInt8.ofNat (c.toNat % 256), UInt8.ofNat (c.toNat / 256)]

def encode (e : Enc) (s : Str) : List Byte := s.flatMap (encChar e)

/-- `bytes.decode(errors='replace')` of one code unit. -/
def decUnit (n : Nat) : Char := if n.isValidChar then Char.ofNat n else Char.ofNat 0xFFFD

/-! ### Writer -/

/-- A raw_write.Trace (34-71), with its samples converted to the numerical type. -/
structure Trace where
  name : Str
  whattype : Str
  num : NumType
  data : List Word
  deriving DecidableEq, Repr

/-- The type of the first sample given to Trace(...): isinstance(data[0], (float32, float)), complex, or something else. -/
inductive First where
  | float | complex | other
  deriving DecidableEq, Repr

/-- raw_write.py 47-65: the attributes decided by Trace.__init__: what the trace is and its numerical type.
`none` for numerical_type is the empty string. -/
def traceKind (name whattype : Str) (num : Option NumType) (first : First) : Except Err (Str × NumType) :=
  let w := if name = "time".toList then "time".toList else if name = "frequency".toList then "frequency".toList else whattype
  match num with
  | some n => .ok (w, n)
  | none =>
    if name = "time".toList then .ok (w, .double)
    else if name = "frequency".toList then .error .assertion
    else match first with
      | .float => .ok (w, .real)
      | .complex => .ok (w, .complex)
      | .other => .error .value

/-- A RawWrite object (raw_write.py 81-92), without imported data. -/
structure Writer where
  numtype : Str
  forward : Bool
  log : Bool
  stepped : Bool
  fast : Bool
  plotName : Option Str
  traces : List Trace
  enc : Enc
  deriving DecidableEq, Repr

/-- raw_write.py 81-92: RawWrite(plot_name, fastacces, numtype, encoding). -/
def newWriter (plotName : Option Str) (fast : Bool) (numtype : Str) (enc : Enc) : Writer :=
  ⟨numtype, false, false, false, fast, plotName, [], enc⟩

/-- `self.plot_name or default` -/
def orName (p : Option Str) (d : Str) : Option Str :=
  match p with
  | none => some d
  | some [] => some d
  | some n => some n

/-- raw_write.py 116-137: the plot name and flag chosen by the first trace. `'Noise' in self.plot_name` is evaluated only
when the first test fails, and is a TypeError when there is no plot name. -/
def firstTrace (w : Writer) (t : Trace) : Except Err (Option Str × Str) :=
  if t.whattype = "time".toList then .ok (orName w.plotName "Transient Analysis".toList, "real".toList)
  else if t.whattype = "frequency".toList then
    if t.num ≠ .complex ∧ w.numtype ≠ "complex".toList then
      .ok (orName w.plotName "Noise Spectral Density - (V/Hz½ or A/Hz½)".toList, "real".toList)
    else match w.plotName with
      | none => .error .type
      | some p =>
        if contains "Noise".toList p then .ok (orName w.plotName "Noise Spectral Density - (V/Hz½ or A/Hz½)".toList, "real".toList)
        else .ok (orName w.plotName "AC Analysis".toList, "complex".toList)
  else if t.whattype = "voltage".toList ∨ t.whattype = "current".toList then
    .ok (orName w.plotName "DC transfer characteristic".toList, "real".toList)
  else if t.whattype = "param".toList then .ok (orName w.plotName "Operating Point".toList, "real".toList)
  else .error .value

/-- raw_write.py 106-141: add_trace. -/
def addTrace (w : Writer) (t : Trace) : Except Err Writer :=
  match w.traces with
  | [] =>
    match firstTrace w t with
    | .error e => .error e
    | .ok (p, f) => .ok { w with plotName := p, numtype := if w.numtype = "auto".toList then f else w.numtype, traces := [t] }
  | t0 :: _ => if t0.data.length ≠ t.data.length then .error .index else .ok { w with traces := w.traces ++ [t] }

/-- raw_write.py 94-104: _str_flags. -/
def strFlags (w : Writer) : Str :=
  w.numtype ++ (if w.forward then " forward".toList else []) ++ (if w.log then " log".toList else []) ++
  (if w.stepped then " stepped".toList else []) ++ (if w.fast then " fastaccess".toList else [])

/-- `f"{n:12}"` -/
def pad12 (s : Str) : Str := List.replicate (12 - s.length) ' ' ++ s

/-- raw_write.py 164-165: one line of the variables section. -/
def varLine (i : Nat) (t : Trace) : Str := '\t' :: showNat i ++ '\t' :: t.name ++ '\t' :: t.whattype

/-- raw_write.py 164-165: the variables section, numbered from `i`. -/
def varLines : Nat → List Trace → List Str
  | _, [] => []
  | i, t :: ts => varLine i t :: varLines (i + 1) ts

/-- The number of points written in the header: `len(self._traces[0])` (159). -/
def nPoints (w : Writer) : Nat := match w.traces with | [] => 0 | t :: _ => t.data.length

/-- raw_write.py 154-167: the lines of the header. `date` and `offset` are the texts produced by strftime and by
`{self.offset:.16e}`. A missing plot name is written as None. -/
def headerLines (w : Writer) (date offset : Str) : List Str :=
  [ "Title: * spicelib RawWrite".toList,
    "Date: ".toList ++ date,
    "Plotname: ".toList ++ w.plotName.getD "None".toList,
    "Flags: ".toList ++ strFlags w,
    "No. Variables: ".toList ++ showNat w.traces.length,
    "No. Points: ".toList ++ pad12 (showNat (nPoints w)),
    "Offset:   ".toList ++ offset,
    "Command: Linear Technology Corporation LTspice XVII".toList,
    "Variables:".toList ] ++ varLines 0 w.traces ++ ["Binary:".toList]

/-- Writing lines, each followed by a line feed. -/
def encodeLines (e : Enc) (ls : List Str) : List Byte := ls.flatMap (fun l => encode e (l ++ ['\n']))

/-- raw_write.py 168-176: the binary section. `trace.data[i]` beyond the end of a trace would be an IndexError; add_trace
makes all traces equally long. -/
def body (w : Writer) : List Byte :=
  if w.fast ∧ w.numtype ≠ "complex".toList then w.traces.flatMap (fun t => t.data.flatten)
  else (List.range (nPoints w)).flatMap (fun i => w.traces.flatMap (fun t => t.data.getD i []))

/-- raw_write.py 143-177: save. -/
def save (w : Writer) (date offset : Str) : List Byte := encodeLines w.enc (headerLines w date offset) ++ body w

/-! ### Reader: header -/

/-- plot_data.py 70-101: raw_detect_encoding on the bytes from the start of the header. -/
def detectEncoding (bytes : List Byte) : Except Err Enc :=
  let six := bytes.take 6
  if six.length < 6 then .error .spiceRead
  else if six = encode .utf8 "Title:".toList ∨ six = encode .utf8 "\nTitle".toList then .ok .utf8
  else if six = encode .utf16 "Tit".toList ∨ six = encode .utf16 "\nTi".toList then .ok .utf16
  else .error .spiceRead

/-- plot_data.py 166: the characters read one code unit at a time (`errors='replace'`), with the bytes that follow each
of them. A lone last byte in utf_16 is replaced by U+FFFD. -/
def nextChar : Enc → List Byte → Option (Char × List Byte)
  | _, [] => none
  | .utf8, b :: bs => some (decUnit (if b.toNat < 128 then b.toNat else 0xFFFD), bs)
  | .utf16, [_] => some (decUnit 0xFFFD, [])
  | .utf16, b1 :: b2 :: bs => some (decUnit (b1.toNat + 256 * b2.toNat), bs)

/-- plot_data.py 164-184: the loop that reads the header. `fuel` bounds the number of characters (the length of the file
is enough). Gives the header lines, the type of the data section if it was found, and the bytes after the header. -/
def readHeader (e : Enc) : Nat → List Byte → Str → List Str → List Str × Option Str × List Byte
  | 0, bs, _, acc => (acc, none, bs)
  | fuel + 1, bs, line, acc =>
    match nextChar e bs with
    | none => (acc, none, bs)
    | some (ch, rest) =>
      if ch = '\n' then
        let l := rstripChar '\r' line
        if lower l = "binary:".toList ∨ lower l = "values:".toList then (acc ++ [l], some (lower l), rest)
        else readHeader e fuel rest [] (acc ++ [l])
      else readHeader e fuel rest (line ++ [ch]) acc

/-- A Python dict: assignment keeps the position of an existing key. -/
def put {V : Type} (d : List (Str × V)) (k : Str) (v : V) : List (Str × V) :=
  match d with
  | [] => [(k, v)]
  | (k', v') :: d => if k' = k then (k', v) :: d else (k', v') :: put d k v

/-- plot_data.py 196-212: the loop over the header lines filling _raw_params. Lines starting with '.' (QSpice) are
skipped here. -/
def rawParams : List Str → List (Str × Str) → List (Str × Str)
  | [], d => d
  | l :: ls, d =>
    if ".".toList.isPrefixOf l then rawParams ls d
    else
      let (k, v) := partition ':' l
      if lower k = "variables".toList then d
      else rawParams ls (put d (title (strip k)) (strip v))

/-- TraceInfo (plot_data.py 41-48) -/
structure Info where
  name : Str
  num : NumType
  varType : Str
  deriving DecidableEq, Repr

/-- plot_data.py 286-305: one TraceInfo per line of the variables section. -/
def traceInfos (numerical : NumType) (freqDouble : Bool) : Nat → List Str → Except Err (List Info)
  | _, [] => .ok []
  | i, l :: ls =>
    match splitOn '\t' (lstrip l) with
    | _ :: name :: var :: _ =>
      let num := if i = 0 then
          (if numerical = .real then .double
           else if numerical = .complex ∧ freqDouble then .double
           else numerical)
        else numerical
      match traceInfos numerical freqDouble (i + 1) ls with
      | .error e => .error e
      | .ok r => .ok (⟨name, num, var⟩ :: r)
    | _ => .error .spiceRead

/-- plot_data.py 221-261: the dialect: the one given, or the one detected from the Command line (the last match wins). -/
def dialectOf (given : Option Str) (params : List (Str × Str)) : Option Str :=
  match given with
  | some d => some d
  | none =>
    match params.lookup "Command".toList with
    | none => none
    | some c =>
      if contains "xyce".toList (lower c) then some "xyce".toList
      else if contains "ngspice".toList (lower c) then some "ngspice".toList
      else if contains "qspice".toList (lower c) then some "qspice".toList
      else if contains "ltspice".toList (lower c) then some "ltspice".toList
      else none

/-- A PlotData object after construction (plot_data.py 110-338), for a binary file. `data` is the file from _fpos_data on. -/
structure Plot where
  nPoints : Nat
  nVariables : Nat
  dialect : Str
  hasAxis : Bool
  fast : Bool
  steppedFlag : Bool
  info : List Info
  data : List Byte
  deriving DecidableEq, Repr

/-- plot_data.py 337, 672: the size of one record. -/
def recordSize (info : List Info) : Nat := (info.map (fun i => i.num.width)).sum

/-- plot_data.py 213-305: interpreting the header. -/
def parseHeader (dialect : Option Str) (header : List Str) (data : List Byte) : Except Err Plot :=
  let params := rawParams header []
  match params.lookup "No. Points".toList, params.lookup "No. Variables".toList, params.lookup "Plotname".toList,
        params.lookup "Flags".toList with
  | some np, some nv, some plot, some flags =>
    match parseNat np, parseNat nv with
    | some np, some nv =>
      if np = 0 ∨ nv = 0 then .error .spiceRead
      else match dialectOf dialect params with
        | none => .error .spiceRead
        | some d =>
          let hasAxis := !(["operating point".toList, "transfer function".toList, "integrated noise".toList].contains (lower plot))
          let alwaysDouble := d ≠ "ltspice".toList
          let freqDouble := d = "qspice".toList
          let numerical :=
            if contains "complex".toList (lower flags) ∨ lower plot = "ac analysis".toList then NumType.complex
            else if alwaysDouble then .double
            else if contains "double".toList (lower flags) then .double
            else .real
          match header.idxOf? "Variables:".toList with
          | none => .error .value
          | some i =>
            match traceInfos numerical freqDouble 0 ((header.drop (i + 1)).dropLast) with
            | .error e => .error e
            | .ok info => .ok ⟨np, nv, d, hasAxis, contains "fastaccess".toList (lower flags),
                contains "stepped".toList (lower flags), info, data⟩
    | _, _ => .error .value
  | _, _, _, _ => .error .key

/-- plot_data.py 110-338: reading one plot at the current position of a file. Gives the plot and the bytes that follow its
data section (338: the seek to the end of the section); `none` when the header has no data section. The encoding is
detected unless given (127). A "Values:" file is not modelled (error value). -/
def readPlot (enc : Option Enc) (dialect : Option Str) (bytes : List Byte) : Except Err (Option Plot × List Byte) :=
  let e? := match enc with
    | some e => Except.ok e
    | none => detectEncoding bytes
  match e? with
  | .error e => .error e
  | .ok e =>
    if bytes.length < 20 then .error .spiceRead
    else match readHeader e (bytes.length + 1) bytes [] [] with
      | (_, none, rest) => .ok (none, rest)
      | (header, some kind, rest) =>
        if kind = "binary:".toList then
          match parseHeader dialect header rest with
          | .error err => .error err
          | .ok p => .ok (some p, rest.drop (p.nPoints * recordSize p.info))
        else .error .value

/-- raw_read.py 303-312: reading all plots of a file. `fuel` bounds the number of plots. The encoding of the first plot is
used for the following ones (307, 342), and so is its dialect (308-309). -/
def readPlots : Nat → Option Enc → Option Str → List Byte → Except Err (List Plot)
  | 0, _, _, _ => .ok []
  | fuel + 1, enc, dialect, bytes =>
    if bytes.length ≤ 20 then .ok []
    else
      match (match enc with | some e => Except.ok e | none => detectEncoding bytes) with
      | .error e => .error e
      | .ok e =>
        match readPlot (some e) dialect bytes with
        | .error err => .error err
        | .ok (none, rest) => readPlots fuel enc dialect rest
        | .ok (some p, rest) =>
          match readPlots fuel (some e) (some p.dialect) rest with
          | .error err => .error err
          | .ok ps => .ok (p :: ps)

/-! ### Reader: data -/

/-- What _read_traces holds under a trace name: an Axis (with its step offsets) or a TraceRead. -/
structure Loaded where
  isAxis : Bool
  num : NumType
  data : List Word
  offsets : Option (List Nat)
  deriving DecidableEq, Repr

/-- _axis and _read_traces of a PlotData object. -/
structure St where
  axis : Option Loaded
  reads : List (Str × Loaded)
  deriving DecidableEq, Repr

/-- The state after construction (135-137). -/
def St.init : St := ⟨none, []⟩

/-- np.frombuffer(raw, dtype) for a plain type of `w` bytes and `n` elements. -/
def fromBuffer (w n : Nat) (raw : List Byte) : List Word := (List.range n).map (fun j => (raw.drop (j * w)).take w)

/-- plot_data.py 587-598: _read_bytes_from_file after a seek to `pos` (relative to _fpos_data). -/
def readBytes (data : List Byte) (pos n : Nat) : Except Err (List Byte) :=
  let r := (data.drop pos).take n
  if r.length < n then .error .spiceRead else .ok r

/-- Creating the Axis and its steps (627-636, 680-690). `val` decodes a sample for the comparison in set_steps. -/
def mkAxis {V : Type} [DecidableEq V] (val : NumType → Word → V) (steps : Option Nat) (i : Info) (words : List Word) :
    Except Err Loaded :=
  match steps with
  | none => .ok ⟨true, i.num, words, none⟩
  | some n =>
    match setSteps (words.map (val i.num)) n with
    | .error .spiceRead => .error .spiceRead
    | .error _ => .error .index
    | .ok offs => .ok ⟨true, i.num, words, some offs⟩

/-- plot_data.py 638-652: fast access, the loop over the traces; `prev` is previous_data_size. -/
def fastLoop (p : Plot) (names : List Str) : List Info → Nat → St → Except Err St
  | [], _, s => .ok s
  | i :: is, prev, s =>
    let size := i.num.width * p.nPoints
    if i.name ∈ names then
      match readBytes p.data prev size with
      | .error e => .error e
      | .ok raw => fastLoop p names is (prev + size)
          { s with reads := put s.reads i.name ⟨false, i.num, fromBuffer i.num.width p.nPoints raw, none⟩ }
    else fastLoop p names is (prev + size) s

/-- A field of the structured dtype (658-668): its name and its number of bytes; `skip` for the void type. -/
structure Field where
  name : Str
  width : Nat
  skip : Bool
  deriving DecidableEq, Repr

/-- plot_data.py 659-668: the structured dtype; `first` is true at index 0. -/
def dtypes (hasAxis axisRead : Bool) (names : List Str) : Bool → List Info → List Field
  | _, [] => []
  | first, i :: is =>
    let f := if first ∧ hasAxis ∧ !axisRead then Field.mk i.name i.num.width false
      else if i.name ∈ names then Field.mk i.name i.num.width false
      else Field.mk i.name i.num.width true
    f :: dtypes hasAxis axisRead names false is

/-- Offset and width of a field of a packed structured dtype; `none` if there is no such field. -/
def fieldAt (name : Str) : List Field → Nat → Option (Nat × Nat)
  | [], _ => none
  | f :: fs, off => if f.name = name then some (off, f.width) else fieldAt name fs (off + f.width)

/-- `np.frombuffer(raw, dtype=fields)[name]` for `n` records. -/
def column (fields : List Field) (n : Nat) (raw : List Byte) (name : Str) : List Word :=
  match fieldAt name fields 0 with
  | none => []
  | some (off, w) => (List.range n).map (fun j => (raw.drop (j * (fields.map Field.width).sum + off)).take w)

/-- plot_data.py 678-698: the loop creating the traces from the structured array. -/
def normalLoop {V : Type} [DecidableEq V] (val : NumType → Word → V) (p : Plot) (steps : Option Nat) (names : List Str)
    (col : Str → List Word) : Bool → List Info → St → Except Err St
  | _, [], s => .ok s
  | first, i :: is, s =>
    if first ∧ p.hasAxis ∧ s.axis.isNone then
      match mkAxis val steps i (col i.name) with
      | .error e => .error e
      | .ok ax => normalLoop val p steps names col false is ⟨some ax, put s.reads i.name ax⟩
    else if i.name ∈ names then
      normalLoop val p steps names col false is
        { s with reads := put s.reads i.name ⟨false, i.num, col i.name, none⟩ }
    else normalLoop val p steps names col false is s

/-- plot_data.py 600-702: read_trace_data for a binary file. A structured dtype with a repeated field name is a
ValueError. What remains of the state after an exception is not modelled. -/
def readTraceData {V : Type} [DecidableEq V] (val : NumType → Word → V) (p : Plot) (steps : Option Nat) (s : St)
    (names : List Str) : Except Err St :=
  if p.fast then
    match p.info with
    | [] => .ok s
    | i0 :: is =>
      if p.hasAxis ∧ s.axis.isNone then
        match readBytes p.data 0 (p.nPoints * i0.num.width) with
        | .error e => .error e
        | .ok raw =>
          match mkAxis val steps i0 (fromBuffer i0.num.width p.nPoints raw) with
          | .error e => .error e
          | .ok ax => fastLoop p names is (0 + p.nPoints * i0.num.width) ⟨some ax, put s.reads i0.name ax⟩
      else fastLoop p names (i0 :: is) 0 s
  else
    let fields := dtypes p.hasAxis s.axis.isSome names true p.info
    match readBytes p.data 0 (p.nPoints * recordSize p.info) with
    | .error e => .error e
    | .ok raw =>
      if (fields.map Field.name).Nodup then
        normalLoop val p steps names (column fields p.nPoints raw) true p.info s
      else .error .value

/-- plot_data.py 704-745: get_trace by name, for a file without aliases: a trace already read (exact name, then ignoring
case), or else reading it from the file. Gives the trace and the new state. -/
def getTrace {V : Type} [DecidableEq V] (val : NumType → Word → V) (p : Plot) (steps : Option Nat) (s : St) (name : Str) :
    Except Err (Loaded × St) :=
  match s.reads.lookup name with
  | some t => .ok (t, s)
  | none =>
    match s.reads.find? (fun kv => lower kv.1 = lower name) with
    | some kv => .ok (kv.2, s)
    | none =>
      let target := match p.info.find? (fun i => i.name = name) with
        | some i => some i
        | none => p.info.find? (fun i => lower i.name = lower name)
      match target with
      | none => .error .index
      | some i =>
        match readTraceData val p steps s [i.name] with
        | .error e => .error e
        | .ok s' =>
          match s'.reads.lookup i.name with
          | none => .error .key
          | some t => .ok (t, s')

/-- plot_data.py 778-793: get_axis: the object whose get_wave(step) is returned. `if self._axis` is false for a missing
axis (an axis with no points cannot occur, 215). -/
def getAxis {V : Type} [DecidableEq V] (val : NumType → Word → V) (p : Plot) (steps : Option Nat) (s : St) :
    Except Err (Loaded × St) :=
  if s.axis.isNone then .error .runtime
  else match p.info with
    | [] => .error .index
    | i0 :: _ =>
      match getTrace val p steps s i0.name with
      | .error e => .error e
      | .ok (t, s') => if t.isAxis then .ok (t, s') else .error .assertion

end Model.RawFile

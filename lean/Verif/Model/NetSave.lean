import Verif.Model.NetTree
import Verif.Model.Lines
import Verif.Model.CompLine
/-
Saving a netlist with its components and included files: spicelib/editor/spice_subcircuit.py 196-199, 220-245 (write_lines) and
1084-1117 (IncludeFile), spicelib/editor/spice_components.py 240-387 (through Model.CompLine), spicelib/editor/spice_file.py 133-148
(save_netlist), spicelib/editor/spice_utils.py 58-61 (lib_inc_regex).

Simplifications: finding a library by its name and decoding it is a parameter (`fs`: the file that holds the line and the name give the
path and the text of the library; Model.Search is find_library). The depth of the call stack is a number: an include nested deeper is not
loaded (the RecursionError is caught in IncludeFile.__init__). Errors of component lines of the netlist itself are raised on loading
in the code, on saving here; those of an included file leave it without editor, so that saving raises.
-/
namespace Model.NetSave
open Model.PyStr Model.Regex Model.CompLine
open Model.NetTree (Item Err load writeItems)
open Model.Lines (separateLines)
open Model.Params (PV)

/-- spice_utils.py 58-61: `^\.(LIB|INC(LUDE)?)\s+(?P<filename>.+?)\s*(?:[;*].*)?$`; the group `filename` is called `value` here. -/
def libIncRe : Re :=
  .seq (lit '.') (.seq (.alt (.seq (ci 'L') (.seq (ci 'I') (ci 'B'))) (.seq (ci 'I') (.seq (ci 'N') (.seq (ci 'C') (opt (.seq (ci 'L') (.seq (ci 'U') (.seq (ci 'D') (ci 'E')))))))))
    (.seq (plus sp) (.seq (.grp .value (.seq dot (.lazy dot))) (.seq (.star sp) (.seq (opt (.seq (.cls (fun c => c = ';' || c = '*')) (.star dot))) .eol)))))

/-- `lib_inc_regex.match(obj).group('filename')` (1088-1091) -/
def fileName (obj : Str) : Option Str := match exec libIncRe obj with
  | none => none
  | some m => (m.get .value).map Prod.snd

/-- What is written for a component that was read from the line `s` and not touched since (spice_components.py 240-387); `none` is an
exception. -/
def untouchedLine (w : WordClass) (numeric : Str → Bool) (shown : PV → Str) (s : Str) : Option Str :=
  match reset w numeric shown s with
  | .error _ => none
  | .ok a => match rewrite w numeric shown s a with
    | .error _ => none
    | .ok t => some t

/-- Reading a file: spice_file.py 178-198. `none` is an exception. -/
def loadText (isInclude : Bool) (text : Str) : Option (List Item) :=
  let o := separateLines text
  if o.raised then none
  else match load isInclude o.lines with
    | .error _ => none
    | .ok items => some items

/-- 1086-1107 and 225-229: the text written for an include line; `none` when the file was not found or could not be loaded, so that
write_lines raises the RuntimeError, or when writing it raises. -/
def includedText (w : WordClass) (numeric : Str → Bool) (shown : PV → Str) (fs : Str → Str → Option (Str × Str)) : Nat → Str → Str → Option Str
  | 0, _, _ => none
  | n + 1, here, line =>
    match fileName line with
    | none => none
    | some f => match fs here f with
      | none => none
      | some (there, text) => match loadText true text with
        | none => none
        | some items => writeItems (untouchedLine w numeric shown) (includedText w numeric shown fs n there) items

/-- Loading the netlist `here` with this text and saving it; `none` is an exception. -/
def saveText (w : WordClass) (numeric : Str → Bool) (shown : PV → Str) (fs : Str → Str → Option (Str × Str)) (n : Nat) (here text : Str) : Option Str :=
  match loadText false text with
  | none => none
  | some items => writeItems (untouchedLine w numeric shown) (includedText w numeric shown fs n here) items

/-- spice_file.py 133-148: the file is emptied when it is opened for writing; what the elements before the one that raises have written is
in it afterwards. The result is the contents and whether an exception was raised. Only the outermost elements are looked at: a
sub-circuit that raises writes its own beginning too. -/
def onDisk (untouched included : Str → Option Str) : List Item → Str × Bool
  | [] => ([], false)
  | i :: is => match Model.NetTree.writeItem untouched included i with
    | none => ([], true)
    | some t => (t ++ (onDisk untouched included is).1, (onDisk untouched included is).2)

end Model.NetSave

import Verif.Model.ExtParse
import Verif.Model.Bytes
set_option linter.unusedSectionVars false
/-
XExtensionParser.parse on files, folders and web addresses: extension/XExtensionParser.py:131-148.  What the path leads to is a parameter.
-/
namespace Opy

/-- What is at a path: `os.path.isfile`, `os.path.isdir`. -/
inductive AtPath where
  | file (bytes : List Nat)
  | folder
  | nothing

section
variable {F : Type} [PyFloat F]

/-- Reading the text of a definition: the XML reader calls the handler for the elements, the handler ignores text.  Simplification: the text
is checked to be XML before the handler is called (CPython does both at once). -/
def parseExtText (w : ExtWorld F) (names : GlobalMap) (text : Str) : Except PyErr (Option (ExtObj F) × GlobalMap) := do
  let es ← readXml text
  parseExt w names (xesEvents es)

/-- `XExtensionParser.parse(file)`: extension/XExtensionParser.py:131-148.  A file is opened as text; what is neither a file nor a folder is
taken as a web address.  `codec` is the encoding of the platform, `named` are those that Python knows by name (see `Gzip`). -/
def parseExtPath (w : ExtWorld F) (codec : Codec) (named : Str → Except PyErr Codec) (look : Str → AtPath) (names : GlobalMap) (path : Str) : Except PyErr (Option (ExtObj F) × GlobalMap) :=
  match look path with
  | .file bytes => do parseExtText w names (← readPlain codec bytes)
  | .folder => .ok (none, names)
  | .nothing =>
    match w.fetch path with
    | .urlError => .error .other
    | .raises e => .error e
    | .data bytes => do parseExtText w names (← readBinary named bytes)

end
end Opy

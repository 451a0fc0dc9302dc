import Verif.Model.ExtParse
set_option linter.unusedSectionVars false
/-
What XExtensionParser.parse leaves in the global name map when it raises an exception: extension/XExtensionParser.py:47-148.  The handler writes to
the map while the document is being read (line 117) and nothing takes that back.
-/
namespace Opy

section
variable {F : Type} [PyFloat F]

/-- The reader reports a document; the fields of the handler and the name map at the end or when the exception is raised, and the exception.  No
call of the handler changes anything before it raises: extension/XExtensionParser.py:58-117 (line 79 and the like may choose a set of attributes
first, which nobody can see). -/
def runExtAll (w : ExtWorld F) : ExtSt F → List Sax → ExtSt F × Option PyErr
  | st, [] => (st, none)
  | st, .start t as :: rest =>
    match startExt w st t as with
    | .ok st' => runExtAll w st' rest
    | .error e => (st, some e)
  | st, .stop t :: rest => runExtAll w (stopExt st t) rest

/-- `XExtensionParser.parse(file)` on the content of the file, with what the global name map is afterwards, also after an exception:
extension/XExtensionParser.py:131-148. -/
def parseExtAll (w : ExtWorld F) (names : GlobalMap) (doc : List Sax) : Except PyErr (Option (ExtObj F)) × GlobalMap :=
  match runExtAll w (.init F names) doc with
  | (st, none) => (.ok st.ext, st.names)
  | (st, some e) => (.error e, st.names)

end
end Opy

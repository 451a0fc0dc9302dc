import Verif.Model.HeapSave
import Verif.Model.XmlText
/-
Saving a log and loading the file again, on objects (C177).
-/
namespace Opy

section
variable {F : Type} [PyFloat F]

/-- `XesXmlSerializer().serialize(log, out)`, the text written, data_out/XesXmlSerializer.py:40-103: the elements made of the objects, then the
text of the elements. -/
def saveObjectsText (modern : Bool) (h : Heap F) (n : Nat) (l : Ref) : Except PyErr Str := do
  let x ← saveObjects h n l
  saveTree modern xesComments x.node

/-- Saving a log and loading the file while the objects are still there: data_out/XesXmlSerializer.py:40-103, then data_in/XesXmlParser.py:36-50. -/
def copyByFile (modern : Bool) (given : Option (Factory F)) (reg : Factory F) (mgr : ExtMgr) (h : Heap F) (n : Nat) (l : Ref) :
    Except PyErr (Option Ref × Heap F) := do
  let text ← saveObjectsText modern h n l
  loadXes given reg mgr h text

end

end Opy

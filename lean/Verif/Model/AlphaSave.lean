import Verif.Model.Alpha
import Verif.Model.Bytes
/-
The text of a net and its file: example/AlphaAlgorithm.py:191-203.
-/
namespace Opy

/-- `str(net)`: example/AlphaAlgorithm.py:191-194. -/
def AlphaNet.str (net : AlphaNet) : Str := (py!"\n").intercalate net.text

/-- `save(file_name)`: the path and the bytes of the file, example/AlphaAlgorithm.py:196-203.  `codec` and `crlf` are those of the platform. -/
def AlphaNet.save (codec : Codec) (crlf : Bool) (net : AlphaNet) (name : Str) : Except PyErr (Str × List Nat) := do
  .ok (name ++ py!".tpn", ← writePlain codec crlf net.str)

end Opy

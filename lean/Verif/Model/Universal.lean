import Verif.Model.Bytes
import Verif.Model.Files
/-
XUniversalParser on the bytes of a file: data_in/XUniversalParser.py with the four shipped parsers.
-/
namespace Opy

/-- What the parsers return: `[log]` or `[None]` with the objects of the log in the heap, data_in/XesXmlParser.py:50, or
the list of logs, data_in/XMxmlParser.py:58. -/
inductive Loaded (F : Type) where
  | one (log : Option Ref) (heap : Heap F)
  | many (logs : List (Log F))

section
variable {F : Type} [PyFloat F]

/-- The world in which a file is read: the encoding of the platform, the gzip module, the default factory and the
identifiers it draws, the known extensions and the objects made so far. -/
structure World (F : Type) where
  codec : Codec
  gzip : Gzip
  rnd : Nat → Uuid
  mgr : ExtMgr
  heap : Heap F

/-- `parse(file)` of the four parsers on a file that has not been read yet: data_in/XesXmlParser.py:36-50,
data_in/XesXmlGZIPParser.py:25-38, data_in/XMxmlParser.py:42-58, data_in/XMxmlGZIPParser.py:24-37.  The parsers in the
registry are made without a factory (data_in/XParserRegistry.py:18-24). -/
def parseWith (w : World F) (bytes : List Nat) : Parser → Except PyErr (Loaded F)
  | .xes => do
    let r ← loadXesPlain w.codec none (stdFactory F w.rnd) w.mgr w.heap bytes
    .ok (.one r.1 r.2)
  | .xesGz => do
    let r ← loadXesGz w.gzip none (stdFactory F w.rnd) w.mgr w.heap bytes
    .ok (.one r.1 r.2)
  | .mxml => do
    let r ← loadMxmlPlain w.codec w.rnd bytes
    .ok (.many r)
  | .mxmlGz => do
    let r ← loadMxmlGz w.gzip w.rnd bytes
    .ok (.many r)

/-- `serialize(log, file)` of the four serializers: the bytes of the file.  data_out/XesXmlSerializer.py:40-100,
data_out/XesXmlGZIPSerializer.py:9-22, data_out/XMxmlSerializer.py:38-133, data_out/XMxmlGZIPSerializer.py:11-24. -/
def saveWith (w : World F) (crlf modern : Bool) (log : Log F) : Serializer → Except PyErr (List Nat)
  | .xes => saveXesPlain w.codec crlf modern log
  | .xesGz => saveXesGz w.gzip modern log
  | .mxml => saveMxmlPlain w.codec crlf modern log
  | .mxmlGz => saveMxmlGz w.gzip modern log

end

end Opy

import Verif.Model.Ext
import Verif.Model.Util
/-
Extension definitions: extension/XExtension.py (attribute sets), extension/XExtensionParser.py, and the
cache functions of extension/XExtensionManager.py.

XML text is not modelled: the handler consumes the start and end events of a SAX reader.  What the
network, `urlparse`, the clock and the random number generator answer are parameters.
-/
set_option linter.unusedSectionVars false
namespace Opy

/-- The four sets of attributes of an extension (`nested`: the meta attributes), extension/XExtension.py:21-24. -/
inductive Scope where
  | log | trace | event | nested
  deriving DecidableEq, Repr

/-- What `request.urlopen(uri)` does: answer with some bytes, raise `URLError` (a subclass of
`OSError`), or raise something else (for example `ValueError: unknown url type`). -/
inductive Fetch where
  | data (bytes : List Nat)
  | urlError
  | raises (e : PyErr)

section
variable {F : Type} [PyFloat F]

/-- An XExtension with its attribute sets: extension/XExtension.py:16-24.  Sets are enumerations without
equal members; `all` is the cache of `get_defined_attributes`. -/
structure ExtObj (F : Type) where
  ext : Ext
  all : Option (List (Attr F))
  sets : Scope → List (Attr F)

/-- `XExtension(name, prefix, uri)`: extension/XExtension.py:16-24. -/
def ExtObj.new (F : Type) (e : Ext) : ExtObj F := ⟨e, none, fun _ => []⟩

/-- `set.add(attribute)` with a new attribute object.  Equal attributes of the typed classes have equal
hashes, so the set finds an equal member. -/
def addAttr (s : List (Attr F)) (a : Attr F) : List (Attr F) := if s.any (fun b => attrEq false b a) then s else s ++ [a]

/-- `set.update(other)`. -/
def updateAttrs (s t : List (Attr F)) : List (Attr F) := t.foldl addAttr s

/-- `extension.get_<scope>_attributes().add(attribute)`: extension/XExtension.py:71-105. -/
def ExtObj.add (x : ExtObj F) (sc : Scope) (a : Attr F) : ExtObj F :=
  { x with sets := fun s => if s = sc then addAttr (x.sets s) a else x.sets s }

/-- `get_defined_attributes()`: extension/XExtension.py:55-69. -/
def ExtObj.defined (x : ExtObj F) : List (Attr F) × ExtObj F :=
  match x.all with
  | some s => (s, x)
  | none =>
    let s := updateAttrs [] (x.sets .log)
    let s := updateAttrs s (x.sets .trace)
    let s := updateAttrs s (x.sets .event)
    let s := updateAttrs s (x.sets .nested)
    (s, { x with all := some s })

/-! ## The parser -/

/-- What the handler asks of the world: `parse.urlparse` (as text), `request.urlopen`,
`datetime.fromtimestamp(0.0)` (model/XAttributeTimestamp.py:24-25), the float `0.0` and the random
identifiers. -/
structure ExtWorld (F : Type) where
  urlParse : Str → Except PyErr Str
  fetch : Str → Fetch
  epoch : Except PyErr DateTime
  zero : F
  rnd : Nat → Uuid

/-- The fields of XExtensionHandler, extension/XExtensionParser.py:24-27, with the global name map it
writes to and the number of random identifiers drawn.  Of the current attribute only the key is used. -/
structure ExtSt (F : Type) where
  ext : Option (ExtObj F)
  cur : Option Str
  scope : Option Scope
  names : GlobalMap
  drawn : Nat

/-- `reset()`: extension/XExtensionParser.py:30-37. -/
def ExtSt.init (F : Type) (names : GlobalMap) : ExtSt F := ⟨none, none, none, names, 0⟩

/-- `attributes.getValue(name)`: `KeyError` if it is missing. -/
def attrValue (as : List (Str × Str)) (k : Str) : Except PyErr Str :=
  match dget k as with
  | some v => .ok v
  | none => .error .keyError

/-- `self.__extension.get_...()`: `AttributeError` while the extension is `None`. -/
def ExtSt.current (st : ExtSt F) : Except PyErr (ExtObj F) :=
  match st.ext with
  | some x => .ok x
  | none => .error .attributeError

/-- `self.__xAttributes = self.__extension.get_<scope>_attributes()`:
extension/XExtensionParser.py:69-76,79,85,91,97,103,109. -/
def ExtSt.choose (st : ExtSt F) (sc : Scope) : Except PyErr (ExtSt F) := do
  let _ ← st.current
  .ok { st with scope := some sc }

/-- `self.__xAttributes.add(attribute)`: extension/XExtensionParser.py:82,88,94,100,106,112; a set that
was chosen before belongs to the extension that was current then. -/
def ExtSt.addCurrent (st : ExtSt F) (x : ExtObj F) (a : Attr F) : ExtSt F :=
  { st with ext := some (x.add (st.scope.getD .log) a), cur := some a.key }

/-- The classes of attributes that can be defined, extension/XExtensionParser.py:78-112. -/
inductive DefKind where
  | string | date | int | float | boolean | id
  deriving DecidableEq, Repr

/-- The tags in the order in which they are tested: extension/XExtensionParser.py:78-108. -/
def defTag : Str → Option DefKind := fun t =>
  if lower t = py!"string" then some .string
  else if lower t = py!"date" then some .date
  else if lower t = py!"int" then some .int
  else if lower t = py!"float" then some .float
  else if lower t = py!"boolean" then some .boolean
  else if lower t = py!"id" then some .id
  else none

/-- The default values: extension/XExtensionParser.py:81,87,93,99,105,111. -/
def defValue (w : ExtWorld F) (drawn : Nat) : DefKind → Except PyErr (PyVal F)
  | .string => .ok (.str py!"DEFAULT")
  | .date => do .ok (.dt (← w.epoch))
  | .int => .ok (.int 0)
  | .float => .ok (.float w.zero)
  | .boolean => .ok (.bool false)
  | .id => .ok (.xid (w.rnd drawn))

/-- The attribute classes: factory/XFactory.py:93-213. -/
def DefKind.kind : DefKind → Kind
  | .string => .literal
  | .date => .timestamp
  | .int => .discrete
  | .float => .continuous
  | .boolean => .boolean
  | .id => .id

/-- An element that defines an attribute: extension/XExtensionParser.py:78-112. -/
def startDef (w : ExtWorld F) (st : ExtSt F) (d : DefKind) (as : List (Str × Str)) : Except PyErr (ExtSt F) := do
  let st ← st.choose .log
  let x ← st.current
  let key ← attrValue as py!"key"
  let mapping := x.ext.pfx ++ [':'] ++ key
  let v ← defValue w st.drawn d
  let st := if d = .id then { st with drawn := st.drawn + 1 } else st
  .ok (st.addCurrent x (.mk d.kind mapping (some x.ext) v [] []))

/-- `startElement`: extension/XExtensionParser.py:47-117. -/
def startExt (w : ExtWorld F) (st : ExtSt F) (tag : Str) (as : List (Str × Str)) : Except PyErr (ExtSt F) :=
  if lower tag = py!"xesextension" then do
    let mapping ← attrValue as py!"name"
    let name ← attrValue as py!"prefix"
    let uri ← attrValue as py!"uri"
    let xUri ← w.urlParse uri
    match w.fetch uri with
    | .urlError => .ok st
    | .raises e => .error e
    | .data _ => .ok { st with ext := some (.new F ⟨mapping, name, xUri⟩) }
  else if lower tag = py!"log" then st.choose .log
  else if lower tag = py!"trace" then st.choose .trace
  else if lower tag = py!"event" then st.choose .event
  else if lower tag = py!"meta" then st.choose .nested
  else match defTag tag with
    | some d => startDef w st d as
    | none =>
      match st.cur with
      | some key =>
        if lower tag = py!"alias" then do
          let mapping ← attrValue as py!"mapping"
          let name ← attrValue as py!"name"
          .ok { st with names := st.names.register mapping (.str key) (.str name) }
        else .ok st
      | none => .ok st

/-- `endElement`: extension/XExtensionParser.py:119-129. -/
def stopExt (st : ExtSt F) (tag : Str) : ExtSt F :=
  if lower tag ∈ [py!"string", py!"date", py!"int", py!"float", py!"boolean", py!"id"] then { st with cur := none } else st

/-- The reader reports a document. -/
def runExt (w : ExtWorld F) : ExtSt F → List Sax → Except PyErr (ExtSt F)
  | st, [] => .ok st
  | st, .start t as :: rest => do
    let st ← startExt w st t as
    runExt w st rest
  | st, .stop t :: rest => runExt w (stopExt st t) rest

/-- `XExtensionParser.parse(file)` on the content of the file or web page, with the global name map
before and after: extension/XExtensionParser.py:131-148. -/
def parseExt (w : ExtWorld F) (names : GlobalMap) (doc : List Sax) : Except PyErr (Option (ExtObj F) × GlobalMap) := do
  let st ← runExt w (.init F names) doc
  .ok (st.ext, st.names)

end

/-! ## The cache of extension definitions -/

/-- Directories and files (path and content) as far as the cache uses them. -/
structure Disk where
  dirs : List Str
  files : List (Str × List Nat)

/-- `uri_str[uri_str.rindex("/"):]`: the text from the last slash on; `ValueError` without one.
extension/XExtensionManager.py:142. -/
def fromLastSlash (s : Str) : Except PyErr Str :=
  if '/' ∈ s then .ok ('/' :: (s.reverse.takeWhile (· ≠ '/')).reverse) else .error .valueError

/-- The name of the cache file: extension/XExtensionManager.py:139-144.  A `str` indexed with a tuple
raises `TypeError` (line 141). -/
def cacheName (uri : Str) : Except PyErr Str :=
  match uri.getLast? with
  | none => .error .indexError
  | some c =>
    if c = '/' then .error .typeError
    else do
      let filename ← fromLastSlash uri
      .ok (if (py!".xesext").isSuffixOf filename then filename else filename ++ py!".xesext")

/-- `open(cache_file, "w")`, then `write(file)` for the chunks, then `close()`, with what remains on the
disk.  The file is open for text, so writing `bytes` raises `TypeError`, which line 160 does not catch.
extension/XExtensionManager.py:150-157. -/
def writeBytes (d : Disk) (path : Str) (bytes : List Nat) : Except PyErr Unit × Disk :=
  let d := { d with files := dset path [] d.files }
  if bytes = [] then (.ok (), d) else (.error .typeError, d)

/-- `cache_extension(uri)` with what remains on the disk: extension/XExtensionManager.py:130-161.
Simplifications: opening the file succeeds; directories made before an exception are not recorded. -/
def cacheExtension (e : Env) (sep : Str) (fetch : Str → Fetch) (d : Disk) (uri : Str) : Except PyErr Unit × Disk :=
  match cacheName uri with
  | .error x => (.error x, d)
  | .ok filename =>
    match extensionCacheFolder e d.dirs with
    | .error x => (.error x, d)
    | .ok (folder, dirs) =>
      let d := { d with dirs := dirs }
      match fetch uri with
      | .urlError => (.ok (), d)
      | .raises x => (.error x, d)
      | .data bytes => writeBytes d (folder ++ sep ++ filename) bytes

/-- The name of an entry of the directory, if the path is one: `os.listdir`. -/
def entryOf (dir sep path : Str) : Option Str :=
  if (dir ++ sep).isPrefixOf path then
    let name := path.drop (dir ++ sep).length
    if isSub sep name then none else some name
  else none

/-- `os.listdir(dir)`. -/
def listDir (d : Disk) (sep dir : Str) : List Str := (dkeys d.files ++ d.dirs).filterMap (entryOf dir sep)

/-- One cached file: extension/XExtensionManager.py:178-201.  `old` says whether the file is past its
age (it is then deleted), `parse` is the outcome of XExtensionParser.parse; every exception is caught and
printed, also the one for `None`.  Simplification: deleting succeeds. -/
def loadOne (old : Str → Bool) (parse : Str → Except PyErr (Option Ext)) (folder sep : Str) (s : Mgr × Disk) (file : Str) :
    Mgr × Disk :=
  if (py!".xesext").isSuffixOf (pyLower file) then
    let path := folder ++ sep ++ file
    if old path then (s.1, { s.2 with files := ddel path s.2.files })
    else
      match parse path with
      | .ok (some x) =>
        match dget x.uri s.1.map with
        | none => ({ map := dset x.uri x s.1.map, list := s.1.list ++ [x] }, s.2)
        | some _ => s
      | _ => s
  else s

/-- `load_extension_cache()`: extension/XExtensionManager.py:163-201.  `isFile` is `os.path.isfile` on
bare file names, that is, relative to the current directory. -/
def loadExtensionCache (e : Env) (sep : Str) (isFile : Str → Bool) (old : Str → Bool)
    (parse : Str → Except PyErr (Option Ext)) (m : Mgr) (d : Disk) : Except PyErr (Mgr × Disk) := do
  let (folder, dirs) ← extensionCacheFolder e d.dirs
  let d := { d with dirs := dirs }
  let extFiles := (listDir d sep folder).filter isFile
  if extFiles.length = 0 then .ok (m, d)
  else .ok (extFiles.foldl (loadOne old parse folder sep) (m, d))

end Opy

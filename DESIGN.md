# Formal model of OpyenXes in Lean 4

Source under study: `/repo` (opyenxes/OpyenXes, Python), read as text only.
Properties: `properties.jsonl`.  Status per property: `MANIFEST.json`.
Mutation log: `seeded/LOG.jsonl`.  Lean project: `lean/`.

## 1. Approach

The Python functions are modelled one by one as total, computable Lean functions
(`lean/Verif/Model/*`).  Every definition cites the file and lines it models.
Python exceptions are values (`Except PyErr α`).  Specifications that do not use
the model's helper functions live next to the property theorems
(`lean/Verif/Props/*`), helper lemmas in `lean/Verif/Lemmas/*`.

Two representations of the object model are used.

* *Value trees* (`Attr`, `Event`, `Trace`, `Log`) for read-only code: printing,
  comparison, classification, statistics, serialisation; and for code that updates
  the attribute map of one element (`assign_*` of the extensions), where the stored
  object is always a fresh clone.
* *A heap* (references, objects, next free address) for code whose observable
  behaviour depends on object identity: `clone`, the constructors, the factory.

The SAX handlers of the parsers are modelled as state machines over a stack of open
elements, run over the stream of SAX callbacks.

Conventions

* Python `str` = `List Char` (`Str`); a macro `py!"..."` writes literals so that the
  kernel can compute with them.
* Python `dict` (3.7+) = insertion-ordered association list with in-place update.
* Python `float` = an abstract type `F` with `repr`, `parse` (`float(str)`), and an
  order embedding of the non-NaN doubles into `Int`; the only law is
  `parse (repr x) = some x`.  An instance (`ToyFloat`) is given, so the assumption is
  satisfiable.
* `datetime` concrete: calendar and clock fields and optional UTC offset in seconds.
* `uuid.UUID` = natural number below 2^128; hex format concrete.
* `hash()` of primitives: arbitrary function; results only use that equal keys hash
  equally.  Iteration order of `set`: arbitrary enumeration (a parameter, or all
  permutations).  Exception: the extensions of a log (a `set` in model/XLog.py:21) are a list in
  the order of insertion.  Python may enumerate them in another order, and does not always keep it
  when the elements are added to a new set (clone, loading).  So where a claim says that two logs
  have the same extensions, it means the same set; C186, which compares files, is proved for every
  order that the set of the clone may have (`c186_order`), C188 proves that the order does not matter for what a
  file holds, and `c186_file_refuted` shows that the
  order can show in the file.
* `uuid4()`: arbitrary stream of identifiers (freshness is a hypothesis where needed).

When the code violates a property a user would expect, the violation is proved (a
refutation theorem with a concrete witness, or better: for all inputs), and what does
hold is proved as `..._partial` or as an exact characterisation.  See section 5.

## 2. Trusted base

* Lean's kernel, and the axioms `propext`, `Classical.choice`, `Quot.sound` (no others;
  no `sorry`, `native_decide`, `bv_decide`, no own axioms).
* The reading of the Python code as written down in `Verif/Model` (each definition
  cites the lines), for CPython 3.7+ semantics.
* The XML libraries.  For C38-C51 they are represented abstractly:
  - for XES by a function `ws` on attribute values (`Xml.through`, and `Channel` in
    Props/XesTrip: some characters, among them printable ASCII, survive, and whatever comes
    back consists of surviving characters); names, nesting and order of elements are kept;
    text between elements is ignored, as the handler does;
  - for MXML by the relation `Reads` (Props/MxmlRead): every stream of callbacks that a reader
    may produce for an element tree, with text cut into any chunks and white space around
    child elements; `PlainFixed`: printable ASCII text survives.
  Model/XmlText models the writers (`ElementTree.tostring`, `minidom.toprettyxml`, before and
  from Python 3.13) and the expat reader on the characters of the file, and C110-C113 prove the
  round trips with them, so that both assumptions are met by that model.  What is trusted there
  is that the model agrees with CPython on the files that the serializers write.  Model/Bytes adds
  the encodings (UTF-8, latin-1, ASCII, or any sound one) and the line ends of the platform; gzip is
  any pair of functions where unpacking undoes packing.  Documents in a binary stream are in UTF-8,
  UTF-16, ISO-8859-1 or US-ASCII as expat detects and they declare, or in any other encoding of single bytes
  that Python knows by the declared name (a parameter); they are decoded before they are read, while expat
  does both at once, so of two faults in one file the model may report the other one.
  Strings have no lone surrogates.  The reader has no document types or
  external entities, skips processing instructions unread (not the declaration), and is generous about
  names outside ASCII and `]]>` in text; C134 states what it reads by a grammar without these liberties.
* `float` printing and parsing (law above, and for XES `FloatText`: the printed text of a
  finite float survives the channel).
* `lower()` is that of all of Unicode 14 (`Py/Lower`, compared with CPython on every letter and on 3000 random
  texts with capital sigmas); where the result is only compared with names of elements, the models use the lower
  case of the 26 letters, which is the same there (`lower_compare`).  `upper()` is used on hex digits only.  The digits of `int()` and `\d` are those of all scripts, from the
  table of Unicode 14 (`Py/Num`).  `strptime` knows the directives d f H m M S Y; formats with others
  are a parameter.  The 4300-digit limit of `int()` and
  `str()` is only in `IntLimit` (C179: what it changes when XES files are saved and loaded).
* The extension manager as seen by the parsers is a parameter (`ExtMgr`, with `LawfulMgr`
  where a law is needed; Model/Ext shows that the real manager is one).  `urlparse` is a
  parameter.  The factory given to a parser is a parameter.
* The interpreter's recursion limit is modelled, as a bound on the nested calls of the recursive function, only for
  saving (Model/HeapSave, C169; Model/HeapMxml, C174), log summaries (Model/HeapInfo, C173) and extensions, nested
  values and texts of attributes (Model/HeapNested, C175); elsewhere attributes are trees of any depth and recursion is unlimited, and so is it in
  `ElementTree` and `minidom`.  Memory and time are unlimited.
* In the model of the MXML parser on values (`Mxml`) an AuditTrailEntry that ends after another one within it is an
  error; the code appends `None` there.  The model on objects (`MxmlHeap`) does so too; C170 says that the two agree otherwise.
* `time.mktime` and `datetime.fromtimestamp` are parameters (`LocalTime`).
* `XTimer` uses exact rational clock readings, not doubles.
* Network answers, `os.path.isfile`, file ages and the reading of cached definitions are
  parameters of the extension parser and cache.
* The file system of `XRuntimeUtils` is a list of existing paths; no permission errors.
* Singletons: no class instantiates itself while its own `__init__` runs, and whether an
  instance is truthy is a parameter.
* In `Ext` the extension `assign_*` functions act on trees, and when `assign_nested_values`
  raises, the partial changes made before are dropped.  `HeapExt` has the same methods on
  objects that may be shared; C141 and C142 say when the two agree.

Check against outputs shipped with the repository.  `/repo/example/xes_file` holds files written by
the example scripts themselves.  The model's functions, evaluated on the inputs there, give the same
logs (attribute maps compared as maps): `anonymize` on general_example.xes, `csvScript` on
csv_file.csv, `compress` on example_compress_log.xes.gz, resaving random_log.xes and
example_with_new_extension.xes; and the two cluster files partition log_to_cluster.xes in order, with
neither classifiers nor global attributes.  The saved text differs from the shipped one in two ways,
both due to the older Python that wrote those files: attributes were sorted by name (before 3.8), and
UTC was printed as `Z` (`tzname()` gave `UTC+00:00` before 3.6, `UTC` since).
The tests of the library itself are examples in Props/Suite: the log that they save and load, and the look-ups in the
extension manager, evaluated by the kernel on the model, meet every assertion.

## 3. What is modelled

See the header of each file in `lean/Verif/Model`.

| model file | Python source |
|---|---|
| `Py/Str`, `Py/Num`, `Py/Strptime`, `Py/Dict`, `Py/Sort` | Python built-ins used: str methods, int(), datetime.strptime, dict, sorted |
| `Tokens` | utils/XTokenHelper.py |
| `DateTime` | utils/XsDateTimeConversion.py, XAttributeTimestamp.__str__ |
| `Xid` | id/XID.py, id/XIDFactory.py |
| `Attr` | model/XAttribute*.py, utils/CompareUtils.py |
| `Log` | model/XEvent.py, XTrace.py (insert_ordered), XLog.py |
| `Classify` | classification/*.py |
| `Info` | info/XLogInfo*.py, XAttributeInfo.py, XTimeBounds*.py, log info cache of XLog |
| `Heap` | model/* clone and aliasing, factory/XFactory.py |
| `Xes` | data_out/XesXmlSerializer.py, data_in/XesXmlParser.py |
| `Mxml` | data_out/XMxmlSerializer.py, data_in/XMxmlParser.py |
| `Files` | can_parse, get_suffices, XUniversalParser, XRegistry and its users |
| `Ext` | extension/XExtensionManager.py, extension/std/*.py, XAttributable.get_extensions |
| `Util` | XTimer, XRuntimeUtils, singletons, name maps |
| `ExtParse` | extension/XExtension.py (attribute sets), extension/XExtensionParser.py, cache functions of extension/XExtensionManager.py |
| `ExtFile` | extension/XExtensionParser.py:131-148 (files, folders, addresses) |
| `AlphaSave` | example/AlphaAlgorithm.py:191-203 (text and file of a net) |
| `Alpha` | example/AlphaAlgorithm.py |
| `Examples` | example/filter_compress_log.py, Csv_to_xes_file.py, Anonymize_a_log.py, Number_of_activity_done_by_people.py, Cluster_a_log.py |
| `Misc` | comparison operators, equality of events, traces and logs, XExtendedEvent identity, XAttributeUtils.py, XAttributeTimestamp milliseconds, log/XLogging.py, example/Create_random_log.py |
| `XmlText` | the text of the files: xml.etree.ElementTree.tostring, minidom.parseString, toprettyxml and the expat reader, as used by data_out/XesXmlSerializer.py:83-100, data_out/XMxmlSerializer.py:121-133, data_in/XesXmlParser.py, data_in/XMxmlParser.py |
| `Bytes` | the bytes of the files: text streams with an encoding and line ends, gzip files; data_out/X*GZIPSerializer.py, data_in/X*GZIPParser.py |
| `Universal` | saving with one of the four serializers and loading with XUniversalParser; data_in/XUniversalParser.py |
| `TraceDict` | the dict of the trace boundaries keyed by traces with an unstable hash, and the getters of the event classes; info/XLogInfo.py:46-67,91,128-201, model/XTrace.py:68-69 |
| `ClassDict` | the dict of the event classes keyed by classifier objects that can be renamed; info/XLogInfo.py:46-58,135-151, classification/XEventAttributeClassifier.py:14-16,62-68,85-94,118-119, model/XLog.py:104-125 |
| `Extended` | the getters and setters of extended events as calls on one event; extension/std/XExtendedEvent.py:34-247 |
| `ClassOps` | classification/XEventClasses.py as an object: histories of calls, what stays after an exception |
| `HeapExt` | the `assign_*`, `remove_*` and nested assignment methods of the extensions on objects with identity, with what stays after an exception; extension/std/*.py |
| `Api` | programs: calls of the factory, constructors, model methods, extensions and the parsers on one heap; factory/XFactory.py, model/*.py, extension/std/*.py, data_in/XesXmlParser.py, data_in/XMxmlParser.py |
| `Stamp` | XAttributeTimestamp objects with values of any type or none; model/XAttributeTimestamp.py |
| `XidObj` | identifiers as objects that events and ID attributes share; id/XID.py:12-51, id/XIDFactory.py, model/XEvent.py:18-63, model/XAttributeID.py:15-43 |
| `HeapSave` | XesXmlSerializer on the objects themselves (shared attributes, attributes within themselves, None, a bound on nested calls) |
| `MxmlHeap` | the MXML handler on objects with identity; data_in/XMxmlParser.py:76-300 |
| `HeapInfo` | XLogInfo (register_attributes, classes, time bounds) and str() of attributes on the objects themselves, with a bound on nested calls |
| `HeapMxml` | XMxmlSerializer on the objects themselves, with a bound on nested calls |
| `HeapNested` | `get_extensions`, `extract_nested_values`, `extract_values` and the `extract_value` of the three cost classes on objects, with a bound on nested calls |
| `HeapCopy` | saving the objects of a log as XES text and loading the text into the same objects |
| `IntLimit` | saving and loading XES with the limit on the digits of integers that `int()` and `str()` convert |
| `ExtNames` | extension/XExtensionParser.py:47-148 with the global name map after an exception |

Not modelled: command line code (`cli.py`, a stub), the text printed by the listener of `XLogging`, the
inside of gzip, `print`, plotting and the clustering library of the example scripts (the
fitted clustering is an arbitrary function).

## 4. Plan per property

| id | model | proof method |
|---|---|---|
| C01-C03 | Tokens | induction over the key list; split/join lemmas; `glue` as independent spec |
| C04-C06, C82 | DateTime | digit/padding lemmas, field-by-field parse lemmas; case analysis of the parser; day counting against an independent Gregorian calendar |
| C07-C08 | Xid | positional hex encoding, induction on number of digits |
| C09-C12 | Attr | lexicographic order lemmas; case analysis on types |
| C13-C16 | Log | induction from the end of the trace; sortedness (`Pairwise`), permutation, uniqueness of stable sort |
| C17 | Classify | lexicographic order |
| C18, C23 | Classify | injectivity of join when the separator cannot occur |
| C19-C22 | Classify | invariant over the registration fold; permutation invariance of sorted lists |
| C24-C25 | Info | fold invariant (min/max), permutation invariance |
| C26-C29, C72-C73 | Info | fold invariants; traversal = specification by `flatMap` |
| C30-C31 | Info | induction over histories |
| C32-C37 | Heap | frame lemmas on the heap; footprints |
| C38-C41 | Xes | simulation by mutual induction on the attribute tree; normal form spec |
| C42-C46 | Xes | stream induction; insertion lemmas; witnesses for violations |
| C47-C51, C80-C81 | Mxml | stream induction with state invariants over all chunkings |
| C52-C55 | Files | list-suffix characterisation; finite case split over the suffixes |
| C56-C57 | Files, Util | induction over histories |
| C58-C59 | Ext | invariant over registration histories |
| C60-C68, C76-C79 | Ext | dict laws; case analysis; induction over nesting paths |
| C69-C71, C74-C75 | Util | arithmetic (div/mod), induction over histories |
| C83-C87 | ExtParse | handler run over document trees; invariant over all SAX streams; histories of the name map |
| C88-C89 | ExtParse | case analysis; freshness of the folder that is made |
| C90-C94 | Alpha | set semantics of the loops; sublists as canonical sets; induction on the size of a pair |
| C95-C101 | Examples | loop invariants; first occurrences by index as specification; permutation lemmas |
| C102-C109 | Misc | antisymmetry of compare_to; list induction; loop invariants |
| C110-C113 | XmlText | run of the reader over the written text, piece by piece (`Go`), by induction on the tree; then C38-C41 and C47 with the concrete channel |
| C114 | XmlText | the reader on a proper prefix ends with an open element or inside a token |
| C115-C116 | Xes, XmlText | relational meaning of documents (`DocSays`), shown to determine the pure reader of Lemmas/Xes |
| C117 | Mxml, XmlText | relational meaning of documents (`TopSays`), run of the handler element by element |
| C118-C120 | Bytes | UTF-8 decoding undoes encoding and accepts nothing else, by arithmetic; prefixes of decodable bytes; C110, C113, C114 |
| C121-C122 | Universal | C54, C55, C118 and C119 put together; a document without a tag of the format leaves the state of the handler as it is |
| C123-C124 | DateTime | strptime accepts exactly the relational meaning `CoreSays` of a text, field by field; the zone is found by cutting at the sign |
| C125 | TraceDict | the last matching entry of a list of assignments is the one found |
| C126 | Extended | every setter is either without effect or one dict assignment under a fixed key; every getter depends on one key |
| C127 | Ext | the path lemma of C77 for the list of the characters of a key |
| C128 | Ext, Xes, ExtParse | lookups in the manager after one more registration; induction over what the document says; C84 and C115 |
| C129 | Ext | unfolding; one shape of extractor for all keys, keys as literals |
| C130 | Util | prefixes that differ in the first character exclude each other |
| C131 | Xid | `int(s, 16)` against a relation for numerals; the rest are literal edits of the text |
| C132 | Examples, Strptime | the header pattern passes through five replacements part by part; a field stops before a separator, because what follows rejects digits; lines by induction |
| C133 | Examples, Strptime | the last piece of a match is a literal or a field, neither of which is a line end |
| C134 | XmlText | grammar of documents (`WfDoc`), run of the reader over each production, by induction on the derivation |
| C135 | XmlText | invariant of the reader: the events so far are those of the open elements with their children |
| C136 | Attr, Mxml | value and length of padded numbers by induction on the digits; no T in the text, every readable text has one |
| C137-C138 | ClassOps | invariant over histories: counts, and indices as a permutation of the first numbers |
| C139 | Xes, XmlText | what the parser delivers is typed, legal and in normal form up to timestamps (induction over the described document); the reader reports legal characters only (invariant) |
| C140 | Mxml, Xes, XmlText | invariant of the handler over any stream of events; what it keeps is typed, legal and keyed by its own keys |
| C141 | HeapExt, Heap, Ext | a call comes down to storing a cloned attribute or deleting a key; footprints (the map objects below an element) are unique and do not contain the element's own map; frame rule |
| C142 | HeapExt, Heap, Ext | induction over the path with the footprint split at the attribute that is entered |
| C143 | Classify, Info, XmlText, XesTrip | the loaded content is the normal form (C110); printed values of the normal form are those of the original; bounds by monotony of cutting to milliseconds |
| C144 | Attr, Ext | the conversion (pyFloatOf) is the only use of the value |
| C145 | ExtParse, Examples | runs of the handler over an appended document; induction over the columns |
| C146 | XmlText, Xes, Mxml | the pretty printer on an element without text; head compared by evaluation |
| C147 | Heap, Xes | invariant of the handler over all events: the heap is the old one with objects added that refer to added objects only |
| C148 | Alpha, Examples | MaximalPair depends on the set of traces; C93, C95, C143 |
| C149 | Alpha | token game over the places of C93; in the separate case one token walks through the trace |
| C150 | Examples, XmlText, Xes | C132 gives the log; every attribute made from a cell passes the file (C110) |
| C151 | Examples, XmlText, Xes | `FitLog` (what a loaded log has) is kept by hiding texts; C98, C139 |
| C152 | Examples, XmlText, Xes, Bytes | `FitLog` is kept by choosing traces; C95, C100, C118, C139 |
| C153 | Xes, XmlText | `Regular` and `AllReadable` together are `DocSays`; a document with a fault is compared with its repaired copy, which has the same events before the fault; with unreadable dates the attribute and object stacks are counted along the tags, and `TypedSt` (C159) shows that nothing else can fail |
| C154 | Mxml, XmlText | outcome relation over the element tree in document order; invariant of the handler: which of process, instance, entry are open, and whether the instance has events |
| C155 | Mxml, XmlText | fine-exactly-if statements composed along the binds of the serializer; for loaded logs the invariant of C143 (texts everywhere, times only under time:timestamp) |
| C156 | ExtParse, ExtFile, XmlText, Bytes | invariant over the elements so far: an extension is current exactly if Started, an attribute exactly if Defining; each step has a fault or keeps it; faults are unique |
| C157 | Alpha, AlphaSave, Bytes | the lines are cut from the joined text at the quotes; then the lines of the two nets are compared with C93 |
| C158 | Ext | case distinction on the attribute; the splitting is characterised by its pieces |
| C159 | Api, Heap, HeapExt, Xes, MxmlHeap | invariant over the calls: each keeps the classes of all objects and makes good ones; for loading, the same invariant over the state of the handler |
| C160 | ClassDict, Info | invariant of the dict while it is filled (stored hash, distinct keys), then what a lookup in a later state finds |
| C161 | AlphaRun (spec), Alpha | the relations of the log are the structural ones of the process; maximal pairs are cuts of last against cuts of first activities; one place at a time, by induction over the process in both directions |
| C162 | Mxml, XmlText, Classify, Info | C47/C113 say what every event is after loading; its class is computed from that and carried through derive_event_classes, which depends on class identities only |
| C163 | Util | invariant `GOrd` over histories: the keys of the dicts are the first occurrences in the calls |
| C164 | XidObj | one-step laws (who holds which XID object), induction over runs; simulation by a model with values |
| C165 | Info | invariant `Stepwise` over histories, by appending one call |
| C166 | Info, Attr (text of datetimes) | fields of fixed width cancel from the left; the only blanks separate date, time and hyphens |
| C167 | Ext, Xes, XmlParse | the loaded attributes at a place are the saved ones keyed by their own keys; a getter reads one key, so its answer is that of the last attribute with this key |
| C168 | Xes, Heap | the tags of one name alternate exactly in documents without nesting (induction over the tree); lists only grow while loading; the typing invariant of C159 for the rest |
| C169 | HeapSave, Api, Xes | relation between objects and trees; levels of nesting; pigeonhole on paths without repetition |
| C170 | MxmlHeap, Mxml, HeapExt | simulation of the handler on values by the handler on objects; every object has an owner (an attribute, entry, trace or log that is being built, a log of the result, a source) and an element is changed only through objects of its owner |
| C171 | MxmlHeap, Fresh | from the owners in C170: what a log reaches belongs to it or to a source |
| C172 | MxmlHeap, Nones | which elements are open is read off the tags of the document; the end of an entry that is not open appends `None`, which stays in its trace and its log; without such an end the handler on values applies (C170) |
| C173 | HeapInfo, HeapSave, Api | relation between objects and trees; outcomes equal up to a RecursionError; arbitrarily long paths from a loop |
| C174 | HeapMxml, HeapInfo, Api | a relation that both the whole tree and the glance satisfy; arbitrarily long paths from a loop |
| C175 | HeapNested, HeapInfo (strAt) | one number of nested calls is described exactly by the steps that lead from the object; without a loop the steps are fewer than the objects (pigeonhole) |
| C176 | Xes, Heap | invariant of the handler: references counted over all added objects and the pending stacks never exceed one; paths from the log are then determined by their ends |
| C177 | HeapCopy, HeapSave, Xes, XmlText | C169 reduces saving objects to saving the tree they show, C110 gives the loaded log, C147 and C176 keep the objects apart; what a log shows depends on the objects it reaches only |
| C178 | Alpha | an activity that follows itself is in no place (C94); a place between a and b needs a causing b (C93), so without it the two firings commute |
| C179 | IntLimit | both directions of saving by structural induction; loading with a limit is loading the document with the long values blanked out, then C44 and C110 |
| C180 | ExtParse, ExtNames, Util | Invariant relating the handler to a backward reading of the document; what is registered before the first fault of C156 |
| C181 | MxmlHeap, Heap | invariant of the handler: references counted over all added objects, the logs made and what is held never exceed one, but for sources, which only logs hold under their key |
| C182 | Bytes, XmlText, ExtFile | the declaration as a grammar (`DeclSays`, accepted exactly: `declared_says`); its characters are ASCII, so the bytes show it; UTF-16 decoding undoes encoding |
| C183 | XmlText | what the reader accepted is taken apart state by state (`back_*`), by induction on the length; the grammar is that of C134 with the liberties of the model, and the same for plain texts |
| C184 | Stamp | objects whose value may be missing; a call writes to at most one of them; invariant over all sequences of calls; agreement with the attributes of Model/Attr |
| C185 | Log, Xes, XmlText | the point in time of a loaded event is that of the saved one, cut to the millisecond, which keeps the order; then C14 and counting |
| C186 | Heap, HeapSave, HeapMxml, HeapInfo | every function that saves or summarises gives the same on elements with the same entries, in a heap that has grown; the views of C34 give the same entries |
| C187 | Info, Classify, Examples | the numbers of C28 and C19 are sums over the traces, which permutations and flattening keep; C29 for when there is a summary |
| C188 | Xes, XmlText, Ext | the conditions of C39 and C110 do not depend on the order; the normal form of the extensions has the same URIs |

No property is currently judged inexpressible.

## 5. Disagreements between code and expectation

For each of these the expected property is kept as the statement in `properties.jsonl`, the violation is proved
(`..._refuted`, `..._lost`, `..._leaks`, …), and what does hold is proved beside it.

| id | expectation | what is proved |
|---|---|---|
| C02 | Token encoding of classifier keys is lossless | False as stated: refuted with ['concept:name','lifecycle:transition']; the exact set of surviving lists is C01. |
| C05 | parse_date_time never raises | False as stated (OverflowError for huge offsets); exactly when the text denotes an existing date whose zone is more than 999999999 days from UTC; proved that nothing else can be raised. |
| C10 | Attribute equality is an equivalence relation | False as stated: a list or container equals every attribute and is not symmetric; proved to be an equivalence on typed, comparable non-collection attributes. |
| C15 | insert_ordered keeps the timestamped events sorted even when some events have no timestamp | False as stated when unstamped events lie in between; the iff says exactly when the stamped order survives. |
| C18 | A classifier separates events exactly by the values of its defining attributes | Joining with '&&' is ambiguous: refuted; proved for present values that do not contain '&', and exactly via the identity texts. |
| C23 | The AND classifier separates at least as finely as each part | Ambiguous joining again breaks the finer-than claim; proved for present values without '&'. |
| C27 | Attribute statistics can be queried by type and by extension | False as stated; proved that the queries by type and extension are always empty. |
| C29 | Log summaries can be built for any log | False as stated; exact condition for every typed log. |
| C30 | The cached log summary describes the current log | False as stated; proved for histories without later modification, plus what exactly is returned. |
| C33 | Cloned events have independent attribute values | the code violates the property for every event and every typed attribute it has: the attribute objects are shared, so a value set through the clone shows in the original |
| C35 | Cloning an attribute keeps its nested attributes | key, value and extension are kept; nested attributes are always dropped and collections raise AttributeError |
| C36 | create_event keeps the identity it is given | kept exactly when the attribute map is non-empty; for None or an empty map the id is always replaced |
| C37 | Constructing an element from an attribute map shares that map | shared for every non-empty map over every history; for a map that is empty at construction a later addition is not visible |
| C41 | Global attributes keep their nested attributes through XES | holds exactly for global attributes without nested attributes |
| C44 | An unreadable date only loses that attribute | the code violates the property: every document containing an unreadable date makes loading raise |
| C45 | The XES parser builds the log with the factory it was given | holds only when the given factory is the registry's; otherwise the given factory has no influence |
| C48 | MXML save/load keeps timestamps and resources | violated: for every log, no event comes back with a timestamp or a resource |
| C51 | MXML attributes are attached to the element that contains them | violated; holds exactly for entries and for traces that already have events |
| C53 | File name suffixes are recognised ignoring case | violated: the comparison is case sensitive; a name without lower-case letters is never accepted, and only the letters before the ending may vary in case |
| C55 | Every advertised output suffix can be read back | violated for the suffix xez, for every stem; holds for all others |
| C59 | Re-registering an extension updates all lookups | violated: only get_by_uri sees the new extension; the exact effect is proved for every history |
| C61 | Concept instances can be assigned and read back | violated for every event: the instance is stored under concept:name |
| C64 | Cost totals, amounts and drivers can be assigned and read back | holds for total, amount and driver; violated for currency and type, for every element and value |
| C66 | Model references can be assigned and read back | violated for every non-empty list; what is returned instead is proved |
| C67 | Nested cost values can be extracted | violated for every element with a value at some depth; the exact result is proved |
| C68 | Attribute maps only contain extensions known to get_extensions | violated: the result is empty for every element |
| C70 | The timer measures elapsed milliseconds | violated: after stop() the result is negative for every realistic clock; a running timer is right; clock readings are exact rationals |
| C74 | The support folder can be located repeatedly | violated: the second call always raises FileExistsError; without USERPROFILE every call raises TypeError |
| C75 | Durations are rendered with normalised parts | violated exactly at the boundary values |
| C76 | Timestamps can be assigned and read back | violated by every date with microseconds or a zone; holds for exactly the others |
| C78 | Extended events return what was set | violated exactly by texts with a character that is not its own lower case |
| C80 | Attributes of one MXML process stay out of the logs of other processes | proved for documents whose data stand behind the first trace or entry (C117); violated by every data attribute that a process states before its first trace, if the file has a Source element |
| C81 | Text of an MXML element is the text inside it | violated by every text before a start tag; proved: nothing before an end tag counts for what follows, and documents without text between elements are read right (C117) |
| C83 | Attributes of an extension definition are listed in the scope they are defined in | violated: whatever the document, all attributes land in the log attributes and the other three sets stay empty |
| C85 | get_defined_attributes is always up to date | violated: the first answer is right and is returned for ever |
| C87 | Reading a local extension definition does not need the network | violated: offline, every document with a group of definitions raises AttributeError; if the URI answers, the answer does not matter |
| C88 | Caching an extension stores its definition | violated: no downloaded byte is ever stored, and a successful download raises TypeError; paths are not normalised in the model |
| C89 | Loading the extension cache registers the cached extensions | violated: nothing is ever loaded; with an existing support folder the call raises FileExistsError |
| C96 | Converting a CSV file gives one trace for each case | violated by every file: the rows are cut before every row whose case is not that of the first row, and the last piece is lost; proved: exactly this |
| C97 | Converting a CSV file reads every cell as written | violated for text in the last column, which keeps the line end; proved: all other text columns and all number columns are right. time columns: C132 and C133 |
| C98 | The anonymised log does not name people | violated for attributes of the log itself and for nested attributes; proved: exactly the attributes of traces, events and the global attributes are hidden, and the result is anonymous iff the rest already was |
| C101 | The logs of the clusters keep the header of the log | violated: classifiers and global attributes are always lost; proved: attributes and extensions are kept, and the claim holds iff the log has no classifiers and global attributes |
| C102 | Comparison operators agree with each other | violated for attributes of different classes (1 and 1.0 with the same key); proved for identifiers, event classes, classifiers, and for attributes of one class with comparable values |
| C104 | A clone equals its original | violated whenever there are events; proved: a clone is equal exactly if the original has no events, and has the same attributes with new identifiers |
| C106 | Every attribute has a prototype | violated for every timestamp, list and container (AttributeError); proved for all others, nothing nested is kept |
| C107 | Timestamps in milliseconds can be set and read back | violated for every n that is not a full second, and on Windows before 2 January 1970; proved: exactly the full second is returned |
| C109 | Random logs have the configured shape | violated for the number of attributes, which is smaller exactly if an option is drawn twice; the rest is proved |
| C111 | Every log can be saved | violated: a control character (other than tab and line ends), U+FFFE or U+FFFF anywhere makes saving fail; proved: saving succeeds exactly if there is none |
| C112 | Line breaks and tabs survive saving | violated before Python 3.13, where each becomes a space (and a CR LF one or two); proved from 3.13 on, and exactly which values survive |
| C116 | Global attributes of other scopes are not attributes of the log | violated: they become attributes of the log (or of whatever is open); proved: such an element is loaded as if its content stood in its place |
| C120 | A document is loaded from a plain file as from a compressed one | violated: a text stream is read in the encoding of the platform whatever the document declares, so a UTF-8 document is read wrongly and without an error where that is latin-1; it holds for UTF-8 platforms and for ASCII documents |
| C122 | A document of another format is noticed | violated: every XES document the library saves is loaded by the MXML parser as an empty list and every MXML document by the XES parser as [None], without an error; proved exactly for all well-formed documents without any tag of the format |
| C123 | Every xs:dateTime text is read as the instant it denotes | violated for fractions of more than six digits (as other tools write them) and for 24:00:00, which xs:dateTime allows: None is returned, for every such fraction; proved for all others. Years of four digits |
| C125 | The time boundaries of a trace of the log can be looked up | violated: the hash of a trace is that of a temporary super object, so it depends on the memory allocator; if it has changed, None is returned for every log and trace. Proved: what is returned, exactly; it is right if the hash stays the same and no later trace has the same events |
| C126 | The fields of an extended event are independent | violated by set_instance, which changes the name, for every event and text that is not blank; proved for all other pairs of setters and getters |
| C127 | Amounts, drivers and types can be assigned by key | violated by every dict with an entry: amounts and drivers raise TypeError (a list as key of a dict), and a type is stored, as the class object, at a path of the characters of the key. Only the empty dict is right |
| C129 | The extractors read the attributes the standard prescribes | all seventeen extractors read the prescribed key; violated by the answers of extract_parent_id and extract_length for an event without the attribute |
| C131 | Which texts are read as an identifier | violated: 0x, signs, white space, underscores and digits of other scripts count as digits; proved: exactly which texts, and the claim for texts of hexadecimal digits and hyphens |
| C133 | The last column of a CSV file can be a time column | violated by every file whose last column has a time pattern that does not end in white space: strptime raises ValueError for every text with a line end; proved: exactly this |
| C136 | The timestamp in an MXML file can be read | False as stated: the text has a blank where parse_date_time requires a T, so no timestamp written is read (for all dates); proved that the text states the time in full, with fraction and offset. |
| C138 | Equal sets of event classes have the same classes | False as stated: __eq__ compares the classifiers only (for all sets of classes); proved: exactly this. |
| C142 | Assigning nested values changes the element it is called on and no other | False for clones: a path whose first key exists in the original changes both (c142_clone says exactly when).  c142_path_partial and c142_values_partial describe the attribute trees of elements below which no map object is used twice (Unshared).  c142_any (one path) and c142_values_any (several) are for any well formed objects, also shared and cyclic ones, and say which objects change. |
| C149 | The net of the alpha algorithm can run exactly the traces of the log | True for logs whose traces have no activity twice and none in common (c149_exact); the refutations show a trace that is not accepted and an accepted sequence that is not a trace. C161 says what holds for the logs of structured processes. |
| C151 | The anonymised file can be loaded and is the log without the names | True when the attributes named Resource or org:resource are texts; for other types the script fails, or writes a file that cannot be loaded, or one that says false. |
| C157 | The text and the file of a net tell which net it is | True if no activity has a double quote in its name (and, for files where line ends are CR LF, no carriage return); with quotes, the refutation shows a log with one activity and a log with two whose nets have the same text. |
| C160 | A summary answers for the classifiers it was made with, also when they are renamed | Violated: the dict of the summary is keyed by the classifier objects, whose hash is made of name and keys, so after set_name (with a name of another hash) the classes are found neither with the renamed classifier nor with one like it was, while the log still gives out the summary for it. STANDARD_CLASSIFIER is one object for all logs. Proved: exactly what is found, for all changes; it holds while the classifiers are unchanged and again when they are what they were. |
| C162 | Event classes are the same after saving a log as MXML and loading it | The classes by name are the names without white space around them, so they are the same exactly when the names are such; a classifier that asks for anything but name, transition or model reference finds one single class, and all time bounds are gone, as timestamps, resources and other attributes do not come back (C48). |
| C164 | Changing one identifier changes no other event or attribute | Violated when the program gives one XID object to two holders (XEvent(identity=...), set_id, set_value, assign_id): set_uuid then changes both. Proved: exactly who changes, that the library itself never shares an XID, and that without set_uuid identifiers act as values, which is how the rest of the model treats them. |
| C167 | The extensions read the same before saving and after loading | violated by assigned instances and currencies: read as the name before saving, as instance or currency after loading; exact answer for every saved log (the last attribute with that key of its own), the claim itself where attributes are stored under their own keys, and from the setters to the getters |
| C168 | What a file loads consists of traces and events only | violated by events within events and traces within traces, which leave None in the trace or log; exactly these documents do |
| C171 | Logs loaded from one MXML file are independent of each other | violated by the attribute for the source, one object in all logs of a file; everything else is shown to be new and not shared |
| C172 | Which MXML files give traces with None among their events | violated by entries within entries; the files that give None are described exactly |
| C180 | A refused extension definition leaves no names behind | c180_refuted: an alias read before the fault stays registered. c180_kept and c180_all say exactly what is registered, c180_retry that a second attempt makes up for it, c180_stale that it does not if the alias was removed. Texts that are not XML at all are not covered (the reader may call the handler before it finds the error). |
| C182 | A document is read in the encoding that it declares | violated by plain files, which are read in the encoding of the platform whatever they declare (c182_refuted; c182_partial: right if the two agree); proved for compressed files and addresses |

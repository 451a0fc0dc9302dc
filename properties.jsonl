{"id": "C01", "title": "Classifier key lists survive the token encoding exactly when no two neighbours are space-free", "statement": "For a list of non-empty keys without quotes or outer white space, XTokenHelper.extract_tokens(XTokenHelper.format_token(keys)) glues every maximal run of neighbouring keys that contain no space into one key (joined by single spaces) and leaves everything else alone; so the list comes back unchanged if and only if no two neighbouring keys are both free of spaces.", "quantifier": "every finite list of well-formed keys (any length, any Unicode content)", "why_tests_cant": "keys are unbounded strings in lists of unbounded length; the failing lists have to be characterised, not sampled", "anchors": ["src/opyenxes/utils/XTokenHelper.py:4-6,9-11"]}
{"id": "C02", "title": "Token encoding of classifier keys is lossless", "statement": "A user expects that for every list of non-empty, trimmed, quote-free keys, extract_tokens(format_token(keys)) == keys. (The code violates this: ['a','b'] comes back as ['a b'].)", "quantifier": "every finite list of well-formed keys", "why_tests_cant": "the shipped tests only use lists on which it happens to work", "anchors": ["src/opyenxes/utils/XTokenHelper.py:4-6,9-11"]}
{"id": "C03", "title": "Extracted tokens are clean and a second encode/decode is the identity", "statement": "Every token returned by extract_tokens, for any input string, is non-empty, has no leading or trailing white space and contains no quote; and once a list of well-formed keys (non-empty, trimmed, quote-free) went through format_token and extract_tokens, repeating the trip changes nothing.", "quantifier": "every string; every list of well-formed keys", "why_tests_cant": "unbounded strings", "anchors": ["src/opyenxes/utils/XTokenHelper.py:4-6,9-11"]}
{"id": "C04", "title": "Timestamps survive being written and read, to the millisecond", "statement": "For every valid datetime whose UTC offset is a whole number of minutes (or that is naive), parse_date_time(str(XAttributeTimestamp(k, d))) returns a timezone-aware datetime with the same calendar and clock fields, microseconds truncated to milliseconds and the same offset (naive is read back as UTC).", "quantifier": "every datetime in years 1-9999 and every whole-minute offset strictly between -24h and +24h", "why_tests_cant": "about 10^17 datetimes times 2879 offsets", "anchors": ["src/opyenxes/model/XAttributeTimestamp.py:78-98", "src/opyenxes/utils/XsDateTimeConversion.py:4-47"]}
{"id": "C05", "title": "parse_date_time never raises", "statement": "For every string, parse_date_time returns None or a timezone-aware datetime and never raises. (The code violates this for astronomically large zone hours: OverflowError is not caught.) For all strings whose zone fields stay below a billion days it holds.", "quantifier": "every string", "why_tests_cant": "all strings, including adversarial ones", "anchors": ["src/opyenxes/utils/XsDateTimeConversion.py:4-47"]}
{"id": "C06", "title": "A parsed timestamp is always a valid, timezone-aware datetime", "statement": "Whenever parse_date_time returns a datetime, that datetime has year 1-9999, a real calendar day, clock fields in range, and a UTC offset that is a whole number of minutes strictly between -24h and +24h.", "quantifier": "every string", "why_tests_cant": "all strings", "anchors": ["src/opyenxes/utils/XsDateTimeConversion.py:4-47"]}
{"id": "C07", "title": "Identifiers survive being written and read", "statement": "For every 128-bit identifier, XID.parse(str(XID(u))) denotes the same identifier, and two identifiers have the same text only if they are equal; the text is always 36 characters of upper-case hex and hyphens. Reading does not depend on the letter case of the hex digits.", "quantifier": "all 2^128 identifiers", "why_tests_cant": "2^128 values", "anchors": ["src/opyenxes/id/XID.py:13-21,66-67"]}
{"id": "C08", "title": "Identifier comparison is a total order consistent with equality", "statement": "XID.compare_to returns 0 exactly when the identifiers are equal, is antisymmetric and transitive, and agrees with the text order of the two identifiers.", "quantifier": "all pairs and triples of 128-bit identifiers", "why_tests_cant": "2^384 triples", "anchors": ["src/opyenxes/id/XID.py:53-64,78-81", "src/opyenxes/utils/CompareUtils.py:1-13"]}
{"id": "C09", "title": "Typed attribute comparison is a total order", "statement": "For each attribute type (boolean, discrete, continuous without NaN, literal, id, timestamp of one awareness), compare_to never raises, is antisymmetric and transitive, and returns 0 exactly when key and value are equal.", "quantifier": "all triples of attributes of the same type", "why_tests_cant": "values are unbounded integers/strings/doubles; transitivity ranges over triples", "anchors": ["src/opyenxes/model/XAttributeDiscrete.py:46-58", "src/opyenxes/model/XAttributeLiteral.py:46-58", "src/opyenxes/model/XAttributeContinuous.py:46-59", "src/opyenxes/model/XAttributeBoolean.py:46-58", "src/opyenxes/model/XAttributeID.py:45-57", "src/opyenxes/model/XAttributeTimestamp.py:59-73", "src/opyenxes/utils/CompareUtils.py:1-44"]}
{"id": "C10", "title": "Attribute equality is an equivalence relation", "statement": "a == b between attributes is reflexive (NaN aside), symmetric and transitive. (The code violates symmetry and transitivity: an XAttributeList equals any attribute with the same key, but not conversely.) Among the six value-carrying types it is an equivalence.", "quantifier": "all triples of attributes of any types", "why_tests_cant": "pairs of types times unbounded values", "anchors": ["src/opyenxes/model/XAttribute.py:59-62", "src/opyenxes/model/XAttributeLiteral.py:72-78", "src/opyenxes/model/XAttributeCollection.py:1-51"]}
{"id": "C11", "title": "Equal attributes hash equally", "statement": "Whenever a == b for two value-carrying attributes, hash(a) == hash(b), so sets and dicts of attributes behave. (Fails if one of them is a list or container.)", "quantifier": "all pairs of attributes, for any deterministic hash of the Python primitives", "why_tests_cant": "all pairs of values", "anchors": ["src/opyenxes/model/XAttribute.py:50-51", "src/opyenxes/model/XAttributeContinuous.py:64-65", "src/opyenxes/model/XAttributeTimestamp.py:75-76"]}
{"id": "C12", "title": "Comparing a naive with an aware timestamp", "statement": "compare_to between two timestamp attributes with the same key raises TypeError exactly when one value is naive and the other is aware; equality never raises and is False in that case.", "quantifier": "all pairs of timestamp attributes", "why_tests_cant": "all pairs", "anchors": ["src/opyenxes/model/XAttributeTimestamp.py:59-73,106-112"]}
{"id": "C13", "title": "insert_ordered inserts exactly the given event and returns its position", "statement": "XTrace.insert_ordered(e) changes the trace only by inserting e at the returned index; all other events keep their relative order.", "quantifier": "every trace (any length, with or without timestamps) and every event for which no TypeError is raised", "why_tests_cant": "traces have unbounded length and arbitrary timestamp patterns", "anchors": ["src/opyenxes/model/XTrace.py:28-57"]}
{"id": "C14", "title": "insert_ordered keeps a sorted trace sorted and is stable", "statement": "If every event of the trace carries a timestamp of one awareness and they are in non-decreasing order, then after insert_ordered(e) of an event with such a timestamp the trace is again sorted, and e sits behind all events with the same time.", "quantifier": "every sorted trace, every event", "why_tests_cant": "unbounded length", "anchors": ["src/opyenxes/model/XTrace.py:28-57"]}
{"id": "C15", "title": "insert_ordered keeps the timestamped events sorted even when some events have no timestamp", "statement": "If the events that carry a timestamp are in order, then they are still in order after insert_ordered(e), whatever events without timestamp the trace contains. (The code violates this: meeting an event without timestamp makes it append at the end.) The order is kept exactly if walking back from the end over the strictly later events does not meet an event without timestamp while some event of the trace is strictly later.", "quantifier": "every trace and event", "why_tests_cant": "arbitrary interleavings of stamped and unstamped events", "anchors": ["src/opyenxes/model/XTrace.py:28-57"]}
{"id": "C16", "title": "Building a trace with insert_ordered sorts it", "statement": "Inserting any sequence of timestamped events (one awareness) one by one with insert_ordered into an empty trace yields exactly the stable sort of that sequence by timestamp.", "quantifier": "every finite sequence of timestamped events", "why_tests_cant": "unbounded sequences and all n! arrival orders", "anchors": ["src/opyenxes/model/XTrace.py:28-57"]}
{"id": "C17", "title": "Classifier equality, ordering and hashing agree", "statement": "For attribute classifiers compare_to is a total order whose 0 means equal name and equal keys, __eq__ is an equivalence relation, and equal classifiers hash equally.", "quantifier": "all triples of classifiers", "why_tests_cant": "unbounded names and key lists", "anchors": ["src/opyenxes/classification/XEventAttributeClassifier.py:96-113,118-119,127-130"]}
{"id": "C18", "title": "A classifier separates events exactly by the values of its defining attributes", "statement": "same_event_class(a, b) holds if and only if a and b agree (presence and printed value) on every defining attribute. (The code violates this: missing and empty values, '&&' inside values and, from three keys on, missing values shift.) One direction always holds; the converse holds when all attributes are present and printed values contain no '&'.", "quantifier": "all pairs of events and all key lists", "why_tests_cant": "unbounded values and key lists", "anchors": ["src/opyenxes/classification/XEventAttributeClassifier.py:18-52,70-83"]}
{"id": "C19", "title": "Event classes form a partition that counts every event", "statement": "After XEventClasses.derive_event_classes(classifier, log) the class identities are pairwise distinct, each class' size is exactly the number of events of the log with that identity, and the sizes add up to the number of events.", "quantifier": "every log and classifier whose events' class identities can be printed (always so if every value has the type of its attribute)", "why_tests_cant": "logs of unbounded size", "anchors": ["src/opyenxes/classification/XEventClasses.py:95-120", "src/opyenxes/classification/XEventClass.py:1-99"]}
{"id": "C20", "title": "Event class indices are the alphabetical ranks", "statement": "After derive_event_classes the classes have indices 0..n-1, increasing with the class identity; get_by_index(i) returns the class with index i, and returns None (never another class) outside that range.", "quantifier": "every log and classifier whose events' class identities can be printed (always so if every value has the type of its attribute), every integer index", "why_tests_cant": "unbounded", "anchors": ["src/opyenxes/classification/XEventClasses.py:81-93,122-137", "src/opyenxes/classification/XEventClass.py:62-71"]}
{"id": "C21", "title": "Event classes do not depend on the order of the log", "statement": "Deriving the event classes of two logs whose events are permutations of each other gives the same classes with the same sizes and indices.", "quantifier": "every pair of logs with the same multiset of events whose events' class identities can be printed (always so if every value has the type of its attribute)", "why_tests_cant": "factorially many permutations", "anchors": ["src/opyenxes/classification/XEventClasses.py:24-37"]}
{"id": "C22", "title": "Looking up the class of an event finds its class", "statement": "After registering a log, get_class_of(event) returns the class whose identity is that of the event for every event of the log, and None exactly for events whose identity does not occur in the log.", "quantifier": "every log, classifier and event whose events' class identities can be printed (always so if every value has the type of its attribute)", "why_tests_cant": "unbounded", "anchors": ["src/opyenxes/classification/XEventClasses.py:56-67,69-79"]}
{"id": "C23", "title": "The AND classifier separates at least as finely as each part", "statement": "If two events are in the same class of XEventAndClassifier([c1,...,cn]) then they are in the same class of every ci. (The code violates this in general, because of ambiguous identities; it holds when all keys are present and printed values contain no '&'.) Its keys are exactly the union of the parts' keys, sorted, without duplicates.", "quantifier": "all non-empty lists of classifiers and all pairs of events", "why_tests_cant": "unbounded", "anchors": ["src/opyenxes/classification/XEventAndClassifier.py:15-37"]}
{"id": "C24", "title": "Time bounds are the minimum and maximum of what was registered", "statement": "After registering any sequence of datetimes of one awareness, the start (end) date of XTimeBounds is the smallest (largest) of them; with none registered both are None. As points in time the result does not depend on the order of registration.", "quantifier": "every finite sequence of registrations, in every order", "why_tests_cant": "unbounded sequences and permutations", "anchors": ["src/opyenxes/info/XTimeBounds.py:15-21,23-29,49-72"]}
{"id": "C25", "title": "Merging time bounds is the union", "statement": "Registering one XTimeBounds into another gives the same bounds as registering all of the underlying dates directly, and every registered date is_within the resulting bounds.", "quantifier": "every pair of sequences of registrations", "why_tests_cant": "unbounded", "anchors": ["src/opyenxes/info/XTimeBounds.py:31-47,49-72"]}
{"id": "C26", "title": "Attribute statistics count what was registered", "statement": "After any sequence of register(attribute), get_frequency(key) is the number of registrations with that key, the total is the number of registrations, and the relative frequencies of the registered keys add up to one.", "quantifier": "every finite sequence of registrations that does not raise: exactly those in which the first attribute of every key is neither a timestamp nor a list nor a container", "why_tests_cant": "unbounded sequences", "anchors": ["src/opyenxes/info/XAttributeInfo.py:35-47,49-61,144-161"]}
{"id": "C27", "title": "Attribute statistics can be queried by type and by extension", "statement": "After registering attributes, get_attributes_for_type(t) / get_keys_for_type(t) return exactly the registered ones of that type and get_attributes_for_extension(e) those of that extension. (The code violates this: those queries never return anything, whatever was registered.)", "quantifier": "every finite sequence of registrations", "why_tests_cant": "shows emptiness for all histories, not just for one", "anchors": ["src/opyenxes/info/XAttributeInfo.py:63-76,95-110,128-134"]}
{"id": "C28", "title": "Log summary counts are right", "statement": "Whenever XLogInfo.create(log, ...) succeeds, the number of traces and events equal those of the log, and the log/trace/event/meta attribute frequencies count exactly the attributes of that level.", "quantifier": "every log on which it does not raise", "why_tests_cant": "unbounded logs", "anchors": ["src/opyenxes/info/XLogInfo.py:70-95,97-109"]}
{"id": "C29", "title": "Log summaries can be built for any log", "statement": "XLogInfo.create never raises on a well-formed log. (The code violates this: it raises AttributeError as soon as a timestamp, list or container attribute is the first one of its key on some level.) For every log whose values have the types of their attributes, it succeeds exactly when on each level (log, traces, events, attributes of attributes) the first attribute of every key is neither a timestamp nor a list nor a container, what the consulted classifiers look at can be printed, no event has a list or container under 'time:timestamp', and the timestamps of the events all carry an offset from UTC or all carry none. For logs in which, on each level, a key always comes with the same type, that is exactly when no timestamp, list or container occurs anywhere.", "quantifier": "every log", "why_tests_cant": "needs the full 'if and only if' over all logs", "anchors": ["src/opyenxes/info/XLogInfo.py:29-44", "src/opyenxes/utils/XAttributeUtils.py:87-116"]}
{"id": "C30", "title": "The cached log summary describes the current log", "statement": "XLogInfoFactory.create_log_info(log, classifier) returns a summary that matches the current content of the log. (The code violates this: the cache is not invalidated when the log changes.) It holds for every history in which the log is not modified after the first summary for that classifier.", "quantifier": "every history of modifications and summary requests", "why_tests_cant": "histories of unbounded length", "anchors": ["src/opyenxes/info/XLogInfoFactory.py:9-26", "src/opyenxes/model/XLog.py:104-113,115-125"]}
{"id": "C31", "title": "The log caches the last summary only", "statement": "After any history of set_info calls, log.get_info(c) returns the summary given with the last set_info whose classifier equals c if that was the last call at all, else None.", "quantifier": "every history of set_info/get_info calls", "why_tests_cant": "histories", "anchors": ["src/opyenxes/model/XLog.py:104-113,115-125"]}
{"id": "C32", "title": "Cloned events/traces/logs have independent structure", "statement": "After cloning an event, trace or log, adding, replacing or removing attributes (or events/traces) on either copy, at any level, is never visible through the other.", "quantifier": "every object graph, every history of structural updates on one copy", "why_tests_cant": "all heaps and all update histories", "anchors": ["src/opyenxes/model/XEvent.py:27-36", "src/opyenxes/model/XTrace.py:16-26", "src/opyenxes/model/XLog.py:23-41", "src/opyenxes/model/XAttributeMap.py:13-23"]}
{"id": "C33", "title": "Cloned events have independent attribute values", "statement": "After cloning an event, changing the value of an attribute through the clone is never visible through the original. (The code violates this: the attribute objects are shared.)", "quantifier": "every event with at least one attribute", "why_tests_cant": "holds/fails for every heap, not one example", "anchors": ["src/opyenxes/model/XEvent.py:27-36", "src/opyenxes/model/XAttributeMap.py:13-23"]}
{"id": "C34", "title": "A clone shows the same content", "statement": "Immediately after cloning, the copy of an event/trace/log shows the same attributes, the same number and order of traces/events with the same attributes, and every cloned event has a new identifier.", "quantifier": "every acyclic object graph", "why_tests_cant": "all heaps", "anchors": ["src/opyenxes/model/XEvent.py:27-36", "src/opyenxes/model/XTrace.py:16-26", "src/opyenxes/model/XLog.py:23-41"]}
{"id": "C35", "title": "Cloning an attribute keeps its nested attributes", "statement": "attribute.clone() yields an attribute with the same key, value, extension and nested attributes. (The code violates this: nested attributes are dropped for every type; lists and containers cannot be cloned at all.) Key, value and extension are kept.", "quantifier": "every attribute tree", "why_tests_cant": "all trees", "anchors": ["src/opyenxes/model/XAttributeLiteral.py:36-44", "src/opyenxes/model/XAttributeDiscrete.py:36-44", "src/opyenxes/model/XAttributeCollection.py:1-51"]}
{"id": "C36", "title": "create_event keeps the identity it is given", "statement": "XFactory.create_event(attributes, id) returns an event with that id and those attributes. (The code violates this when attributes is None or empty: the id is replaced by a fresh one.)", "quantifier": "every attribute map and id", "why_tests_cant": "all maps", "anchors": ["src/opyenxes/factory/XFactory.py:47-64", "src/opyenxes/model/XEvent.py:18-25"]}
{"id": "C37", "title": "Constructing an element from an attribute map shares that map", "statement": "An element constructed with a non-empty attribute map uses that very map: every later change made through the map is visible through the element, for the whole history. (Violated for a map that is empty at construction: the element silently gets another one.)", "quantifier": "every map and every history of later changes", "why_tests_cant": "histories", "anchors": ["src/opyenxes/model/XAttributable.py:12-16"]}
{"id": "C38", "title": "Saving a log as XES and loading it again gives the same log", "statement": "For every canonical log (map keys equal attribute keys, values of the right type, timestamps aware with whole-minute offset and millisecond precision, list/container nested attributes mirror their collection, globals without nested attributes, classifier keys that survive the token encoding, printable text without tabs/newlines, extensions as assigned by the extension manager), XesXmlParser applied to the output of XesXmlSerializer yields a log with the same attributes (nested to any depth), the same traces and events in the same order, the same extensions, globals and classifiers.", "quantifier": "every canonical log: any number of traces/events/attributes and any nesting depth", "why_tests_cant": "unbounded logs and nesting depth", "anchors": ["src/opyenxes/data_out/XesXmlSerializer.py:40-103,105-118,120-164", "src/opyenxes/data_in/XesXmlParser.py:70-237"]}
{"id": "C39", "title": "Exactly what XES save/load changes", "statement": "For every well-typed log (not necessarily canonical) with whole-minute timestamps and XML-representable text, loading the saved file succeeds and yields the normalised log: attributes re-keyed by their own key (later duplicates replace earlier ones), timestamps made aware and cut to milliseconds, nested attributes of lists/containers replaced by their collection, global attributes flattened children-first, classifier keys glued, unknown extensions dropped, control white space turned into blanks.", "quantifier": "every well-typed log", "why_tests_cant": "unbounded", "anchors": ["src/opyenxes/data_out/XesXmlSerializer.py:1-164", "src/opyenxes/data_in/XesXmlParser.py:1-237"]}
{"id": "C40", "title": "Saving and loading twice is the same as once", "statement": "For every well-typed log, the log obtained by save-load-save-load equals the log obtained by save-load.", "quantifier": "every well-typed log whose classifier keys are non-blank, stripped, free of quotes and of text the file keeps; every extension manager whose prefix lookup returns an extension of that prefix", "why_tests_cant": "unbounded", "anchors": ["src/opyenxes/data_out/XesXmlSerializer.py:1-164", "src/opyenxes/data_in/XesXmlParser.py:1-237"]}
{"id": "C41", "title": "Global attributes keep their nested attributes through XES", "statement": "Global trace/event attributes come back from save/load with the same nesting. (The code violates this: nested global attributes are flattened into additional globals and the parent comes back without children; as soon as one global attribute has nested attributes or members, the loaded log has more global attributes than the saved one.)", "quantifier": "every list of global attributes", "why_tests_cant": "unbounded nesting", "anchors": ["src/opyenxes/data_in/XesXmlParser.py:199-237"]}
{"id": "C42", "title": "XES loading preserves trace and event order and number", "statement": "For every XES element tree with any attributes whatsoever (as long as loading does not raise), the loaded log has exactly one trace per trace element and each trace exactly one event per event element, in document order.", "quantifier": "every XES document tree of log/trace/event elements with well-formed attributes", "why_tests_cant": "unbounded documents", "anchors": ["src/opyenxes/data_in/XesXmlParser.py:93-197,199-237"]}
{"id": "C43", "title": "Unknown XML elements do not change what is loaded", "statement": "Inserting start/end events of elements with unknown names anywhere into the SAX event stream leaves the loaded log unchanged; so does changing the letter case of element names.", "quantifier": "every event stream and every insertion point", "why_tests_cant": "all streams", "anchors": ["src/opyenxes/data_in/XesXmlParser.py:93-197,199-237"]}
{"id": "C44", "title": "An unreadable date only loses that attribute", "statement": "A <date> element with an unparseable value is skipped and everything else loads as if it were not there. (The code violates this in the strongest way: the start tag puts nothing on the attribute stack but the end tag takes something off, so every document that contains an unreadable date, wherever it is, makes loading raise an exception; where the elements are in their places and only dates cannot be read, it is an IndexError.)", "quantifier": "every document containing an unreadable date", "why_tests_cant": "all documents and positions", "anchors": ["src/opyenxes/data_in/XesXmlParser.py:93-197,199-237"]}
{"id": "C45", "title": "The XES parser builds the log with the factory it was given", "statement": "XesXmlParser(factory).parse(file) creates all model objects with the given factory. (The code violates this: the handler always uses the registry's default factory.)", "quantifier": "every factory and document", "why_tests_cant": "all factories", "anchors": ["src/opyenxes/data_in/XesXmlParser.py:36-50,93-197"]}
{"id": "C46", "title": "Loaded logs carry the XES feature attributes of the document", "statement": "The features of the loaded log are exactly the attributes of the log element whose name starts with 'xes.' or 'openxes.'; after a save/load they are always the serializer's three version entries, whatever the features were.", "quantifier": "every log element / every log", "why_tests_cant": "unbounded", "anchors": ["src/opyenxes/data_in/XesXmlParser.py:93-197", "src/opyenxes/data_out/XesXmlSerializer.py:40-103", "src/opyenxes/model/XLog.py:85-93"]}
{"id": "C47", "title": "MXML save/load keeps traces, events and names", "statement": "For every log that XMxmlSerializer accepts, whose traces all contain events, whose trace names are non-blank strings, whose event names (where present) are non-empty trimmed strings, whose names survive XML, and whose transitions are among the twelve types known to the serializer, XMxmlParser applied to any delivery of the written document yields one log with the same traces in the same order, each with the same events in the same order, with the same trace names, event names and lifecycle transitions.", "quantifier": "every such log", "why_tests_cant": "unbounded", "anchors": ["src/opyenxes/data_out/XMxmlSerializer.py:38-136", "src/opyenxes/data_in/XMxmlParser.py:76-299"]}
{"id": "C48", "title": "MXML save/load keeps timestamps and resources", "statement": "Events come back from MXML save/load with their time:timestamp and org:resource. (The code violates this for every event: the serializer writes lower-case tags which the parser ignores.)", "quantifier": "every log", "why_tests_cant": "shown lost for all logs, not just one", "anchors": ["src/opyenxes/data_out/XMxmlSerializer.py:38-136", "src/opyenxes/data_in/XMxmlParser.py:182-271"]}
{"id": "C49", "title": "MXML loading drops exactly the traces without events", "statement": "Loading an MXML document keeps, in document order, exactly those ProcessInstance elements that contain at least one AuditTrailEntry, and keeps all their entries in document order whatever their timestamps.", "quantifier": "every MXML document tree of processes, instances and entries that loads without an exception", "why_tests_cant": "unbounded", "anchors": ["src/opyenxes/data_in/XMxmlParser.py:182-271"]}
{"id": "C50", "title": "MXML loading does not depend on how the text is chunked", "statement": "The SAX layer may deliver character data in arbitrary pieces; splitting or merging adjacent pieces never changes the loaded logs.", "quantifier": "every event stream and every chunking", "why_tests_cant": "all chunkings", "anchors": ["src/opyenxes/data_in/XMxmlParser.py:182-271,293-299"]}
{"id": "C51", "title": "MXML attributes are attached to the element that contains them", "statement": "A data attribute of a ProcessInstance (Process) in an MXML file becomes an attribute of that trace (log). (The code violates this: while a trace has no events yet it is falsy, so the attribute goes to the log, or is lost.)", "quantifier": "every MXML document", "why_tests_cant": "all documents", "anchors": ["src/opyenxes/data_in/XMxmlParser.py:182-271"]}
{"id": "C52", "title": "Which file names a parser accepts", "statement": "XesXmlParser.can_parse (and the gzip and MXML variants) accept a file name exactly if it ends with one of the format's suffixes, case-sensitively, and is longer than the suffix.", "quantifier": "every file name", "why_tests_cant": "all strings", "anchors": ["src/opyenxes/data_in/XesXmlParser.py:26-34,53-68", "src/opyenxes/data_in/XesXmlGZIPParser.py:1-38", "src/opyenxes/data_in/XMxmlParser.py:1-299", "src/opyenxes/data_in/XMxmlGZIPParser.py:1-37"]}
{"id": "C53", "title": "File name suffixes are recognised ignoring case", "statement": "can_parse(name) does not depend on the letter case of name, as the documentation says. (Violated: 'LOG.XES' is rejected.)", "quantifier": "every file name", "why_tests_cant": "all strings", "anchors": ["src/opyenxes/data_in/XesXmlParser.py:53-68"]}
{"id": "C54", "title": "At most one shipped parser accepts a file name", "statement": "No file name is accepted by two of the four shipped parsers, so the result of XUniversalParser.parse does not depend on the (unspecified) iteration order of the parser set; it returns the logs of the accepting parser, and raises exactly if none accepts or the accepting one fails.", "quantifier": "every file name, every iteration order, every outcome of the parsers", "why_tests_cant": "all names times 24 orders times outcomes", "anchors": ["src/opyenxes/data_in/XUniversalParser.py:11-22,25-43", "src/opyenxes/data_in/XParserRegistry.py:1-24"]}
{"id": "C55", "title": "Every advertised output suffix can be read back", "statement": "For every shipped serializer and each suffix it advertises, any file name with that suffix is accepted by the universal parser. (Violated for 'xez'; holds for xes, xes.gz, mxml, mxml.gz.)", "quantifier": "every file name stem, every advertised suffix", "why_tests_cant": "all stems", "anchors": ["src/opyenxes/data_out/XesXmlGZIPSerializer.py:25-31", "src/opyenxes/data_in/XUniversalParser.py:11-22"]}
{"id": "C56", "title": "Registries never lose or duplicate entries and always know a default", "statement": "After any history of register / set_current_default calls, get_available contains exactly the objects passed so far without duplicates, and the default is the last one set explicitly, else the first one registered.", "quantifier": "every history of registry calls", "why_tests_cant": "histories", "anchors": ["src/opyenxes/utils/XRegistry.py:17-23,25-34,36-43"]}
{"id": "C57", "title": "Singletons have one instance", "statement": "However many times a singleton class is instantiated, always the same object is returned, and classes do not share instances.", "quantifier": "every sequence of instantiations of any classes", "why_tests_cant": "histories", "anchors": ["src/opyenxes/utils/SingletonClassGenerator.py:1-214"]}
{"id": "C58", "title": "Extension lookups agree with each other", "statement": "After any history of registrations of extensions with pairwise distinct URIs, names and prefixes, get_by_uri, get_by_name, get_by_prefix, get_by_index and get_index are mutually inverse and never mix up extensions; unknown names/prefixes/indices give None/-1. In particular the eight standard extensions can be told apart and each is found by its URI, name and prefix.", "quantifier": "every registration history", "why_tests_cant": "histories", "anchors": ["src/opyenxes/extension/XExtensionManager.py:37-45,47-58,60-72,74-86,88-99,101-114"]}
{"id": "C59", "title": "Re-registering an extension updates all lookups", "statement": "Registering another extension with an already known URI makes every lookup return the new one. (Violated: get_by_uri returns the new one, the others the old one.)", "quantifier": "every registration history", "why_tests_cant": "histories", "anchors": ["src/opyenxes/extension/XExtensionManager.py:37-45"]}
{"id": "C60", "title": "Concept names can be assigned and read back", "statement": "After XConceptExtension.assign_name(e, n) with a non-empty name, extract_name(e) == n and every other attribute of e is unchanged. A blank name or None changes nothing, and an element without a name gives None.", "quantifier": "every element and name", "why_tests_cant": "all maps", "anchors": ["src/opyenxes/extension/std/XConceptExtension.py:37-49,51-63"]}
{"id": "C61", "title": "Concept instances can be assigned and read back", "statement": "After assign_instance(e, x), extract_instance(e) == x and the name of e is unchanged. (Violated: the instance is stored under concept:name, overwriting the name.)", "quantifier": "every event and value", "why_tests_cant": "all maps", "anchors": ["src/opyenxes/extension/std/XConceptExtension.py:66-78,80-92"]}
{"id": "C62", "title": "Resource, role and group can be assigned and read back", "statement": "After XOrganizationalExtension.assign_resource/role/group(e, x) with a non-blank x, the matching extractor returns x exactly as given; the other two and all other attributes of e are unchanged, so assignments of different fields commute; a blank x or None changes nothing.", "quantifier": "every event and value", "why_tests_cant": "all maps", "anchors": ["src/opyenxes/extension/std/XOrganizationalExtension.py:1-124"]}
{"id": "C63", "title": "Lifecycle model and transition can be assigned and read back", "statement": "After XLifecycleExtension.assign_transition/assign_model the extractor returns the trimmed value, other attributes are unchanged; assign_standard_transition followed by extract_standard_transition returns the same transition, and StandardModel.decode maps unknown text to UNKNOWN.", "quantifier": "every element and value", "why_tests_cant": "all maps and strings", "anchors": ["src/opyenxes/extension/std/XLifecycleExtension.py:1-173"]}
{"id": "C64", "title": "Cost totals, amounts and drivers can be assigned and read back", "statement": "assign_total / assign_amount store a positive number that the extractor returns, and leave everything else unchanged (a non-positive number changes nothing); the same is expected of currency and type. (Violated for currency, which is stored under concept:name, and for type, which stores a Python class object.)", "quantifier": "every element and value", "why_tests_cant": "all maps", "anchors": ["src/opyenxes/extension/std/XCostExtension.py:1-509"]}
{"id": "C65", "title": "Micro extension fields can be assigned and read back", "statement": "assign_level stores a positive level that extract_level returns; assign_length a non-negative length; remove_* makes the entry absent and changes nothing else, and the extractors then give -1, None and KeyError; assign_parent_id with an identifier always fails.", "quantifier": "every event and value", "why_tests_cant": "all maps", "anchors": ["src/opyenxes/extension/std/XMicroExtension.py:1-151"]}
{"id": "C66", "title": "Model references can be assigned and read back", "statement": "XSemanticExtension.extract_model_references(e) after assign_model_references(e, refs) returns refs. (Violated for every non-empty list of references: without backslashes one string is returned, all references in lower case with a blank after each.)", "quantifier": "every element and list of references", "why_tests_cant": "unbounded lists", "anchors": ["src/opyenxes/extension/std/XSemanticExtension.py:1-115"]}
{"id": "C67", "title": "Nested cost values can be extracted", "statement": "XAbstractNestedAttributeSupport.extract_nested_values(e) returns a map with one entry per leaf path. (Violated: whenever any leaf with a value is reached it raises TypeError; it only ever returns the empty map.)", "quantifier": "every element tree", "why_tests_cant": "all trees", "anchors": ["src/opyenxes/extension/std/XAbstractNestedAttributeSupport.py:1-210"]}
{"id": "C68", "title": "Attribute maps only contain extensions known to get_extensions", "statement": "element.get_extensions() returns the extensions of the element's attributes. (Violated for traces, events and attributes: the result is always empty.)", "quantifier": "every element", "why_tests_cant": "all elements", "anchors": ["src/opyenxes/model/XAttributable.py:18-30"]}
{"id": "C69", "title": "Durations are rendered without loss", "statement": "XTimer.format_duration(ms) spells a non-negative integer number of milliseconds such that the total of its parts is exactly that number, so two different durations never look the same.", "quantifier": "all integers >= 0", "why_tests_cant": "unbounded integers", "anchors": ["src/opyenxes/utils/XTimer.py:53-84"]}
{"id": "C70", "title": "The timer measures elapsed milliseconds", "statement": "get_duration() after stop() equals the elapsed milliseconds between start() and stop(). (Violated for all realistic clock readings: the stop time is stored in seconds.)", "quantifier": "all clock readings", "why_tests_cant": "all readings", "anchors": ["src/opyenxes/utils/XTimer.py:20-25,27-31,33-41"]}
{"id": "C71", "title": "Attribute name maps translate consistently", "statement": "After any history of get_mapping and register_mapping calls on the global attribute name map, map(key) returns the last alias registered for the key in the standard mapping EN, or None; map_safely(key, name) returns the last alias registered for the key in that mapping, else the one in EN, else the key itself, so never None for a known mapping. (map_safely with an unknown mapping name returns None.) An attribute stands for its key.", "quantifier": "every history", "why_tests_cant": "histories", "anchors": ["src/opyenxes/info/XGlobalAttributeNameMap.py:74-110,112-126,137-148", "src/opyenxes/info/XAttributeNameMap.py:1-63"]}
{"id": "C72", "title": "The event classes of a log summary are the ones derived directly", "statement": "Whenever XLogInfo.create(log, default, classifiers) succeeds, get_event_classes(c) is available for exactly the given classifiers, the default one and the three standard ones, and for each of them equals XEventClasses.derive_event_classes(c, log) - same identities, sizes and indices.", "quantifier": "every log, default classifier and list of classifiers", "why_tests_cant": "logs of any size and shape; two independent code paths have to agree", "anchors": ["src/opyenxes/info/XLogInfo.py:70-95,135-151", "src/opyenxes/classification/XEventClasses.py:24-37"]}
{"id": "C73", "title": "A log summary that can be built never has time boundaries", "statement": "For every typed log in which a key has one type per level: if XLogInfo.create succeeds, get_log_time_boundaries and every trace's boundaries are empty (both dates None), because any log with timestamps makes create raise.", "quantifier": "every typed, type-consistent log", "why_tests_cant": "needs all logs; no example shows that no boundary can ever appear", "anchors": ["src/opyenxes/info/XLogInfo.py:70-95", "src/opyenxes/utils/XAttributeUtils.py:87-116"]}
{"id": "C74", "title": "The support folder can be located repeatedly", "statement": "XRuntimeUtils.get_support_folder() returns the path of an existing folder, whether or not the folder existed before, on every platform. (Violated: it raises FileExistsError if the folder exists, so the second call always fails, and TypeError when USERPROFILE is not set.)", "quantifier": "every platform, environment and set of existing directories", "why_tests_cant": "tests run on one platform with one home directory", "anchors": ["src/opyenxes/utils/XRuntimeUtils.py:60-76,78-86"]}
{"id": "C75", "title": "Durations are rendered with normalised parts", "statement": "XTimer.format_duration(ms) of a non-negative number shows fewer than 24 hours, 60 minutes, 60 seconds and 1000 milliseconds. (Violated at the boundaries: one day is '24 hours, 0 milliseconds'; the bounds hold with <= instead of <.)", "quantifier": "all integers >= 0", "why_tests_cant": "the boundary values are single points in an infinite range", "anchors": ["src/opyenxes/utils/XTimer.py:53-84"]}
{"id": "C76", "title": "Timestamps can be assigned and read back", "statement": "After XTimeExtension.assign_timestamp(e, d) with a datetime, extract_timestamp(e) == d and every other attribute is unchanged. (Violated for every datetime with microseconds or a zone: both are dropped; exactly the other dates are read back.)", "quantifier": "every event, every datetime, every local time that converts the whole second there and back", "why_tests_cant": "The set of dates is unbounded and typical tests use whole seconds without a zone, where it works.", "anchors": ["src/opyenxes/extension/std/XTimeExtension.py:31-62", "src/opyenxes/model/XAttributeTimestamp.py:46-47"]}
{"id": "C77", "title": "Nested cost amounts can be assigned without disturbing anything else", "statement": "assign_nested_amounts(e, amounts) with positive amounts and different paths succeeds, and then the attribute at each path has its amount; attributes that existed keep their class, key, extension and value; the only new attributes are empty literals on the way to an amount; amounts at other paths do not change.", "quantifier": "every attribute tree and every dict of paths and amounts", "why_tests_cant": "Paths can overlap in prefixes in unboundedly many ways.", "anchors": ["src/opyenxes/extension/std/XAbstractNestedAttributeSupport.py:156-210", "src/opyenxes/extension/std/XCostExtension.py:268-347"]}
{"id": "C78", "title": "Extended events return what was set", "statement": "After set_resource/role/group(x) of an XExtendedEvent the matching getter returns x. (Violated exactly by the texts with an upper-case letter: the lower-case text is returned.)", "quantifier": "every event and every non-blank text", "why_tests_cant": "Tests with lower-case names pass.", "anchors": ["src/opyenxes/extension/std/XExtendedEvent.py:97-140"]}
{"id": "C79", "title": "Identities can be assigned and read back", "statement": "After XIdentityExtension.assign_id(e, v) with v not None, extract_id(e) is v and every other attribute is unchanged; None changes nothing; an element without identity has None.", "quantifier": "every element and value", "why_tests_cant": "The frame condition speaks about every other attribute.", "anchors": ["src/opyenxes/extension/std/XIdentityExtension.py:29-71"]}
{"id": "C80", "title": "Attributes of one MXML process stay out of the logs of other processes", "statement": "Loading an MXML file with several Process elements, a data attribute stated in one of them is not reachable from the logs of the others. (The code violates this: a data attribute stated before the first trace is nested into the attribute made of the Source element, which is one object shared by all logs.)", "quantifier": "every reader state and every data attribute", "why_tests_cant": "needs files with a source and several processes; shared state", "anchors": ["src/opyenxes/data_in/XMxmlParser.py:182-271"]}
{"id": "C81", "title": "Text of an MXML element is the text inside it", "statement": "The name, type, resource, timestamp or attribute value read from an MXML element consists of the character data between its start and end tags. (The code violates this: the buffer is not cleared at a start tag, so text that stands before it counts as well.)", "quantifier": "every reader state, every text and every element", "why_tests_cant": "all texts and elements", "anchors": ["src/opyenxes/data_in/XMxmlParser.py:104-180,182-271,293-299"]}
{"id": "C82", "title": "Timestamps are ordered chronologically", "statement": "The datetimes that timestamps are compared by order like calendar and clock: for two valid datetimes of the same zone, a < b exactly if a comes first by year, month, day, hour, minute, second, microsecond, and a == b exactly if all fields agree; an offset of o seconds makes the moment o seconds earlier; the same time on the next Gregorian calendar day is 24 hours later.", "quantifier": "every pair of valid datetimes", "why_tests_cant": "all dates of all years", "anchors": ["src/opyenxes/model/XTrace.py:28-57", "src/opyenxes/info/XTimeBounds.py:49-72", "src/opyenxes/model/XAttributeTimestamp.py:59-73"]}
{"id": "C83", "title": "Attributes of an extension definition are listed in the scope they are defined in", "statement": "If an extension document defines an attribute inside <log>, <trace>, <event> or <meta>, then the extension returned by XExtensionParser.parse lists it in get_log_attributes(), get_trace_attributes(), get_event_attributes() or get_meta_attributes() respectively.", "quantifier": "for all extension documents, scopes, attribute definitions and contents of the global name map", "why_tests_cant": "A test looks at one definition file; that the other three sets stay empty for every stream of XML events is a statement about all documents.", "anchors": ["src/opyenxes/extension/XExtensionParser.py:69-112", "src/opyenxes/extension/XExtension.py:71-105"]}
{"id": "C84", "title": "Reading an extension definition yields exactly the attributes it defines", "statement": "XExtensionParser.parse returns an extension with the name, prefix and URI of the document; get_defined_attributes() contains an attribute for every definition, no two equal ones and nothing else; each has key 'prefix:key', the class that belongs to the element, the extension itself, the neutral value of the class and nothing nested - whatever the grouping, order, repetition, and upper/lower case spelling of the elements.", "quantifier": "for all extension documents whose URI answers, all spellings of the element names", "why_tests_cant": "Documents are unbounded in the number, order and repetition of definitions.", "anchors": ["src/opyenxes/extension/XExtensionParser.py:47-148", "src/opyenxes/extension/XExtension.py:55-69"]}
{"id": "C85", "title": "get_defined_attributes is always up to date", "statement": "get_defined_attributes() returns the union of the log, trace, event and meta attributes the extension has at the moment of the call.", "quantifier": "for all extension objects and all histories of additions and calls", "why_tests_cant": "Staleness needs a call before an addition; only a statement over all histories says what later calls return.", "anchors": ["src/opyenxes/extension/XExtension.py:55-69"]}
{"id": "C86", "title": "Aliases of an extension definition translate its attributes", "statement": "Reading an extension document has the same effect on the global attribute name map as registering every alias for the full key of the attribute that encloses it, in document order; afterwards map_safely translates the key (or an attribute with it) in that mapping to the alias, if the document gives no other alias for that key in that mapping.", "quantifier": "for all extension documents whose URI answers, and all histories of the global name map", "why_tests_cant": "Histories of the name map and documents are unbounded; aliases of one attribute must not be attached to another.", "anchors": ["src/opyenxes/extension/XExtensionParser.py:114-129", "src/opyenxes/info/XGlobalAttributeNameMap.py:90-148"]}
{"id": "C87", "title": "Reading a local extension definition does not need the network", "statement": "XExtensionParser.parse of a local file gives the extension it defines, whether or not the URI in it can be reached.", "quantifier": "for all extension documents and network states", "why_tests_cant": "Tests run either online or offline.", "anchors": ["src/opyenxes/extension/XExtensionParser.py:58-76"]}
{"id": "C88", "title": "Caching an extension stores its definition", "statement": "After cache_extension(uri) has returned, the extension cache folder contains a file with the bytes that were downloaded.", "quantifier": "for all URIs, environments, network answers and disks", "why_tests_cant": "A test would need network access and a USERPROFILE; the claim is about every URI and every disk state.", "anchors": ["src/opyenxes/extension/XExtensionManager.py:130-161"]}
{"id": "C89", "title": "Loading the extension cache registers the cached extensions", "statement": "load_extension_cache() registers every extension whose definition lies in the cache folder and is younger than the maximum age, unless its URI is known already.", "quantifier": "for all environments, disks, cached definitions, and manager states", "why_tests_cant": "The violation (nothing is ever loaded) is a statement about all disk states.", "anchors": ["src/opyenxes/extension/XExtensionManager.py:163-201", "src/opyenxes/utils/XRuntimeUtils.py:60-86"]}
{"id": "C90", "title": "The footprint of the alpha algorithm classifies every pair of activities correctly", "statement": "For the log handed to AlphaAlgorithm, direct_succession, causal, parallel and choice of its Footprint contain exactly the pairs (a, b) of activities of the log with, respectively: b directly follows a in some trace; b follows a but never a follows b; both follow each other; neither follows the other. Every pair of activities is in exactly one of causal, reversed causal, parallel and choice, and the order of traces and their repetition do not matter.", "quantifier": "for all logs (lists of traces of activities) and all enumeration orders of the set of activities", "why_tests_cant": "The relations are defined over all traces of a log of any size; a test has one log.", "anchors": ["example/AlphaAlgorithm.py:26-63"]}
{"id": "C91", "title": "The candidate places of the alpha algorithm are exactly the pairs of the definition", "statement": "The pairs found are exactly those (A, B) of non-empty sets of activities such that every member of A causes every member of B, the members of A are mutually unrelated, and so are those of B; each such pair is found once.", "quantifier": "for all logs, all enumeration orders and all pairs of sets", "why_tests_cant": "The number of pairs of sets grows exponentially; the code searches proper subsets only, and that nothing is missed is a statement about all logs.", "anchors": ["example/AlphaAlgorithm.py:106-132"]}
{"id": "C92", "title": "The places of the alpha algorithm are exactly the maximal pairs", "statement": "The places kept from the candidates are exactly the candidate pairs that are not contained componentwise in another candidate, and every candidate is contained in a kept one.", "quantifier": "for all logs and all enumeration orders", "why_tests_cant": "The code removes elements while it compares; that the result does not depend on the order of comparisons and never loses a maximal pair is about all logs.", "anchors": ["example/AlphaAlgorithm.py:134-145"]}
{"id": "C93", "title": "The generated net has exactly the places and arcs of the definition", "statement": "The text has one line for each place (the start place with one token first, the end place second, one for each maximal pair) and one line for each activity. The line of an activity lists, once each, the places it takes from: the start place if it begins some trace and each (A, B) with the activity in B; and the places it puts into: the end place if it ends some trace and each (A, B) with the activity in A.", "quantifier": "for all logs without an empty trace and all enumeration orders of the sets", "why_tests_cant": "The arcs are found with an if/elif chain which would lose arcs of a place with an activity in both sets; that this cannot happen follows from the definition only.", "anchors": ["example/AlphaAlgorithm.py:153-191"]}
{"id": "C94", "title": "The alpha algorithm succeeds exactly for logs without empty traces", "statement": "AlphaAlgorithm(log) raises IndexError if some trace is empty and succeeds otherwise; then starting_events, ending_events and all_event are the first, the last and all activities of the traces. An activity that directly follows itself is in no place.", "quantifier": "for all logs and all enumeration orders", "why_tests_cant": "Tests use logs without empty traces; the claim is about every log.", "anchors": ["example/AlphaAlgorithm.py:86-104", "example/AlphaAlgorithm.py:147-151"]}
{"id": "C95", "title": "The compressed log has the first trace of every variant", "statement": "filter_compress_log keeps, in the order of the log, exactly the traces whose sequence of class identities does not occur in an earlier trace. So no two kept traces have the same sequence, every sequence of the log is kept, and nothing else is added.", "quantifier": "for all logs and all classifiers that can name every event", "why_tests_cant": "The comparison of each trace with all kept ones stops early in two nested loops; a test uses one log.", "anchors": ["example/filter_compress_log.py:1-52"]}
{"id": "C96", "title": "Converting a CSV file gives one trace for each case", "statement": "The log made from a CSV file has for each case number exactly one trace, with the events of the rows of this case in order.", "quantifier": "for all non-empty lists of rows", "why_tests_cant": "The loop keeps the case number of the first row for ever and never adds the last trace; a test with one file shows one consequence, the claim is about all files.", "anchors": ["example/Csv_to_xes_file.py:44-59"]}
{"id": "C97", "title": "Converting a CSV file reads every cell as written", "statement": "The value of a text column is the text of the cell, and the value of a number column is its number.", "quantifier": "for all rows of cells without the separator and all headers with different column names", "why_tests_cant": "Cells of any length and number; the last column is special because of the line end.", "anchors": ["example/Csv_to_xes_file.py:11-29", "example/Csv_to_xes_file.py:44-53"]}
{"id": "C98", "title": "The anonymised log does not name people", "statement": "After Anonymize_a_log every attribute of the saved log with key Resource or org:resource that has a value has the value UNKNOWN, and everything else is as before.", "quantifier": "for all logs without attribute objects shared between places", "why_tests_cant": "Attributes may be at any depth and at any of five places; a test has one log.", "anchors": ["example/Anonymize_a_log.py:14-39"]}
{"id": "C99", "title": "The number of activities of each person is the number of their events", "statement": "Number_of_activity_done_by_people counts for each name exactly the events with this name over all traces of all logs, and has one entry for each name that occurs.", "quantifier": "for all lists of logs and all classifiers that can name every event", "why_tests_cant": "Counting over nested lists of any size.", "anchors": ["example/Number_of_activity_done_by_people.py:9-17"]}
{"id": "C100", "title": "Clustering distributes the traces without loss", "statement": "Cluster_a_log makes one log for each cluster. Together they have exactly the traces of the log, each once and in order, and traces in which every activity occurs equally often are in the same log. Two traces have the same vector exactly in this case. It raises KeyError exactly if a predicted cluster does not exist.", "quantifier": "for all logs whose events all have a class name, all prediction functions, all numbers of clusters and all enumeration orders of the set of activities", "why_tests_cant": "The clustering is an arbitrary function of the data; a test runs one.", "anchors": ["example/Cluster_a_log.py:16-31", "example/Cluster_a_log.py:49-65"]}
{"id": "C101", "title": "The logs of the clusters keep the header of the log", "statement": "Each log made by Cluster_a_log has the attributes, extensions, classifiers and global attributes of the original log.", "quantifier": "for all logs, prediction functions and numbers of clusters", "why_tests_cant": "The assignment to a private name outside of the class creates another attribute and raises nothing; only a claim about the header of every log shows it.", "anchors": ["example/Cluster_a_log.py:49-60"]}
{"id": "C102", "title": "Comparison operators agree with each other", "statement": "For two objects a and b: exactly one of a < b, a == b, a > b holds, a <= b means a < b or a == b, a >= b means a > b or a == b, a != b means not a == b, and b > a is the same as a < b. This holds for attributes, identifiers, event classes and classifiers (also between a classifier class and its subclasses).", "quantifier": "for all pairs of attributes, of identifiers, of event classes and of classifiers", "why_tests_cant": "Six operators are defined separately in nine classes from compare_to and __eq__, which are not the same code; agreement is about all pairs of values.", "anchors": ["src/opyenxes/model/XAttribute.py:53-71", "src/opyenxes/model/XAttributeLiteral.py:66-87", "src/opyenxes/id/XID.py:72-90", "src/opyenxes/classification/XEventClass.py:79-99", "src/opyenxes/classification/XEventAttributeClassifier.py:121-139"]}
{"id": "C103", "title": "Equality of events, traces and logs is equality of event identities", "statement": "Two events are equal exactly if they have the same identity, and then hash equally; two traces are equal exactly if they have the same event identities in the same order; two logs are equal exactly if they have the same event identities in the same traces. Attributes, extensions and classifiers do not matter.", "quantifier": "for all pairs of events, traces and logs", "why_tests_cant": "Traces and logs inherit == from list; the claim is about all contents.", "anchors": ["src/opyenxes/model/XEvent.py:54-63", "src/opyenxes/model/XTrace.py:4-14", "src/opyenxes/model/XLog.py:4-21"]}
{"id": "C104", "title": "A clone equals its original", "statement": "clone() of an event, trace, log or extended event is equal (==) to the original.", "quantifier": "for all events, traces and logs and all fresh streams of identifiers", "why_tests_cant": "Equality compares identities, and clone draws new ones; when a clone is equal nevertheless is a statement about all objects.", "anchors": ["src/opyenxes/model/XEvent.py:27-36", "src/opyenxes/model/XTrace.py:16-26", "src/opyenxes/model/XLog.py:23-41", "src/opyenxes/extension/std/XExtendedEvent.py:249-277"]}
{"id": "C105", "title": "The text of a list attribute lists its members", "statement": "str() of a list or container attribute is the members as key:text in order, separated by commas, in brackets, to any depth; it can be printed exactly if all members can.", "quantifier": "for all list and container attributes with any nesting", "why_tests_cant": "The separator is chosen by position and the brackets depend on emptiness; nesting is unbounded.", "anchors": ["src/opyenxes/model/XAttributeCollection.py:37-51"]}
{"id": "C106", "title": "Every attribute has a prototype", "statement": "XAttributeUtils.derive_prototype returns for every attribute one with the same class, key and extension and the default value of the class; get_type_string tells the class.", "quantifier": "for all attributes of all classes", "why_tests_cant": "Eight classes with any contents; a misspelt method is only met for one of them.", "anchors": ["src/opyenxes/utils/XAttributeUtils.py:57-116"]}
{"id": "C107", "title": "Timestamps in milliseconds can be set and read back", "statement": "After set_value_millis(n), or construction from the integer n, get_value_millis() returns n.", "quantifier": "for all integers n at which the system clock is unambiguous, and all system clocks", "why_tests_cant": "The system clock is arbitrary and n is any integer.", "anchors": ["src/opyenxes/model/XAttributeTimestamp.py:18-25", "src/opyenxes/model/XAttributeTimestamp.py:35-47", "src/opyenxes/model/XAttributeTimestamp.py:123-132"]}
{"id": "C108", "title": "Log messages go to the current listener", "statement": "Every call of XLogging.log delivers the message exactly once to the listener that was set last, with the given importance or DEBUG, in the order of the calls; without a listener nothing is delivered.", "quantifier": "for all sequences of calls of set_listener and log", "why_tests_cant": "Sequences of any length.", "anchors": ["src/opyenxes/log/XLogging.py:9-30"]}
{"id": "C109", "title": "Random logs have the configured shape", "statement": "The log of Create_random_log has the configured number of traces, each with the drawn number of events; each event has the configured number of attributes, each with the class of its key.", "quantifier": "for all random draws", "why_tests_cant": "Random: a test sees a few draws; repeated draws overwrite an attribute.", "anchors": ["example/Create_random_log.py:10-43"]}
{"id": "C110", "title": "The text of an XES file holds the log", "statement": "Serialising a log to an XES file and parsing the text of that file gives a log with the same content in its normal form, whatever characters the keys, values, names and classifiers contain, as far as XML allows them; a log in normal form comes back unchanged, and the content is determined by the file.", "quantifier": "for all logs with well-typed values and legal characters, all extension managers, all factories and heaps, for Python before and from 3.13", "why_tests_cant": "Quotes, ampersands, angle brackets, tabs and line ends in any key or value pass through two escapes and two readers; nesting and length are unbounded.", "anchors": ["src/opyenxes/data_out/XesXmlSerializer.py:40-118", "src/opyenxes/data_in/XesXmlParser.py:36-50"]}
{"id": "C111", "title": "Every log can be saved", "statement": "XesXmlSerializer.serialize writes a file for every log whose values have the types of their attributes.", "quantifier": "for all logs with well-typed values", "why_tests_cant": "Depends on single characters anywhere in the log.", "anchors": ["src/opyenxes/data_out/XesXmlSerializer.py:83-100"]}
{"id": "C112", "title": "Line breaks and tabs survive saving", "statement": "A string value with tabs and line ends is the same after saving to an XES file and loading it.", "quantifier": "for all strings", "why_tests_cant": "Depends on every character and on which of the three white space characters is escaped by which writer.", "anchors": ["src/opyenxes/data_out/XesXmlSerializer.py:83-100", "src/opyenxes/data_in/XesXmlParser.py:48"]}
{"id": "C113", "title": "The text of an MXML file holds the log", "statement": "Serialising a log to an MXML file and parsing the text of that file gives one log with the traces that have events, in order, with the attributes that MXML keeps; the names of traces and the names and transitions of events come back, if every trace has a name and events, every event has a standard transition, and the names are neither blank nor surrounded by white space nor contain line ends or tabs; if a text contains a character that XML forbids, nothing is written.", "quantifier": "for all logs that the serializer accepts, for Python before and from 3.13", "why_tests_cant": "Element texts are indented by the writer and stripped by the reader, and characters are escaped twice; contents are unbounded.", "anchors": ["src/opyenxes/data_out/XMxmlSerializer.py:38-133", "src/opyenxes/data_in/XMxmlParser.py:42-58"]}
{"id": "C114", "title": "A file that is cut off is not loaded", "statement": "If a file written by XesXmlSerializer or XMxmlSerializer is cut off at any place before the end of its root element, parsing the rest raises an exception instead of returning a part of the log; cutting off only the last line feed changes nothing.", "quantifier": "for all logs that can be saved and all places to cut, for Python before and from 3.13", "why_tests_cant": "Any number of places in files of any length; a cut may fall inside a tag, an entity, a value or between elements.", "anchors": ["src/opyenxes/data_in/XesXmlParser.py:36-50", "src/opyenxes/data_in/XMxmlParser.py:42-58", "src/opyenxes/data_out/XesXmlSerializer.py:83-100", "src/opyenxes/data_out/XMxmlSerializer.py:121-133"]}
{"id": "C115", "title": "An XES document of another tool is read as what it says", "statement": "Parsing an XES document gives the log that the document describes: every attribute has the value its text stands for, element names and 'true' and scopes are read without regard to case, elements of different kinds may be mixed in any order, the last attribute with a key counts, and missing keys and values have their defaults; an int, float or id whose text is no such value makes the parser raise.", "quantifier": "for all documents whose structure XES allows, all managers, factories and heaps", "why_tests_cant": "Documents of other tools have any order, nesting, case and white space; the number of combinations is unbounded.", "anchors": ["src/opyenxes/data_in/XesXmlParser.py:93-237"]}
{"id": "C116", "title": "Global attributes of other scopes are not attributes of the log", "statement": "An attribute that a document declares inside a global element with a scope other than trace and event does not become an attribute of the log.", "quantifier": "for all documents with such an element", "why_tests_cant": "The scope may be any text and the content anything.", "anchors": ["src/opyenxes/data_in/XesXmlParser.py:135-142", "src/opyenxes/data_in/XesXmlParser.py:229-237"]}
{"id": "C117", "title": "An MXML document is read as what it says", "statement": "Parsing an MXML document gives one log for every Process, with one trace for every ProcessInstance that has entries and one event for every AuditTrailEntry, in the order of the document; names, types, originators, timestamps, model references, data attributes and sources have the values that the document states, whatever the order of the elements of an entry, the white space and the pieces in which text arrives. Data attributes of processes and instances must stand behind the first trace or entry (see C51).", "quantifier": "for all such documents and all ways of delivering them", "why_tests_cant": "Documents have any number of sources, processes, instances and entries with elements in any order, and text may be delivered in any pieces.", "anchors": ["src/opyenxes/data_in/XMxmlParser.py:104-269"]}
{"id": "C118", "title": "A saved file is loaded with its characters", "statement": "Saving a log to a compressed XES file and loading that file gives the content that the text of the file holds (C110), whatever characters are in the log; so does a plain file in UTF-8, with LF line ends or, from Python 3.13, with CR LF line ends, and a plain file in another encoding that has all the characters (where lines end with CR LF: without carriage returns). In an encoding that lacks a character of the text the save raises ValueError. The same holds for MXML files and C113.", "quantifier": "for all logs that can be saved, all characters, encodings and line ends", "why_tests_cant": "Round trips in tests use a few characters in one encoding on one platform.", "anchors": ["src/opyenxes/data_out/XesXmlSerializer.py:83-100", "src/opyenxes/data_out/XesXmlGZIPSerializer.py:9-22", "src/opyenxes/data_in/XesXmlGZIPParser.py:25-38", "src/opyenxes/data_out/XMxmlSerializer.py:121-133", "src/opyenxes/data_in/XMxmlGZIPParser.py:24-37"]}
{"id": "C119", "title": "A file cut off at any byte is not loaded", "statement": "Loading a saved UTF-8 file of which only a beginning is present (cut at any byte, also inside a character or a line end) raises, unless only the last line end or a part of it is missing.", "quantifier": "for all logs, all cut positions, LF and (from Python 3.13) CR LF line ends", "why_tests_cant": "There are as many cut positions as bytes for every log.", "anchors": ["src/opyenxes/data_in/XesXmlParser.py:36-50", "src/opyenxes/data_in/XMxmlParser.py:44-58"]}
{"id": "C120", "title": "A document is loaded from a plain file as from a compressed one", "statement": "Loading an XES or MXML document in UTF-8 (that declares no other encoding) from a plain file opened by open(path) gives the same log as loading it from a compressed file.", "quantifier": "for all documents and all platform encodings", "why_tests_cant": "The difference shows only on platforms whose encoding is not UTF-8.", "anchors": ["src/opyenxes/data_in/XesXmlParser.py:48", "src/opyenxes/data_in/XMxmlParser.py:56", "src/opyenxes/data_in/XesXmlGZIPParser.py:35-38"]}
{"id": "C121", "title": "What a serializer saved is loaded by XUniversalParser", "statement": "Saving a log with any of the four serializers under a name that consists of a non-empty stem, a dot and one of the serializer's suffixes (other than xez), and loading it with XUniversalParser().parse(open(name)), gives what the file holds (C110 for XES, C113 for MXML), in whatever order the registry lists the parsers. If a plain file was cut off (C119), an exception is raised.", "quantifier": "for all logs, names, orders of the registry and states a failed parser may leave behind", "why_tests_cant": "Whether it works may depend on the iteration order of a set of parsers, on the name and on every character of the log.", "anchors": ["src/opyenxes/data_in/XUniversalParser.py:25-43", "src/opyenxes/data_in/XParserRegistry.py:18-24", "src/opyenxes/data_out/XesXmlSerializer.py:31-100", "src/opyenxes/data_out/XMxmlSerializer.py:29-133"]}
{"id": "C122", "title": "A document of another format is noticed", "statement": "Loading a document that is not in the format of the parser (an XES document with the MXML parser, an MXML document with the XES parser, or XUniversalParser on an XES document under a name ending with .xml) raises instead of returning a result.", "quantifier": "for all documents", "why_tests_cant": "No finite set of documents shows what happens to all foreign ones.", "anchors": ["src/opyenxes/data_in/XMxmlParser.py:104-293", "src/opyenxes/data_in/XesXmlParser.py:84-237", "src/opyenxes/data_in/XUniversalParser.py:25-43"]}
{"id": "C123", "title": "Every xs:dateTime text is read as the instant it denotes", "statement": "parse_date_time of a text yyyy-mm-ddThh:mm:ss with an optional fraction of a second, followed by no zone, Z, +hh:mm or -hh:mm, returns the aware datetime of that instant (UTC if no zone is given).", "quantifier": "for all dates, fractions of any number of digits and zones of less than a day", "why_tests_cant": "The number of texts is unbounded; the zone is cut off by looking at the last seven characters, which fails or not depending on the lengths of the fields.", "anchors": ["src/opyenxes/utils/XsDateTimeConversion.py:4-47"]}
{"id": "C124", "title": "Which texts are read as a date", "statement": "parse_date_time returns a date only if, after the zone is removed, the text is an existing date and time with fields of the given widths separated by -, -, T or t, :, :, and .; the zone is the letter Z anywhere in the text, nothing, or what follows the first + or, within the last seven characters, the last -, as two whole numbers separated by a colon with an offset of less than a day. The date returned has these fields, and no text says two dates. Every other text gives None or OverflowError.", "quantifier": "for all texts", "why_tests_cant": "No sample of texts shows that none of the others is taken for a date.", "anchors": ["src/opyenxes/utils/XsDateTimeConversion.py:4-47"]}
{"id": "C125", "title": "The time boundaries of a trace of the log can be looked up", "statement": "After info = XLogInfo.create(log, ...), info.get_trace_time_boundaries(t) returns the boundaries of the timestamps of t for every trace t of the log.", "quantifier": "for all logs, traces and hashes the traces had and have", "why_tests_cant": "The hash of a trace is the address of a temporary object, so the outcome changes with the memory allocator and a test can pass by luck.", "anchors": ["src/opyenxes/info/XLogInfo.py:46-67,91,194-201", "src/opyenxes/model/XTrace.py:68-69"]}
{"id": "C126", "title": "The fields of an extended event are independent", "statement": "Calling a setter of an XExtendedEvent changes only what the getters of the same field return, and neither the identity of the event nor that of the wrapper; so of several calls only the last one for a field counts, and calls for different fields can be made in any order. set_attributes and has_attributes agree with get_attributes.", "quantifier": "for all events, sequences of setter calls with all arguments, system clocks and URI libraries", "why_tests_cant": "All sequences of calls; a wrong key shows only if two particular fields are used together.", "anchors": ["src/opyenxes/extension/std/XExtendedEvent.py:34-247", "src/opyenxes/extension/std/XConceptExtension.py:80-92"]}
{"id": "C127", "title": "Amounts, drivers and types can be assigned by key", "statement": "XCostExtension.assign_amounts/assign_drivers/assign_types(element, {key: value, ...}) gives the attribute of the element with each key, created if missing, the amount, driver or type.", "quantifier": "for all elements and dicts of texts", "why_tests_cant": "All keys and values; the failures do not depend on a particular input but on every input of more than one character.", "anchors": ["src/opyenxes/extension/std/XCostExtension.py:283-309,403-413,484-494", "src/opyenxes/extension/std/XAbstractNestedAttributeSupport.py:122-210"]}
{"id": "C128", "title": "Reading a log again after registering its extensions", "statement": "As in example/Parse_log_with_new_extension.py: if XExtensionParser reads the definition of an extension that was not known, and XExtensionManager registers it, then parsing a log again gives the same log as before, except that all attributes, at any depth, whose keys have the prefix of the extension now have that extension, and that the log lists it if the document names it.", "quantifier": "for all documents, extension definitions and histories of registrations", "why_tests_cant": "All documents at any depth, and the state of the manager.", "anchors": ["example/Parse_log_with_new_extension.py:1-24", "src/opyenxes/data_in/XesXmlParser.py:1-237", "src/opyenxes/extension/XExtensionManager.py:37-86", "src/opyenxes/extension/XExtensionParser.py:1-148"]}
{"id": "C129", "title": "The extractors read the attributes the standard prescribes", "statement": "For each single-valued attribute of the concept, organizational, lifecycle, cost, micro, identity and time extensions, the extractor gives the value of the attribute stored under the key of the standard, whoever stored it, and depends on nothing else in the element. Without the attribute it gives the documented answer: None, or -1 for the level, the length and the timestamp. (Violated: extract_parent_id raises KeyError, and extract_length gives None.)", "quantifier": "all elements, attributes of all classes under the key and other attributes", "why_tests_cant": "the key of an extractor matters only for elements that were not written with the matching assign method; each extractor needs its own case, and several were never called on a foreign element", "anchors": ["src/opyenxes/extension/std/XCostExtension.py:128-140,157-169,186-198,350-362,431-443", "src/opyenxes/extension/std/XMicroExtension.py:32-44,71-83,113-127", "src/opyenxes/extension/std/XConceptExtension.py:37-49,66-78", "src/opyenxes/extension/std/XTimeExtension.py:32-44"]}
{"id": "C130", "title": "The platform tests are consistent", "statement": "is_running_windows, is_running_mac_os_x, is_running_linux and is_running_unix say whether sys.platform begins with win32, darwin, linux, or one of freebsd, linux and darwin; at most one of the first three is true, Windows is never a Unix, and Mac OS and Linux always are. An object keeps the platform it determined first, whatever happens to sys.platform.", "quantifier": "every text of sys.platform and every sequence of calls", "why_tests_cant": "a test run sees one platform", "anchors": ["src/opyenxes/utils/XRuntimeUtils.py:17-26,28-34,36-42,44-50,52-58"]}
{"id": "C131", "title": "Which texts are read as an identifier", "statement": "XID.parse of a text succeeds exactly if the text, without urn:, uuid:, braces at its ends and hyphens, consists of 32 hexadecimal digits; and the identifier has these digits. Every other text raises ValueError.", "quantifier": "for all texts", "why_tests_cant": "No sample of texts shows that no others are taken for an identifier; the ones that are (a sign, white space, an underscore, 0x or digits of another script in place of digits) are not what a tester would try.", "anchors": ["src/opyenxes/id/XID.py:12-21"]}
{"id": "C132", "title": "Converting a CSV file reads the times of a time column", "statement": "Converting a CSV file whose header names a column by a pattern such as dd-MM-yyyy:HH.mm (the parts dd, MM, yyyy, HH and mm in any order, each at most once, with separators between them) succeeds if every cell has that shape and is an existing time; every event has, besides the texts and numbers of its other cells, an attribute time with exactly that time. Parts that are missing count as 1 January, midnight.", "quantifier": "for all files with any number of rows and columns, all patterns with the year among their parts, all separators without digits and letters of the parts, and all existing times; the time column is not the last one", "why_tests_cant": "The header is turned into a format by five textual replacements in a row, whose results could be replaced again, and the format into a regular expression that backtracks: the patterns and separators for which this goes well are infinitely many.", "anchors": ["example/Csv_to_xes_file.py:11-29", "example/Csv_to_xes_file.py:32-59"]}
{"id": "C133", "title": "The last column of a CSV file can be a time column", "statement": "A time in the last column of a CSV file is read like in any other column.", "quantifier": "for all files with at least one row", "why_tests_cant": "Whether it fails depends on the line end that the last cell keeps and on whether the regular expression of the pattern can take it as white space.", "anchors": ["example/Csv_to_xes_file.py:20-26", "example/Csv_to_xes_file.py:33-45"]}
{"id": "C134", "title": "The layout of an XML file does not matter", "statement": "A file whose text is an XML document (declaration, comments, processing instructions, white space, elements with attributes in either quotes, character and entity references, CDATA sections, any line ends) is read as the elements, attributes and characters that it says. So two XES files with the same elements and attributes load alike, and a file laid out by another tool is loaded as the log that it says.", "quantifier": "for all texts in the grammar of XML documents (names in ASCII, no document type), all factories, extension managers and heaps", "why_tests_cant": "The ways to lay out one log are unbounded: white space, quotes, references, comments and CDATA sections may stand anywhere; tests use files laid out by one tool.", "anchors": ["src/opyenxes/data_in/XesXmlParser.py:36-50", "src/opyenxes/data_in/XMxmlParser.py:42-58"]}
{"id": "C135", "title": "Whatever a file contains, the parsers see one tree or the file is refused", "statement": "For any text at all, loading raises or the handler is given the events of one element with everything in it properly nested and no tag with two attributes of one name.", "quantifier": "for all texts", "why_tests_cant": "The texts are arbitrary, including damaged and hostile ones.", "anchors": ["src/opyenxes/data_in/XesXmlParser.py:36-50", "src/opyenxes/data_in/XMxmlParser.py:42-58"]}
{"id": "C136", "title": "The timestamp in an MXML file can be read", "statement": "The text that the MXML serializer writes into the timestamp element of an event states the event's time in full, and parse_date_time reads this time from it.", "quantifier": "for all events with a date as their timestamp", "why_tests_cant": "A test has only a few dates; the fraction, the seconds of the offset and its sign each change the text.", "anchors": ["src/opyenxes/data_out/XMxmlSerializer.py:114-119", "src/opyenxes/utils/XsDateTimeConversion.py:4-47"]}
{"id": "C137", "title": "Event classes can be built up step by step", "statement": "After any sequence of register calls with logs, traces, events or identities and of harmonize_indices, including calls that raised, get_by_identity finds a class for exactly the identities registered, its size is how often, the indices are the numbers from 0 on without gaps, registering changes no index, and after a final harmonize_indices the classes are those of derive_event_classes for any log with the same events.", "quantifier": "for all classifiers and sequences of calls", "why_tests_cant": "The sequences and the places where a call raises halfway are unlimited.", "anchors": ["src/opyenxes/classification/XEventClasses.py:19-137", "src/opyenxes/classification/XEventClass.py:15-77"]}
{"id": "C138", "title": "Equal sets of event classes have the same classes", "statement": "If two XEventClasses are equal then get_by_identity gives equal results on both.", "quantifier": "for all sets of event classes", "why_tests_cant": "A test compares a set with itself or with one of another classifier.", "anchors": ["src/opyenxes/classification/XEventClasses.py:139-145"]}
{"id": "C139", "title": "A log loaded from an XES file can be saved, and the saved file holds the same log", "statement": "Load any well-formed XES file whose elements the parser understands and save the log with XesXmlSerializer: this never raises, and loading the saved file gives the same log: the same attributes, values, nested attributes and members, extensions, global attributes, traces and events. Only these differ: timestamps are cut to milliseconds, the version attributes of the log element are those of the serializer, classifiers without a key are dropped and neighbouring keys without blanks are joined (C01). From the second file on nothing changes. (Before Python 3.13 this needs values without tabs and line ends; the extension manager must not hold two extensions with one prefix.)", "quantifier": "for all texts of files, documents, logs, histories of registered extensions, both versions of minidom", "why_tests_cant": "A test loads and saves a few files; that everything the parser can deliver can also be written and is read back as the same thing (values of every type, every nesting, every time zone) is a statement about all files.", "anchors": ["src/opyenxes/data_in/XesXmlParser.py:36-237", "src/opyenxes/data_out/XesXmlSerializer.py:40-164"]}
{"id": "C140", "title": "A log loaded from an MXML file can be saved as XES, and the XES file holds the same log", "statement": "Load any MXML file with XMxmlParser (any well-formed XML the parser does not raise on, whatever its elements and their order) and save any of the logs with XesXmlSerializer: this never raises, and loading the saved file gives the same log: the same attributes, values and nested attributes of the log, its traces and events in the same order, the five extensions, the global attributes and the three classifiers. Only these differ: timestamps are cut to milliseconds, a source without a program becomes the text None, a data attribute whose key starts with the prefix of a registered extension gets this extension, the version attributes are those of the serializer, and the two keys of the first classifier come back joined into one (C01). (Before Python 3.13 this needs keys and values without tabs and line ends; the extension manager must know the five extensions by their prefixes, as the standard one does.)", "quantifier": "for all texts of files, streams of parser events, logs, extension managers, both versions of minidom", "why_tests_cant": "A test converts a few files; files with elements in any order, repeated, nested or missing reach other states of the parser, and each of them has to leave a log that can be written.", "anchors": ["src/opyenxes/data_in/XMxmlParser.py:42-299", "src/opyenxes/data_out/XesXmlSerializer.py:40-164", "src/opyenxes/data_in/XesXmlParser.py:36-237"]}
{"id": "C141", "title": "A method of an extension changes nothing but the attribute map of the element it is called on", "statement": "Calling an assign_* or remove_* method of an extension on an event, trace, log or attribute leaves every other existing object as it was: the attributes that the element had, the attributes that the extension keeps for cloning, and all other elements.  The element shows afterwards what the method does to its attribute map; when the method raises, the map is as before.  So an element and its clone, although they share all their attributes, are independent under any history of such calls: each shows in the end what the calls on it make of the common attributes.  The same holds for the traces and events inside cloned traces and logs.", "quantifier": "for all object graphs, elements, clones of events, traces and logs, parts at the same place, and all histories of calls with all arguments", "why_tests_cant": "An attribute stored without cloning the kept one, or a value set in an attribute that exists, would show up only in other elements of the same program run; a test looks at the element it called the method on.", "anchors": ["src/opyenxes/extension/std/XConceptExtension.py:51-92", "src/opyenxes/extension/std/XCostExtension.py:142-183,268-280,388-400,469-481", "src/opyenxes/extension/std/XMicroExtension.py:46-151", "src/opyenxes/extension/std/XTimeExtension.py:46-62", "src/opyenxes/extension/std/XIdentityExtension.py:59-71", "src/opyenxes/extension/std/XOrganizationalExtension.py:58-124", "src/opyenxes/extension/std/XLifecycleExtension.py:95-163", "src/opyenxes/extension/std/XSemanticExtension.py:75-93", "src/opyenxes/model/XAttributeMap.py:13-23"]}
{"id": "C142", "title": "Assigning nested values changes the element it is called on and no other", "statement": "assign_nested_values changes the attributes of the element it is given and of no other element; when it raises, the paths before the one that raised are assigned, of that one the attributes on the way have been created, and no later path is touched.  In particular values assigned through a clone are not seen in the original.", "quantifier": "for all object graphs, elements, clones, paths and values", "why_tests_cant": "Whether the original of a clone changes depends on whether the first attribute on the path existed when the clone was made; an example with fresh attributes passes, one with an existing attribute fails.", "anchors": ["src/opyenxes/extension/std/XAbstractNestedAttributeSupport.py:156-210", "src/opyenxes/model/XAttributeMap.py:13-23", "src/opyenxes/model/XEvent.py:27-36"]}
{"id": "C143", "title": "Event classes, summary and time bounds are the same after saving a log as XES and loading the file", "statement": "Save a log whose values have their types with XesXmlSerializer and load the file with XesXmlParser, on Python before or since 3.13. (1) Take a classifier whose keys give, in every event, attributes that print something that survives the file: a text that the XML parser gives back unchanged, a number, boolean or identifier, a timestamp with an offset, or a list or container of such. All attributes of events are stored under their own keys. Then every loaded event has the class identity of the saved one, and XEventClasses.derive_event_classes gives the same classes with the same sizes and indices, or raises the same exception. (2) If XTimeBounds can register all events of a trace, it can register those of the loaded trace, and the bounds are the same points in time cut to milliseconds. (3) If a log has neither timestamps nor lists nor containers (otherwise no summary can be built, C29) and all its texts survive the file, then XLogInfo.create succeeds before and after, for any default classifier and list of classifiers, with the same numbers of traces and events, event classes, bounds, totals, frequencies and relative frequencies, and with prototypes of attributes of the same keys and types, whose extensions are those that the extension manager has for the prefixes of the keys. Without the conditions of (1) it is false: two classes become one because a tab became a blank (before 3.13), because a timestamp without offset prints a `Z` that is gone after loading, or because an attribute was stored under a key that is not its own.", "quantifier": "all typed logs, classifiers, extension managers, both families of Python versions, lists of classifiers; float type abstract", "why_tests_cant": "A test compares one log with its reloaded copy; which texts and timestamps keep the classes apart is a statement about all values, nested members included.", "anchors": ["src/opyenxes/classification/XEventClasses.py:23-137", "src/opyenxes/classification/XEventAttributeClassifier.py:18-52", "src/opyenxes/info/XLogInfo.py:28-109", "src/opyenxes/info/XTimeBounds.py:49-72", "src/opyenxes/model/XAttributeTimestamp.py:78-98", "src/opyenxes/data_out/XesXmlSerializer.py:31-136", "src/opyenxes/data_in/XesXmlParser.py:58-237"]}
{"id": "C144", "title": "Values of other types than a class asks for act as fixed conversions or raise a fixed exception", "statement": "(1) For an XAttributeContinuous, an int that a float can hold acts as that float, True as 1, False as 0 and a text as the float it spells: compare_to from either side and hash() give the same outcome, whatever the other attribute. An int too large for a float raises OverflowError, a text that spells no number ValueError, None, a datetime or an XID TypeError, in hash() and in compare_to with an attribute of the same key. (2) XLifecycleExtension.uses_standard_model, for a log that has lifecycle:model: if the value is a text, it says exactly whether the text without surrounding white space is `standard`; for None it says False; any other value, and a list or container, raises AttributeError. (3) XCostExtension.assign_driver and assign_type raise AttributeError for every value that is neither None nor a text.", "quantifier": "all values of the seven types, all attributes and maps; float type abstract", "why_tests_cant": "Tests use values of the right type; what the others do follows from conversions in the middle of the code.", "anchors": ["src/opyenxes/model/XAttributeContinuous.py:46-66", "src/opyenxes/extension/std/XLifecycleExtension.py:83-121", "src/opyenxes/extension/std/XCostExtension.py:388-481"]}
{"id": "C145", "title": "Extension definitions and CSV rows that lack something raise KeyError", "statement": "(1) A definition read by XExtensionParser in which a <xesextension> element lacks name, prefix or uri, or the definition of an attribute lacks its key, raises KeyError, if what comes before it can be read (and, for attributes, has started the extension): wherever the element is, whatever follows, and however the tag is capitalised. (2) So does an <alias>, inside the definition of an attribute, that lacks mapping or name. (3) In the script that converts CSV files, a row with more cells than the file has columns (of which there are at least two) raises KeyError, if the cells that have a column can be converted.", "quantifier": "all documents before and after, all spellings of tags, attributes, rows; all answers of the network", "why_tests_cant": "A test shows one damaged file; here the damage can be at every element of every definition.", "anchors": ["src/opyenxes/extension/XExtensionParser.py:46-148", "example/Csv_to_xes_file.py:11-39"]}
{"id": "C146", "title": "Every saved file begins with the same lines and ends with the end of the root element", "statement": "Whatever the log: a file saved by XesXmlSerializer begins with the XML declaration, the six comments naming the library, the standard and their versions, and the element <log> with xes.version=\"1.0\", xes.features=\"nested-attributes\" and openxes.version=\"1.0RC7\", in this order, and ends with </log> and a line break (or, for an empty log, the element is closed at once). A file saved by XMxmlSerializer begins with the declaration, four comments, <WorkflowLog>, the <Source> element with its two attributes and the start of the one <Process>, whose first attribute is id, and ends with </Process> and </WorkflowLog>.", "quantifier": "all logs that can be saved; both families of Python versions", "why_tests_cant": "The head is written by code that looks at the log's attributes; a test shows it for one log.", "anchors": ["src/opyenxes/data_out/XesXmlSerializer.py:31-136", "src/opyenxes/data_out/XMxmlSerializer.py:38-136"]}
{"id": "C147", "title": "A log loaded from an XES file is made of new objects only", "statement": "Loading a log with XesXmlParser and XFactory changes no element, attribute map or attribute that existed before, and every one that can be reached from the loaded log is new. So nothing that existed before leads to an object of the loaded log, two logs loaded one after the other (even from the same file) share no element, map or attribute, and whatever is done to an object of one of them leaves the other as it was. (Extensions are shared on purpose and are not counted.)", "quantifier": "all documents, all earlier states of all objects, all identifiers drawn, all extension registries", "why_tests_cant": "A test can compare two particular logs; that no object at all is shared, at any depth and for any document, needs an invariant of the handler.", "anchors": ["src/opyenxes/data_in/XesXmlParser.py:36-50", "src/opyenxes/data_in/XesXmlParser.py:73-237", "src/opyenxes/factory/XFactory.py:20-64"]}
{"id": "C148", "title": "The net of the alpha algorithm depends only on which variants the log has", "statement": "Two logs with the same set of sequences of activities, however often and in whatever order the traces occur, lead AlphaAlgorithm to the same net: the same starting, ending and all activities and the same places (as pairs of sets), and so the same sequences that can be run; or both raise IndexError. In particular a log and its compressed log (filter_compress_log) have the same net, and a log saved to XES and loaded again gives the algorithm the same input, if what the classifier's attributes print survives the file.", "quantifier": "all logs, all enumeration orders of sets (also different ones for the two logs), all classifiers", "why_tests_cant": "A test compares the texts for two logs; the text itself may differ with the enumeration order, only the net is the same.", "anchors": ["example/AlphaAlgorithm.py:86-191", "example/AlphaAlgorithm.py:217-221", "example/filter_compress_log.py:1-52"]}
{"id": "C149", "title": "The net of the alpha algorithm can run exactly the traces of the log", "statement": "Starting with one token in the start place and ending with one in the end place and none elsewhere, the generated net can run exactly the traces of the log. True when no activity occurs twice in a trace or in two different traces. Whatever the log, a sequence that can be run has exactly one activity that begins a trace and exactly one that ends a trace; so a trace in which a first activity comes again (a b a c) cannot be run, and with an activity that directly follows itself (a b b c) the net runs sequences (a c) that are not in the log.", "quantifier": "all logs and all sequences of activities; all enumeration orders", "why_tests_cant": "The runs of a net are infinitely many; a test can look at a few.", "anchors": ["example/AlphaAlgorithm.py:86-191"]}
{"id": "C150", "title": "The XES file that Csv_to_xes_file writes holds the rows of the CSV file", "statement": "For a CSV file whose header has two leading columns and then time columns (dd, MM, yyyy, HH, mm in any order with separators), Activity, Resource and columns of integers, the script writes an XES file that can be loaded. The log loaded has the traces that the script makes (C96, C132: a trace ends before every row whose case is not that of the first row, and the last piece of the file is missing), and each event has exactly the attributes of its row: the texts, the integers and the times as UTC.", "quantifier": "all such CSV files, all column names without a colon, all cell texts that XML can hold, both ways of writing attribute values (before and from Python 3.13)", "why_tests_cant": "The script is run on one file; nobody loads its output again.", "anchors": ["example/Csv_to_xes_file.py:11-63", "src/opyenxes/data_out/XesXmlSerializer.py:31-164", "src/opyenxes/data_in/XesXmlParser.py:36-237"]}
{"id": "C151", "title": "The anonymised file can be loaded and is the log without the names", "statement": "Anonymize_a_log loads a file and writes a file which, loaded, is the same log (times in milliseconds) except that every attribute with key Resource or org:resource of a trace, an event or the globals has the value UNKNOWN. True when these attributes are texts. Otherwise it is false: for an integer, a float or an identifier the script ends without an error but the file written cannot be loaded (ValueError), for a boolean the file says false, and for a timestamp, a list or a container the script fails with AttributeError.", "quantifier": "all XES files that say a log (C124, C134), all extension managers without confusions, all random sources", "why_tests_cant": "The example file has text resources only; the output is never loaded.", "anchors": ["example/Anonymize_a_log.py:1-39", "src/opyenxes/model/XAttributeDiscrete.py:28-34", "src/opyenxes/data_out/XesXmlSerializer.py:31-164", "src/opyenxes/data_in/XesXmlParser.py:93-197"]}
{"id": "C152", "title": "The files of the filtered log and of the clusters hold their logs", "statement": "The compressed file that filter_compress_log writes, loaded, is the log of the file given with only the first trace of every variant; the files that Cluster_a_log writes, loaded, are the logs of the clusters (attributes and extensions of the log, no classifiers or globals, C100), and together they have every trace exactly once. Times are kept in milliseconds, classifier keys as in C139.", "quantifier": "all XES files that say a log, all classifiers that name every event, all numbers of clusters and all predictions, every sound gzip", "why_tests_cant": "The outputs of the scripts are never loaded again.", "anchors": ["example/filter_compress_log.py:12-52", "example/Cluster_a_log.py:9-72", "src/opyenxes/data_out/XesXmlGZIPSerializer.py:9-31", "src/opyenxes/data_out/XesXmlSerializer.py:31-164"]}
{"id": "C153", "title": "Which XES documents are refused, and with which exception", "statement": "An XES document whose elements are where they belong (attributes, traces with events, extensions, classifiers and globals for traces and events in the log) is loaded if every element can be read. If all its dates can be read, the first element, in the order of the document, that cannot be read decides: an int, float or id whose value is no such number or identifier raises ValueError, a date with an absurd offset raises OverflowError, an extension that has no URI and no known prefix raises TypeError (it is to be printed), a global without scope raises AttributeError, and an error of looking up a URI is passed on; nothing else is refused. A date that cannot be read opens nothing while its end tag still closes an attribute: going through the tags in order with the number of open attributes, loading raises IndexError where an attribute ends with none open, or the exception of an element above, whichever comes first. So a document in which only dates cannot be read raises IndexError (C44).", "quantifier": "all documents of this form with all values, all extension managers, all factories given to the parser; for unreadable dates all well-formed states to load into", "why_tests_cant": "A test tries single wrong values; which of several wrong elements decides, and that nothing else is refused, is a statement about all documents.", "anchors": ["src/opyenxes/data_in/XesXmlParser.py:93-197", "src/opyenxes/data_in/XesXmlParser.py:199-237"]}
{"id": "C154", "title": "Which MXML documents are refused, and with which exception", "statement": "Loading an MXML document in which no Process, ProcessInstance or AuditTrailEntry is in another of its kind or in something that belongs into it (other elements may be anywhere, and parts may be missing) succeeds exactly if there is none of these faults in it: a data Attribute without a name; a Timestamp whose zone offset is too large for a timedelta; a WorkflowModelElement with a text or a model reference, an EventType with a type, an Originator, or a Timestamp with a readable time outside an AuditTrailEntry; an AuditTrailEntry outside a ProcessInstance; a ProcessInstance with entries outside a Process. Otherwise the first fault in the order of the document decides: OverflowError for the offset, AttributeError for the others, whatever comes behind it. Texts that are no times, and offsets of a day or more, are no faults.", "quantifier": "every document of that shape, every delivery of its callbacks", "why_tests_cant": "the faults may be anywhere in arbitrarily large documents; tests can only try some combinations", "anchors": ["src/opyenxes/data_in/XMxmlParser.py:104-283"]}
{"id": "C155", "title": "Which logs can be saved as MXML, and which MXML files can be saved again", "statement": "Saving a log as MXML succeeds, when its texts are legal in XML, exactly if: each name (concept:name of log, trace, event) is an attribute with a text or no value; each semantic:modelReference of the log, a trace or an event is a text without attributes of its own; an event's lifecycle:transition is a text; its resource (or role, if there is none, or group, if there is neither) is a text or no value; its time:timestamp has a value of some kind; and the model references of these last three are texts. Otherwise a TypeError or an AttributeError is raised and nothing is written. A log loaded from any MXML file can be saved as MXML exactly if no data attribute called semantic:modelReference has a model reference itself.", "quantifier": "every log with arbitrary attributes under arbitrary keys; every text that loads as MXML", "why_tests_cant": "which values stand under the keys that the serializer treats specially is arbitrary, and so is the size of the log", "anchors": ["src/opyenxes/data_out/XMxmlSerializer.py:43-186"]}
{"id": "C156", "title": "Which extension definitions are refused, and with which exception", "statement": "XExtensionParser.parse returns for a definition, whatever its elements are, exactly if none of them has a fault, and otherwise raises the exception of the first one that has. The faults: an element xesextension without name, prefix or uri (KeyError), or whose uri cannot be parsed or asked for other than with a URLError (that exception); a log, trace, event, meta or definition element when no xesextension before it had a uri that answers (AttributeError); a definition without a key (KeyError); a date definition where the epoch cannot be made (that exception); an alias without mapping or name inside a definition, that is, after its start and before the end of any definition (KeyError). All other elements and attributes are ignored. The result is None exactly if no xesextension had a uri that answers. Only the elements count: comments, declarations, white space, line ends, quotes, encoding of the platform and byte order marks do not; a folder gives None, and an address what a UTF-8 file with the same bytes gives (if they declare no other encoding: C182), but if the address itself does not answer, the exception is raised.", "quantifier": "every sequence of elements with arbitrary attributes; every text in the XML grammar of C134; every file, folder and address; every behaviour of the network", "why_tests_cant": "documents are arbitrarily long, and whether an element is a fault depends on all elements before it and on the network", "anchors": ["src/opyenxes/extension/XExtensionParser.py:30-148"]}
{"id": "C157", "title": "The text and the file of a net tell which net it is", "statement": "Two logs whose nets (AlphaAlgorithm) have the same text, or are saved to files with the same bytes, have the same activities, the same first and last activities and the same maximal pairs, that is, the same net.", "quantifier": "every pair of logs without empty traces, all enumeration orders of the sets, every sound encoding", "why_tests_cant": "The text quotes names without escaping them; that no other net has the same text is a statement about all pairs of nets.", "anchors": ["example/AlphaAlgorithm.py:153-203"]}
{"id": "C158", "title": "What the lifecycle and semantic extensions answer for any attribute", "statement": "uses_standard_model, extract_standard_transition and extract_model_references depend only on the attribute under lifecycle:model, lifecycle:transition or semantic:modelReference. Without it they give False, None and []. For a text they give: whether it is 'standard' up to white space around it; the transition of the standard model it names, whatever the case and the white space around it, and 'unknown' for other texts; the pieces of the lower-case text between the two characters backslash and s. An attribute without a value gives False, None and AttributeError. Any other value, a list and a container raise AttributeError. extract_model_reference_uris raises what extract_model_references raises, else what urlparse raises for the first reference it refuses, and else gives the parsed references in order.", "quantifier": "every element with attributes of every class and value under these keys", "why_tests_cant": "values of other types reach these methods only from documents of other tools; the text is arbitrary", "anchors": ["src/opyenxes/extension/std/XLifecycleExtension.py:49-62,82-94,109-150", "src/opyenxes/extension/std/XSemanticExtension.py:32-71"]}
{"id": "C159", "title": "Whatever a program does through the library, its objects stay well formed", "statement": "Start with objects in which attribute maps hold attributes under distinct keys, events, traces, logs and attributes have an attribute map, members of collections and global attributes are attributes, traces hold events and logs hold traces. After any sequence of calls (factory, constructors, set_attributes, storing and deleting in maps, set_value, set_id, add_to_collection, the lists of traces and logs, clone, the assign and remove methods of the extensions, nested assignment, loading XES files in which no event lies within an event and no trace within a trace (see C168), loading MXML files in which no entry lies within an entry (see C172)), each given objects of the documented classes, this is still so, and no attribute has changed its class, key or extension. In every state so reached such a call raises only: KeyError for deleting a key that is not there, AttributeError for cloning a collection or an ID attribute whose value is not an identifier, and for the extensions what the same call raises on an empty element, for nested values that of the first path that is not skipped; a call that makes an object returns a new object of its class; and every event, trace and log can be cloned.", "quantifier": "all sequences of calls from all well formed starts, with all sharing and all cycles among the objects", "why_tests_cant": "tests run a few short sequences; sharing and cycles between maps, attributes and elements arise only from long ones", "anchors": ["src/opyenxes/factory/XFactory.py:20-197", "src/opyenxes/model/XAttributable.py:12-46", "src/opyenxes/model/XAttributeMap.py:13-23", "src/opyenxes/model/XEvent.py:18-52", "src/opyenxes/model/XTrace.py:13-66", "src/opyenxes/model/XLog.py:13-134", "src/opyenxes/model/XAttributeCollection.py:14-25", "src/opyenxes/extension/std/XAbstractNestedAttributeSupport.py:171-210", "src/opyenxes/data_in/XesXmlParser.py:36-237", "src/opyenxes/data_in/XMxmlParser.py:42-58"]}
{"id": "C160", "title": "A summary answers for the classifiers it was made with, also when they are renamed", "statement": "Let XLogInfo be made for a log with a default classifier and other classifiers. Whatever is done later to these classifiers with set_name and to the lists of their keys, get_event_classes() and get_event_classes(c) for each of these classifiers return the event classes that the summary found. The log gives the summary out, with get_info, exactly for the classifiers which have the name and keys that its classifier then has.", "quantifier": "all logs, all classifiers, all hash functions of strings and tuples, all later changes of the classifier objects", "why_tests_cant": "tests do not change a classifier after it was used as the key of a dict", "anchors": ["src/opyenxes/info/XLogInfo.py:46-58", "src/opyenxes/info/XLogInfo.py:135-184", "src/opyenxes/classification/XEventAttributeClassifier.py:14-16", "src/opyenxes/classification/XEventAttributeClassifier.py:62-68", "src/opyenxes/classification/XEventAttributeClassifier.py:118-119", "src/opyenxes/model/XLog.py:104-125"]}
{"id": "C161", "title": "The alpha algorithm finds structured processes", "statement": "Take a process that is made of activities by putting processes one after another, choosing between two, or doing two at the same time, where no activity is used twice and where neither two first activities nor two last ones can follow each other. Let every trace of the log be a run of it, and let each of its first activities begin a trace, each of its last ones end a trace, and each pair of activities that can follow each other do so in some trace. Then alpha_algorithm raises nothing, and the net it finds can run, from one token in the start place to one token in the end place and none elsewhere, exactly the runs of the process, also those which are not in the log. Without the condition on first and last activities some trace of the log cannot be run.", "quantifier": "all such processes, of any size and nesting, and all such logs, in whatever order Python enumerates its sets", "why_tests_cant": "there are infinitely many processes, and even one process has more runs than can be tried; the tests do not run the script", "anchors": ["example/AlphaAlgorithm.py:86-191"]}
{"id": "C162", "title": "Event classes are the same after saving a log as MXML and loading it", "statement": "Let XMxmlSerializer write a log, and let XMxmlParser load the file. Then the event classes that XEventClasses.derive_event_classes finds, and the class names of the traces given to the alpha algorithm, are those of the log it was saved from, for the name classifier, the standard classifier (name and transition), the resource classifier and any other classifier, and the time bounds of the traces are the same.", "quantifier": "all logs the serializer writes, all classifiers, all names and transitions", "why_tests_cant": "what the classes become depends on every name, on white space and line ends in it, on transitions and on which attributes the classifier asks for; tests compare sizes of a few sample files", "anchors": ["src/opyenxes/data_out/XMxmlSerializer.py:38-136", "src/opyenxes/data_in/XMxmlParser.py:42-299", "src/opyenxes/classification/XEventClasses.py:23-37", "src/opyenxes/classification/XEventAttributeClassifier.py:18-52", "src/opyenxes/info/XTimeBounds.py:41-75", "example/AlphaAlgorithm.py:86-104"]}
{"id": "C163", "title": "The attribute name maps list what was registered", "statement": "After any history of calls, get_available_mapping_names() lists EN and then the mappings in the order in which they were first mentioned, each once; get_mapping(n) returns a mapping with that name, the keys in the order in which they were first registered, each once, and the last alias of each (an empty one for a new name); and str() of the global map prints exactly these mappings, keys and aliases in this order.", "quantifier": "all histories of get_mapping and register_mapping calls with any arguments (keys, attributes, or neither), all names", "why_tests_cant": "Order of first mention and last alias over unbounded histories.", "anchors": ["src/opyenxes/info/XAttributeNameMap.py:10-62", "src/opyenxes/info/XGlobalAttributeNameMap.py:22-75,112-126,150-156"]}
{"id": "C164", "title": "Changing one identifier changes no other event or attribute", "statement": "The identifier of an event (get_id, == and hash) and the value of an ID attribute change only when set_id or set_value is called on this event or attribute, or set_uuid on the XID that it returns itself; so set_uuid on the identifier of one event leaves all other events and attributes as they are, and an event stays in the sets it was added to. True as long as the program does not give one XID to two of them: set_uuid changes exactly those that have the same XID object; new events, clones of events and clones of ID attributes have one of their own, which stays so while it is not passed on; and in a program without set_uuid identifiers act as plain values. An event is found in a set while it and the members have the identifiers they had when added; if it is the only member and its identifier gets another hash, it is not found.", "quantifier": "all histories of making, parsing and cloning XIDs, set_uuid, making and cloning events and ID attributes, set_id, set_value; all random sources and hash functions", "why_tests_cant": "Tests make a few events and look at their identifiers; sharing shows only when an XID that was given out earlier is changed later, in some order of calls.", "anchors": ["src/opyenxes/id/XID.py:12-51", "src/opyenxes/id/XIDFactory.py:13-20", "src/opyenxes/model/XEvent.py:18-63", "src/opyenxes/model/XAttributeID.py:15-43", "src/opyenxes/extension/std/XIdentityExtension.py:64-77"]}
{"id": "C165", "title": "Attribute statistics survive attributes that cannot be registered", "statement": "Call XAttributeInfo.register with any attributes in any order and catch the exceptions. A call raises (AttributeError) exactly if the attribute is a timestamp, a list, a container or an ID attribute whose value is no XID, and no other attribute with its key has been registered before; then nothing has changed. get_attribute_keys() lists each key under which some attribute with a prototype was registered once, ordered by the first such attribute; get_attributes() gives, beside them, prototypes with its class, key and extension; get_frequency(key) is the number of calls with that key from this attribute on (also of attributes that have no prototype), None for other keys; the frequencies add up to the total; and get_relative_frequency(key) is the frequency over that total, a TypeError for other keys.", "quantifier": "all sequences of attributes of all classes, values, keys and extensions", "why_tests_cant": "Which call raises depends on everything registered before under the same key; tests register a few attributes that all go through.", "anchors": ["src/opyenxes/info/XAttributeInfo.py:11-61", "src/opyenxes/info/XAttributeInfo.py:144-161", "src/opyenxes/utils/XAttributeUtils.py:86-116"]}
{"id": "C166", "title": "The text of time bounds tells the bounds", "statement": "str() of an XTimeBounds is the two bounds with ' -- ' between them, each in the form YYYY-MM-DD HH:MM:SS with microseconds and offset where there are any, or None. Two bounds (with all fields within the ranges of datetime) that have the same text are the same, field by field and with the same offsets; and no text is the form of two different timestamps.", "quantifier": "all pairs of time bounds, empty, naive or with offsets", "why_tests_cant": "Injectivity is about all pairs of timestamps, with and without fractions and offsets of any sign and seconds.", "anchors": ["src/opyenxes/info/XTimeBounds.py:11-29", "src/opyenxes/info/XTimeBounds.py:74-75"]}
{"id": "C167", "title": "The extensions read the same before saving and after loading", "statement": "After a log is saved with the XES serializer and loaded again, every getter of the standard extensions (extract_name, extract_instance, extract_resource, extract_role, extract_group, extract_model, extract_transition, extract_total, extract_currency, extract_amount, extract_driver, extract_type, extract_level, extract_parent_id, extract_length, extract_id, extract_timestamp) gives at the log, at each trace and at each event the answer it gave at the same place before (the same exception or default, a timestamp cut to milliseconds, line ends and tabs in a text as the XML parser gives them). So what a setter stored is read from the loaded log, and the other getters are not affected by it.", "quantifier": "for all writable logs, places in them, getters and assigned values, and all extension managers", "why_tests_cant": "There are infinitely many logs; a test that assigns an instance and reads the name, or the other way round, is easily forgotten.", "anchors": ["src/opyenxes/extension/std/XConceptExtension.py:36-92", "src/opyenxes/extension/std/XCostExtension.py:127-481", "src/opyenxes/extension/std/XOrganizationalExtension.py:45-124", "src/opyenxes/extension/std/XLifecycleExtension.py:82-163", "src/opyenxes/extension/std/XMicroExtension.py:31-141", "src/opyenxes/extension/std/XIdentityExtension.py:44-71", "src/opyenxes/extension/std/XTimeExtension.py:31-62", "src/opyenxes/data_out/XesXmlSerializer.py:40-164", "src/opyenxes/data_in/XesXmlParser.py:36-237"]}
{"id": "C168", "title": "What a file loads consists of traces and events only", "statement": "If XesXmlParser.parse returns a log, its members are XTrace objects and theirs are XEvent objects. The library does not keep this: when an event element lies within an event element, or a trace element within a trace element (in whatever case the names are written), parsing succeeds and the end tag of the outer element appends None to the trace or the log, and the outer event or trace is lost. It does so exactly for these documents: otherwise everything that was made is well formed (log, traces, events, attribute maps, attributes); for a document that is one log element the None is a member of the log returned or of one of its traces, and clone() of that log raises.", "quantifier": "all documents that parse without an exception, all well formed object stores before", "why_tests_cant": "tests parse well-behaved files; no exception is raised and no message printed, the None shows up only when the log is used", "anchors": ["src/opyenxes/data_in/XesXmlParser.py:93-117", "src/opyenxes/data_in/XesXmlParser.py:199-223", "src/opyenxes/model/XTrace.py:16-26", "src/opyenxes/model/XTrace.py:59-66", "src/opyenxes/model/XLog.py:23-41", "src/opyenxes/model/XLog.py:127-134"]}
{"id": "C169", "title": "Saving a log writes the tree that its objects show", "statement": "Attributes, maps, events and traces may be shared in any way. If no attribute in a log lies within itself (through members of collections and meta attributes of other attributes), the log shows exactly one tree, and XesXmlSerializer writes the file of that tree, or raises what it raises for that tree, as soon as the interpreter allows as many nested calls of add_attributes as attributes are nested; with fewer the exception is a RecursionError (or the one of the tree). If some attribute lies within itself, saving never succeeds whatever the limit is, and raises RecursionError if timestamps hold datetimes. A log that holds None as a trace or an event is never saved. This covers every log that a program has got after any sequence of calls of the library, and loaded logs show the tree they were loaded from.", "quantifier": "all well-formed heaps, all logs in them, all recursion limits, all programs", "why_tests_cant": "Tests build logs without sharing or loops and of small depth; the dichotomy is about all object graphs.", "anchors": ["src/opyenxes/data_out/XesXmlSerializer.py:40-164", "src/opyenxes/model/XAttributable.py:12-46", "src/opyenxes/model/XAttributeCollection.py:14-38"]}
{"id": "C170", "title": "Loading an MXML file makes objects that show the logs of the file and changes no other object", "statement": "XMxmlParser.parse makes one XLog object for each log that the file holds, in the same order, and each shows its log: the attributes with their keys, kinds, values and extensions, the extensions, classifiers and global attributes, the traces and the events with their identifiers, which are the next ones drawn. No object that existed before is changed, in particular not the attributes that the extensions keep. A file that is refused is refused with the same exception as on values. (Assumes that the kept attributes for names, transitions and resources have the values they have at the start, and that no AuditTrailEntry ends where none is open, see C172.)", "quantifier": "all states of the objects of a program, all sequences of SAX events, all sources of identifiers", "why_tests_cant": "The parser builds its logs in eight fields that are filled, mutated and shared while the file is read; a test sees a few files and one state.", "anchors": ["src/opyenxes/data_in/XMxmlParser.py:42-58", "src/opyenxes/data_in/XMxmlParser.py:76-300"]}
{"id": "C171", "title": "Logs loaded from one MXML file are independent of each other", "statement": "No object is reached from two logs that XMxmlParser.parse returns for one file, and none that existed before loading: changing one log changes no other.", "quantifier": "all states of the objects, all files that are loaded, all pairs of logs", "why_tests_cant": "Sharing does not show in the values of the logs right after loading; tests compare values.", "anchors": ["src/opyenxes/data_in/XMxmlParser.py:115-131", "src/opyenxes/data_in/XMxmlParser.py:195-201", "src/opyenxes/data_in/XMxmlParser.py:228-240"]}
{"id": "C172", "title": "Which MXML files give traces with None among their events", "statement": "Loading an MXML file gives logs whose traces contain events only. This holds if no `AuditTrailEntry` lies within another one; then the result shows the logs the file describes (C170). It is false otherwise: the end of the inner entry appends it to the trace and forgets it, so the end of the outer one appends `None`, and nothing is raised. If a file is loaded, some log of the result has a trace with `None` among its events if and only if some `AuditTrailEntry` of the file lies within another one, at any depth. Such a log cannot be cloned: `clone` raises. A `Process` within a `Process` or a `ProcessInstance` within a `ProcessInstance` is refused with an exception, whatever else the file contains.", "quantifier": "all documents (trees of elements, attributes and text, in every division into SAX events), all states of the objects in memory before the call with the attributes kept by the extensions in place, all ids drawn", "why_tests_cant": "Whether `None` appears depends on the nesting of elements anywhere in the file, not on a fixed shape; tests try a few files, and none of the test files nests entries.", "anchors": ["src/opyenxes/data_in/XMxmlParser.py:157-168", "src/opyenxes/data_in/XMxmlParser.py:195-250", "src/opyenxes/model/XTrace.py:16-26"]}
{"id": "C173", "title": "The summary of a log depends only on what its objects show", "statement": "Attributes, maps, events and traces may be shared in any way. If the objects of a log show a tree, XLogInfo.create gives the summary of that tree (shared objects count each time they occur), or raises what it raises for that tree, as soon as the interpreter allows as many nested calls as attributes are nested; with fewer the only other outcome is a RecursionError. A log in which no attribute lies within itself (through meta attributes and members) shows a tree. If some attribute is a meta attribute of itself, directly or not, or if the log holds None as a trace or an event, a summary is never made whatever the limit is. This covers every log that a program has got after any sequence of calls of the library, and loaded logs show a tree with the summaries of the tree they were loaded from.", "quantifier": "all well-formed heaps, all logs in them, all classifiers, all recursion limits, all programs", "why_tests_cant": "Tests summarise small logs without sharing or loops; the claim is about all object graphs.", "anchors": ["src/opyenxes/info/XLogInfo.py:28-109", "src/opyenxes/info/XAttributeInfo.py:144-161", "src/opyenxes/classification/XEventAttributeClassifier.py:18-52", "src/opyenxes/model/XAttributeCollection.py:37-52", "src/opyenxes/info/XTimeBounds.py:49-72"]}
{"id": "C174", "title": "Saving as MXML looks at attributes and their meta attributes only", "statement": "Attributes, maps, events and traces may be shared in any way. If the objects of a log show a tree, XMxmlSerializer writes the document of that tree, or raises an exception if it does for that tree, as soon as the interpreter allows as many nested calls as attributes are nested. Every log whose model references are not lists or containers is saved exactly as what it shows at a glance (its attributes and those of its traces and events, with their meta attributes, but nothing deeper), so attributes that lie within themselves do no harm, although such a log can neither be saved as XES nor be summarised. If a model reference is a collection that is a member of itself, directly or not, or if the log holds None as a trace or an event, saving never succeeds. This covers every log that a program has got after any sequence of calls of the library.", "quantifier": "all well-formed heaps, all logs in them, all recursion limits, all programs", "why_tests_cant": "Tests save small logs without sharing or loops; the claim is about all object graphs.", "anchors": ["src/opyenxes/data_out/XMxmlSerializer.py:38-186", "src/opyenxes/extension/std/XConceptExtension.py:36-49", "src/opyenxes/model/XAttributeCollection.py:37-52"]}
{"id": "C175", "title": "Reading an attribute ends exactly where nothing lies within itself", "statement": "Asking an element for its extensions, its nested cost values, or an attribute for its text ends without RecursionError exactly if no attribute that is looked at lies within itself: a meta attribute of itself for extensions and cost values, a member of itself for texts. As many nested calls as there are objects are then enough. Sharing attributes changes nothing.", "quantifier": "For every reachable or well-formed collection of objects, every element or attribute in it, every key, and every limit on nested calls.", "why_tests_cant": "Tests build trees; attributes that are shared or contain themselves, and every possible recursion limit, are not tried.", "anchors": ["src/opyenxes/model/XAttributable.py:18-30", "src/opyenxes/extension/std/XAbstractNestedAttributeSupport.py:31-120", "src/opyenxes/extension/std/XCostExtension.py:14-74", "src/opyenxes/model/XAttributeCollection.py:37-51"]}
{"id": "C176", "title": "In a log loaded from an XES file nothing stands in two places", "statement": "Whatever the XES document, two different places of the loaded log hold two different objects: an attribute stands under one key of one element (or at one position of one list of globals), an event at one position of one trace, a trace at one position of the log, and an attribute is a member of at most one list or container, at one position. Setting the value of the attribute at one place therefore leaves what stands at every other place where it is and as it was.", "quantifier": "For every document (well nested or not in the sense of XES), every registered factory state, every extension manager, and all pairs of places. None, which ill-nested documents put into logs and traces, is not an object to be changed and is left aside.", "why_tests_cant": "Tests look at a few loaded logs and compare values; two places holding one object look the same as two equal objects until one is changed.", "anchors": ["src/opyenxes/data_in/XesXmlParser.py:70-237", "src/opyenxes/model/XAttributeCollection.py:14-25", "src/opyenxes/model/XAttributeMap.py:4-23"]}
{"id": "C177", "title": "Saving a log and loading the file makes an independent copy", "statement": "Saving a log as XES and loading the file, while the log is still in use, gives a new log with the content that files keep. All objects that were there stay as they were, the two logs have no object in common, and nothing stands in two places of the new log, even if it did in the old one. So whatever is later done to the objects of one of the two logs, the other one still shows what it showed. A log in which an attribute lies within itself is never copied.", "quantifier": "For every sound collection of objects, shared or not, every log in it that shows a tree with writable values and legal texts (for programs: every log that sequences of API calls can make), every limit on nested calls that suffices to save it, every factory given to the parser, every extension manager, and every later state.", "why_tests_cant": "Tests compare a saved and loaded log with the original by value; whether the two share objects, and what later changes do, is not observed.", "anchors": ["src/opyenxes/data_out/XesXmlSerializer.py:40-103", "src/opyenxes/data_in/XesXmlParser.py:36-237"]}
{"id": "C178", "title": "What the alpha algorithm makes of short loops", "statement": "Let an activity follow itself somewhere in a log. If it neither begins nor ends a trace, the generated net accepts a sequence exactly when it accepts the sequence with the activity put in or left out anywhere; if it begins or ends a trace, it stands at most once in any accepted sequence. Two neighbours a b of an accepted sequence may change places unless a is seen right before b in the log and b never right before a. Hence the net of a log in which some activity comes again at once (a a) or after one other activity (a b a) never accepts exactly the traces of the log: it refuses a trace or accepts a sequence that is not one.", "quantifier": "all logs without empty traces, all activities, all sequences, all enumeration orders of the sets", "why_tests_cant": "The claim is about all sequences a net accepts, which are infinitely many as soon as there is a short loop.", "anchors": ["example/AlphaAlgorithm.py:86-191"]}
{"id": "C179", "title": "Which integers can be saved and loaded", "statement": "Recent Pythons convert integers of at most 4300 digits (sys.get_int_max_str_digits, which may be changed or switched off). XesXmlSerializer.serialize raises (ValueError, if the values of the log have the types of their attributes) if an attribute that would be written holds an integer of more digits, and writes the same file as without a limit, or raises the same exception, otherwise. XesXmlParser.parse raises if an int element of the document has a value with more digits, zeros in front included, and loads the same log as without a limit if no int or date has more. A date whose offset has more digits is unreadable, where OverflowError would be raised without a limit. Under every limit Python allows, a log without longer integers comes back from a file as in C110.", "quantifier": "all limits, all logs, all documents", "why_tests_cant": "Integers of thousands of digits are not in the tests, and they could be at any depth of a log.", "anchors": ["src/opyenxes/data_out/XesXmlSerializer.py:40-164", "src/opyenxes/data_in/XesXmlParser.py:93-197", "src/opyenxes/utils/XsDateTimeConversion.py:4-47", "src/opyenxes/model/XAttributeDiscrete.py:60-61"]}
{"id": "C180", "title": "A refused extension definition leaves no names behind", "statement": "If XExtensionParser.parse raises an exception for a definition, the global attribute name map is afterwards as it was before. (Violated: the handler registers every alias as soon as it is read. Proved instead: after an exception the map is the map before with exactly the aliases registered, in document order, that stand before the first faulty element of C156 and inside a definition, each for the full key (prefix of the nearest answering xesextension, colon, key) of that definition; without an exception with all aliases of the document. Reading the document again after it was corrected from the faulty element on then translates every attribute in every mapping as if the first attempt had not been made; if an alias before the fault was taken out, the old one remains.)", "quantifier": "every sequence of elements with arbitrary attributes, every history of the global name map, every behaviour of the network, every attribute and mapping name", "why_tests_cant": "The state after a failure half-way depends on where the first fault is and what stands before it; tests look at a handful of broken files, and mostly at the exception only.", "anchors": ["src/opyenxes/extension/XExtensionParser.py:47-117", "src/opyenxes/extension/XExtensionParser.py:131-148", "src/opyenxes/info/XGlobalAttributeNameMap.py:112-126"]}
{"id": "C181", "title": "In a log loaded from an MXML file nothing stands in two places", "statement": "Whatever the MXML file, two different places of one loaded log hold two different objects: an attribute stands under one key of one element (or at one position of one list of globals), an event at one position of one trace, a trace at one position of the log. The logs that parse returns for the file are different objects, and two of them have an object in common only as their attribute source or within it, at the same place in both. All that is reached from them is new, and what existed before loading is as it was. Setting the value of the attribute at one place therefore leaves what stands at every other place where it is and as it was, the source of another log of the file aside.", "quantifier": "For every sequence of SAX calls that XMxmlParser.parse accepts (well nested or not), every state of the objects before, every choice of the prototypes of the extensions, all pairs of logs and all pairs of places. None, which ill-nested files put into traces, is not an object to be changed and is left aside.", "why_tests_cant": "Tests look at a few loaded logs and compare values; two places holding one object look the same as two equal objects until one is changed.", "anchors": ["src/opyenxes/data_in/XMxmlParser.py:104-283", "src/opyenxes/model/XAttributeMap.py:4-23", "src/opyenxes/extension/std/XConceptExtension.py:60-63"]}
{"id": "C182", "title": "A document is read in the encoding that it declares", "statement": "An XES or MXML document and an extension definition are read as the characters that they say in the encoding that they declare: UTF-8 with or without a byte order mark and with or without a declaration; UTF-16 in either byte order with a byte order mark, or without one if the first character is below 256; ISO-8859-1, US-ASCII or any other encoding of single bytes that Python knows, if it is declared and has the characters of the declaration as ASCII does (a byte order mark of UTF-8 before that is skipped). A document of single bytes that declares UTF-16, a document in UTF-16 that declares something else, a name that Python does not know, and bytes that the declared encoding does not have are refused.", "quantifier": "for all documents, all well-formed declarations and all encodings of single bytes", "why_tests_cant": "Test files are written in one encoding; the declaration may be laid out in unboundedly many ways, and names of encodings are open-ended.", "anchors": ["src/opyenxes/data_in/XesXmlParser.py:48", "src/opyenxes/data_in/XMxmlParser.py:56", "src/opyenxes/data_in/XesXmlGZIPParser.py:35-38", "src/opyenxes/data_in/XMxmlGZIPParser.py:34-37", "src/opyenxes/extension/XExtensionParser.py:131-148"]}
{"id": "C183", "title": "A text that is not an XML document is refused", "statement": "The parsers of XES logs, MXML logs and extension definitions raise an exception for every text that is not an XML document: elements that are not closed or closed in the wrong order, several elements or text at the top, attributes without quotes or twice in one tag, `<` or a loose `&` in a value, references to characters that do not exist, comments with `--`, a broken declaration, and whatever else is outside the grammar. What is accepted is a document, and the elements, attributes and characters read are those that it says. Among texts in ASCII without processing instructions and `]]>`, perhaps after a declaration, exactly the XML documents are accepted.", "quantifier": "for all texts without a document type, all factories, extension managers, heaps and registered names", "why_tests_cant": "The texts that are no documents are unbounded, and a text may go wrong at any place in any depth of nesting; tests try a few broken files.", "anchors": ["src/opyenxes/data_in/XesXmlParser.py:36-50", "src/opyenxes/data_in/XMxmlParser.py:42-58", "src/opyenxes/extension/XExtensionParser.py:131-148"]}
{"id": "C184", "title": "A timestamp attribute holds a datetime, and its clone shows the same, exactly if it was given one", "statement": "In a program that constructs XAttributeTimestamp objects from datetimes, ints and bools, gives set_value datetimes only and uses set_value_millis and clone as it likes (exceptions being caught), every such attribute holds a datetime all the time: get_value returns it, str writes it, clone makes an attribute that shows the same and equals it, and == never raises. In any program, whatever the values: a call changes no attribute but the one whose set_value or set_value_millis it is, and of that only the value; a call that raises changes nothing; set_value(v) makes get_value return v; while this is not a datetime, str and get_value_millis raise AttributeError. An attribute constructed from another value (a text, None, a float, an XID) has no value: get_value, get_value_millis, clone and str raise AttributeError, and so do == and compare_to with another timestamp attribute of the same key, until a value is set. clone acts as the constructor with the current value, so the clone shows the same value exactly if the value is a datetime: an int becomes the datetime of that many milliseconds, any other value is lost.", "quantifier": "for all sequences of calls on any number of timestamp attributes, all values, all clocks (mktime and fromtimestamp being any functions), on Windows and elsewhere", "why_tests_cant": "Which attributes hold what depends on the whole history of calls, and the attribute without a value fails only when something reads it, far from the constructor that dropped the value; tests clone datetimes.", "anchors": ["src/opyenxes/model/XAttributeTimestamp.py:18-57", "src/opyenxes/model/XAttributeTimestamp.py:59-73", "src/opyenxes/model/XAttributeTimestamp.py:106-112"]}
{"id": "C185", "title": "A trace in the order of time is in the order of time after saving and loading", "statement": "If every event of a trace carries a timestamp and the timestamps never decrease, then the same holds for the trace in the log that is saved as XES and loaded again (the keys of the attributes being those under which they are stored and passing through the file unchanged). Every event has its point in time, cut to the millisecond, and all dates have a time zone then, also where the saved trace had dates with and without one: so insert_ordered of an event with a zone does not raise on the loaded trace and keeps it in order. An event is inserted at the same index before saving and (with its date cut to the millisecond) after loading, if no later event of the trace falls into its millisecond; without that condition it may not be.", "quantifier": "for all writable logs, all traces, all events with timestamps, both writers", "why_tests_cant": "Tests save traces with dates of whole seconds and do not insert into what they load.", "anchors": ["src/opyenxes/model/XTrace.py:28-57", "src/opyenxes/model/XAttributeTimestamp.py:78-98", "src/opyenxes/data_out/XesXmlSerializer.py:31-136", "src/opyenxes/data_in/XesXmlParser.py:58-237"]}
{"id": "C186", "title": "The clone of a log is saved as the same file, up to the order of the extensions, and has the same summary", "statement": "XLog.clone of a log returns another log, which XMxmlSerializer saves as the same file as the log, and XesXmlSerializer as the same elements except that the extensions may be declared in another order: the clone adds them to a new set, which may enumerate them differently, and then the files differ; if it enumerates them in the same order, the files are the same. For the clone XLogInfo.create gives the same summary for any classifiers, or raises the same exception where it does for the log (in particular where an attribute lies within itself), whatever the limit on nested calls is. Cloning does not change what the log itself is saved as and its summary. Saving and summarising depend only on the entries of the maps, the extensions, classifiers and lists of global attributes, and on the attributes, not on the identifiers of events; so the log and the clone remain alike, whatever is done to attributes through either of them, as long as the entries of their maps and their traces and events stay: a value that is set through the clone is in the file of the log.", "quantifier": "all well-formed heaps, shared objects and attributes within themselves included; all logs in them; all programs; all recursion limits, classifiers and sources of identifiers; all orders in which the set of the clone enumerates the extensions", "why_tests_cant": "Tests clone small logs and compare single attributes; that nothing that is saved depends on the identity of the copied objects is a statement about all object graphs.", "anchors": ["src/opyenxes/model/XLog.py:23-41", "src/opyenxes/model/XTrace.py:16-26", "src/opyenxes/model/XEvent.py:27-36", "src/opyenxes/data_out/XesXmlSerializer.py:31-164", "src/opyenxes/data_out/XMxmlSerializer.py:38-186", "src/opyenxes/info/XLogInfo.py:28-109"]}
{"id": "C187", "title": "The numbers of the parts of a log add up to those of the log", "statement": "If the traces of a log are distributed over several logs, then wherever XLogInfo.create succeeds for the log and for the parts, the number of traces, the number of events, the totals and the frequency of every key among the attributes of traces and of events are the sums of those of the parts. XEventClasses.derive_event_classes succeeds for the log exactly if it does for every part, and the size of every class is the sum of its sizes in the parts. So are the sizes of the classes in the summaries. If the parts have the attributes of the log, the frequencies of keys among the attributes of the log are the same in all summaries, and those among nested attributes add up, except that what is nested in the attributes of the log is counted in each part. If the parts have the attributes of the log, every value has the type of its attribute and within each level a key always comes with one type, then the log has a summary exactly if all parts have; without the last condition a log can have a summary though one of its parts has none. The logs that Cluster_a_log makes are such parts, with the attributes of the log.", "quantifier": "all logs and distributions of their traces, in any order, over any number of logs; all classifiers; for clusters all logs whose events have a class name, all prediction functions and numbers of clusters", "why_tests_cant": "A test splits one log in one way; that nothing is counted twice or lost is a statement about all distributions.", "anchors": ["src/opyenxes/info/XLogInfo.py:28-109", "src/opyenxes/classification/XEventClasses.py:95-120", "example/Cluster_a_log.py:49-65"]}
{"id": "C188", "title": "The order in which the set of extensions is enumerated does not matter for what a file holds", "statement": "A log keeps its extensions in a set, which Python may enumerate in any order. Whatever this order is when XesXmlSerializer saves a log (whose values have the types of their attributes and whose texts are legal in XML), loading the file gives the same log: the same attributes, classifiers, global attributes, traces and events, and extensions with the same URIs, each once; if the extension manager has no two extensions with one URI (as after registering extensions with different URIs, such as the standard ones), the same extensions. Otherwise the order can decide which of two extensions with one URI the loaded log has. A log loaded from an XES file is saved as a file that holds it (C139) in whatever order its set gives the extensions. The summary (XLogInfo), the event classes and the MXML file do not depend on the extensions at all.", "quantifier": "all logs that can be saved, all orders of their extensions, all extension managers, both versions of minidom", "why_tests_cant": "A test sees the one order that the hash values of its run lead to.", "anchors": ["src/opyenxes/model/XLog.py:13-21", "src/opyenxes/data_out/XesXmlSerializer.py:55-64", "src/opyenxes/data_in/XesXmlParser.py:112-131", "src/opyenxes/extension/XExtension.py:107-113"]}

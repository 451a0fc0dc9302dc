import Verif.Py.Num
import Verif.Py.Dict
/-
Small utilities: utils/SingletonClassGenerator.py, utils/XTimer.py, utils/XRuntimeUtils.py,
info/XAttributeNameMap.py, info/XGlobalAttributeNameMap.py.
-/
namespace Opy

/-! ## Singletons -/

/-- The 18 singleton classes (`class ...(metaclass=...)`): data_in/XParserRegistry.py:9,
data_out/XSerializerRegistry.py:9, id/XIDFactory.py:5, extension/XExtensionManager.py:18,
extension/XExtensionParser.py:12, extension/std/XCostExtension.py:9,35,61,87,
extension/std/X{Identity,Organizational,Concept,Lifecycle,Micro,Time,Semantic}Extension.py,
factory/XFactoryRegistry.py:6, info/XGlobalAttributeNameMap.py:6. -/
inductive SClass where
  | parserRegistry | serializerRegistry | idFactory | extensionManager | extensionParser
  | costAmount | costDriver | costType | costExtension | identityExtension | organizationalExtension
  | conceptExtension | lifecycleExtension | microExtension | timeExtension | semanticExtension
  | factoryRegistry | globalAttributeNameMap
  deriving DecidableEq, Repr

/-- The 18 metaclasses of utils/SingletonClassGenerator.py. -/
inductive SMeta where
  | costAmountM | costDriverM | costTypeM | costExtensionM | conceptExtensionM | extensionManagerM
  | extensionM | lifecycleExtensionM | identityExtensionM | factoryRegistryM | idFactoryM
  | globalAttributeNameMapM | microExtensionM | timeExtensionM | organizationalExtensionM
  | semanticExtensionM | serializerRegistryM | parserRegistryM
  deriving DecidableEq, Repr

/-- Which metaclass a class is declared with (the `class` statements cited at `SClass`;
note extension/XExtensionParser.py:12, which uses `XExtensionMetaclass`). -/
def metaOf : SClass → SMeta
  | .parserRegistry => .parserRegistryM
  | .serializerRegistry => .serializerRegistryM
  | .idFactory => .idFactoryM
  | .extensionManager => .extensionManagerM
  | .extensionParser => .extensionM
  | .costAmount => .costAmountM
  | .costDriver => .costDriverM
  | .costType => .costTypeM
  | .costExtension => .costExtensionM
  | .identityExtension => .identityExtensionM
  | .organizationalExtension => .organizationalExtensionM
  | .conceptExtension => .conceptExtensionM
  | .lifecycleExtension => .lifecycleExtensionM
  | .microExtension => .microExtensionM
  | .timeExtension => .timeExtensionM
  | .semanticExtension => .semanticExtensionM
  | .factoryRegistry => .factoryRegistryM
  | .globalAttributeNameMap => .globalAttributeNameMapM

/-- An evaluation of `Cls(...)`: the class, and the singleton instantiations that its `__init__`
performs if it runs (for example extension/XExtensionManager.py:32-38 instantiates all standard
extensions). -/
inductive Inst where
  | mk (cls : SClass) (inner : List Inst)

/-- The class attributes `instance` of the metaclasses (absent = `None`), the next free object
identity, and - for stating properties - every evaluation so far with its result. -/
structure SState where
  instances : List (SMeta × Nat)
  next : Nat
  log : List (SClass × Nat)

/-- Nothing instantiated yet (`instance = None` in all metaclasses). -/
def SState.empty : SState := ⟨[], 0, []⟩

mutual
/-- `Meta.__call__`: utils/SingletonClassGenerator.py:7-10 and the 17 copies.  `truthy` is
`bool(object)`: the test is `if not Meta.instance`. -/
def instantiate (truthy : Nat → Bool) (st : SState) : Inst → SState
  | .mk c inner =>
    let create : SState :=
      let st1 := instantiateAll truthy st inner
      { instances := dset (metaOf c) st1.next st1.instances, next := st1.next + 1,
        log := st1.log ++ [(c, st1.next)] }
    match dget (metaOf c) st.instances with
    | some o => if truthy o then { st with log := st.log ++ [(c, o)] } else create
    | none => create
/-- Several evaluations, one after the other. -/
def instantiateAll (truthy : Nat → Bool) (st : SState) : List Inst → SState
  | [] => st
  | i :: is => instantiateAll truthy (instantiate truthy st i) is
end

/-! ## Timer -/

/-- `XTimer`: utils/XTimer.py:4-18.  Clock readings (`time.time()`, seconds) are exact rationals;
rounding of doubles is not modelled. -/
structure Timer where
  start : Rat
  stop : Rat

/-- `XTimer()`: utils/XTimer.py:15-18; `imported` is the clock when the module was imported (the
class attribute `__start`). -/
def Timer.new (imported : Rat) : Timer := ⟨imported * 1000, imported * 1000⟩

/-- `start()` at clock `t`: utils/XTimer.py:20-25. -/
def Timer.started (_ : Timer) (t : Rat) : Timer := ⟨t * 1000, t * 1000⟩

/-- `stop()` at clock `t`: utils/XTimer.py:27-31. -/
def Timer.stopped (x : Timer) (t : Rat) : Timer := { x with stop := t }

/-- `get_duration()` at clock `t`: utils/XTimer.py:33-41. -/
def Timer.duration (x : Timer) (t : Rat) : Rat :=
  if x.start = x.stop then t * 1000 - x.stop else x.stop - x.start

/-- `format_duration(millis)` for an `int`: utils/XTimer.py:52-84. -/
def formatDuration (millis : Int) : Str :=
  let (sb, millis) : Str × Int :=
    if millis > 86400000 then ([] ++ (intStr (millis.fdiv 86400000) ++ py!" days, "), millis.fmod 86400000) else ([], millis)
  let (sb, millis) : Str × Int :=
    if millis > 3600000 then (sb ++ (intStr (millis.fdiv 3600000) ++ py!" hours, "), millis.fmod 3600000) else (sb, millis)
  let (sb, millis) : Str × Int :=
    if millis > 60000 then (sb ++ (intStr (millis.fdiv 60000) ++ py!" minutes, "), millis.fmod 60000) else (sb, millis)
  let (sb, millis) : Str × Int :=
    if millis > 1000 then (sb ++ (intStr (millis.fdiv 1000) ++ py!" seconds, "), millis.fmod 1000) else (sb, millis)
  sb ++ (intStr millis ++ py!" milliseconds")

/-! ## Runtime utilities -/

/-- The environment seen by utils/XRuntimeUtils.py: `sys.platform`, `os.getenv('USERPROFILE')`,
`os.path.expanduser` on strings. -/
structure Env where
  platform : Str
  userProfile : Option Str
  expandUser : Str → Str

/-- `determine_os().startswith("win32")` etc.: utils/XRuntimeUtils.py:17-58. -/
def Env.isWindows (e : Env) : Bool := (py!"win32").isPrefixOf e.platform
/-- utils/XRuntimeUtils.py:36-42. -/
def Env.isMac (e : Env) : Bool := (py!"darwin").isPrefixOf e.platform
/-- utils/XRuntimeUtils.py:44-50. -/
def Env.isLinux (e : Env) : Bool := (py!"linux").isPrefixOf e.platform
/-- utils/XRuntimeUtils.py:52-58. -/
def Env.isUnix (e : Env) : Bool := (py!"freebsd").isPrefixOf e.platform || e.isLinux || e.isMac

/-- The state of an `XRuntimeUtils` object: `__current_os`; utils/XRuntimeUtils.py:14-15. -/
structure RuntimeUtils where
  currentOs : Option Str

/-- `XRuntimeUtils()`: utils/XRuntimeUtils.py:14-15. -/
def RuntimeUtils.new : RuntimeUtils := ⟨none⟩

/-- `determine_os()` while `sys.platform` is `platform`: utils/XRuntimeUtils.py:17-26.  The result and the
new state of the object. -/
def RuntimeUtils.determineOs (r : RuntimeUtils) (platform : Str) : Str × RuntimeUtils :=
  match r.currentOs with
  | none => (platform, ⟨some platform⟩)
  | some os => (os, r)

/-- `os.makedirs(path)`: raises `FileExistsError` if the path exists.  The file system is the list of
existing paths (simplification: only the leaf directory is recorded, and there are no permission
errors). -/
def makedirs (fs : List Str) (path : Str) : Except PyErr (List Str) :=
  if path ∈ fs then .error .fileExistsError else .ok (fs ++ [path])

/-- `get_support_folder()`: utils/XRuntimeUtils.py:60-76.  `os.path.expanduser(None)` raises
`TypeError`. -/
def supportFolder (e : Env) (fs : List Str) : Except PyErr (Str × List Str) :=
  match e.userProfile with
  | none => .error .typeError
  | some p =>
    let home := e.expandUser p
    if e.isWindows then do
      let fs ← makedirs fs (home ++ py!"\\" ++ py!"OpenXES")
      .ok (home ++ py!"\\" ++ py!"OpenXES" ++ py!"\\", fs)
    else if e.isMac then do
      let fs ← makedirs fs (home ++ py!"/Library/Application Support/" ++ py!"OpenXES")
      .ok (home ++ py!"/Library/Application Support/" ++ py!"OpenXES" ++ py!"/", fs)
    else do
      let fs ← makedirs fs (home ++ py!"/." ++ py!"OpenXES")
      .ok (home ++ py!"/." ++ py!"OpenXES" ++ py!"/", fs)

/-- `get_extension_cache_folder()`: utils/XRuntimeUtils.py:78-86. -/
def extensionCacheFolder (e : Env) (fs : List Str) : Except PyErr (Str × List Str) := do
  let (s, fs) ← supportFolder e fs
  let fs ← makedirs fs (s ++ py!"ExtensionCache")
  .ok (s ++ py!"ExtensionCache", fs)

/-! ## Attribute name maps -/

/-- The attribute argument of the name maps: a key, an attribute (only its key is used), or
something else.  info/XAttributeNameMap.py:33-36,48-51. -/
inductive AttrArg where
  | str (key : Str)
  | attrib (key : Str)
  | other

/-- An argument that is a string or something else (info/XAttributeNameMap.py:47). -/
inductive StrArg where
  | str (s : Str)
  | other

/-- `XAttributeNameMap`: info/XAttributeNameMap.py:10-12. -/
structure NameMap where
  name : Str
  mapping : List (Str × Str)

/-- `map(attribute)`: info/XAttributeNameMap.py:22-36. -/
def NameMap.map (m : NameMap) : AttrArg → Option Str
  | .str k => dget k m.mapping
  | .attrib k => dget k m.mapping
  | .other => none

/-- `register_mapping(attribute, alias)`: info/XAttributeNameMap.py:38-51. -/
def NameMap.register (m : NameMap) (a : AttrArg) (alias : StrArg) : NameMap :=
  match alias with
  | .other => m
  | .str s =>
    match a with
    | .str k => { m with mapping := dset k s m.mapping }
    | .attrib k => { m with mapping := dset k s m.mapping }
    | .other => m

/-- `XGlobalAttributeNameMap`: info/XGlobalAttributeNameMap.py:22-24.  The name maps are objects
(`maps`, addressed by position) because the standard map is shared between the two fields. -/
structure GlobalMap where
  maps : List NameMap
  standard : Nat
  mappings : List (Str × Nat)

/-- `__init__`: info/XGlobalAttributeNameMap.py:22-24. -/
def GlobalMap.init : GlobalMap := ⟨[⟨py!"EN", []⟩], 0, [(py!"EN", 0)]⟩

/-- `get_mapping(name)`: info/XGlobalAttributeNameMap.py:47-63; returns the address of the map. -/
def GlobalMap.getMapping (g : GlobalMap) (name : Str) : Nat × GlobalMap :=
  match dget name g.mappings with
  | some r => (r, g)
  | none => (g.maps.length, { g with maps := g.maps ++ [⟨name, []⟩], mappings := dset name g.maps.length g.mappings })

/-- `register_mapping(mapping_name, attribute_key, alias)`: info/XGlobalAttributeNameMap.py:112-126. -/
def GlobalMap.register (g : GlobalMap) (name : Str) (a : AttrArg) (alias : StrArg) : GlobalMap :=
  let (r, g) := g.getMapping name
  { g with maps := g.maps.modify r (fun m => m.register a alias) }

/-- `map(attribute)`: info/XGlobalAttributeNameMap.py:137-148. -/
def GlobalMap.map (g : GlobalMap) (a : AttrArg) : Option Str :=
  match g.maps[g.standard]? with
  | some m => m.map a
  | none => none

/-- `map_safely(attribute, mapping)` with an `XAttributeNameMap` object (which need not be one of the
managed ones): info/XGlobalAttributeNameMap.py:90-104. -/
def GlobalMap.mapSafelyWith (g : GlobalMap) (m : NameMap) : AttrArg → Option Str
  | .other => none
  | .attrib k => some (match m.map (.str k) with
      | some s => s
      | none => match g.map (.str k) with
        | some s => s
        | none => k)
  | .str k => some (match m.map (.str k) with
      | some s => s
      | none => match g.map (.str k) with
        | some s => s
        | none => k)

/-- `map_safely(attribute, mapping)` with a mapping name: info/XGlobalAttributeNameMap.py:106-110.
For an unknown name the recursive call gets `None` and falls through all cases. -/
def GlobalMap.mapSafely (g : GlobalMap) (a : AttrArg) (name : Str) : Option Str :=
  match dget name g.mappings with
  | none => none
  | some r => match g.maps[r]? with
    | some m => g.mapSafelyWith m a
    | none => none

/-- A call that changes the global map: info/XGlobalAttributeNameMap.py:47,112. -/
inductive MapCall where
  | get (name : Str)
  | register (name : Str) (a : AttrArg) (alias : StrArg)

/-- Effect of one call. -/
def GlobalMap.step (g : GlobalMap) : MapCall → GlobalMap
  | .get n => (g.getMapping n).2
  | .register n a s => g.register n a s

/-- Effect of a history of calls on a new global map. -/
def GlobalMap.run (calls : List MapCall) : GlobalMap := calls.foldl GlobalMap.step .init

/-- `get_available_mapping_names()`: info/XGlobalAttributeNameMap.py:26-33. -/
def GlobalMap.availableNames (g : GlobalMap) : List Str := dkeys g.mappings

/-- `str(mapping)` of an `XAttributeNameMap`: info/XAttributeNameMap.py:53-62. -/
def NameMap.text (m : NameMap) : Str :=
  py!"Attribute name map: " ++ m.name ++
    ((dkeys m.mapping).map fun key => py!"\n" ++ key ++ py!" -> " ++ (dget key m.mapping).getD []).flatten

/-- `str(map)` of the `XGlobalAttributeNameMap`: info/XGlobalAttributeNameMap.py:150-156. -/
def GlobalMap.text (g : GlobalMap) : Str :=
  py!"Global attribute name map.\n\nContained maps:\n\n" ++
    ((dvals g.mappings).map fun r => (g.maps[r]?.map NameMap.text).getD [] ++ py!"\n\n").flatten

end Opy

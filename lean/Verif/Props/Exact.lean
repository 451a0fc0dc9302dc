import Verif.Props.Attr
import Verif.Props.Ext
import Verif.Props.ExtNested
import Verif.Props.ExtParse
import Verif.Props.Examples
import Verif.Props.MxmlFile
/-
Properties C144 to C146: values of another type than the class asks for, definitions that lack something, and how saved files begin.
-/
set_option linter.unusedSectionVars false
namespace Opy

section
variable {F : Type} [PyFloat F]

/-! ## C144: values of other types -/

/-- A continuous attribute. -/
def cont (key : Str) (v : PyVal F) : Attr F := .mk .continuous key none v [] []

/-- Two values that a continuous attribute does not tell apart: compared from either side with any attribute, and hashed, the outcome
is the same. -/
def Interchangeable (v w : PyVal F) : Prop :=
  ∀ (key : Str), (∀ b : Attr F, compareTo (cont key v) b = compareTo (cont key w) b) ∧
    (∀ (k : Str) (u : PyVal F), compareTo (cont k u) (cont key v) = compareTo (cont k u) (cont key w)) ∧
    ∀ H : LawfulHash F, attrHash H (cont key v) = attrHash H (cont key w)

/-- The value makes comparing (with an attribute of the same key and a usable value) and hashing raise `e`. -/
def RaisesOn (e : PyErr) (v : PyVal F) : Prop :=
  ∀ (key : Str), (∀ (x : Attr F), x.key = key → compareTo (cont key v) x = .error e) ∧
    (∀ (x : F), compareTo (cont key (.float x)) (cont key v) = .error e) ∧ ∀ H : LawfulHash F, attrHash H (cont key v) = .error e

theorem interchangeable_of {v w : PyVal F} (h : pyFloatOf v = pyFloatOf w) : Interchangeable v w := by
  intro key
  refine ⟨?_, ?_, ?_⟩
  · intro b
    have k : ∀ u : PyVal F, (cont key u).key = key := fun _ => rfl
    have n : ∀ u : PyVal F, (cont key u).kind = .continuous := fun _ => rfl
    have l : ∀ u : PyVal F, (cont key u).val = u := fun _ => rfl
    simp only [compareTo, k, n, l, h]
  · intro k u
    simp only [compareTo, cont, Attr.key, Attr.kind, Attr.val, getValue, Kind.isCollection, Bool.false_eq_true, if_false, bind, Except.bind, h]
  · intro H
    simp only [attrHash, hashIn, cont, Attr.key, Attr.kind, Attr.val, h]

theorem raisesOn_of {v : PyVal F} {e : PyErr} (h : pyFloatOf v = .error e) : RaisesOn e v := by
  intro key
  have hk : compareStr key key = 0 := by simp [compareStr]
  refine ⟨?_, ?_, ?_⟩
  · intro x hx
    subst hx
    simp only [compareTo, cont, Attr.key, Attr.kind, Attr.val, h, bind, Except.bind]
    rw [if_pos (by simp [compareStr])]
  · intro x
    have hx : pyFloatOf (.float x : PyVal F) = .ok x := rfl
    simp only [compareTo, cont, Attr.key, Attr.kind, Attr.val, getValue, Kind.isCollection, Bool.false_eq_true, if_false, bind, Except.bind, h,
      hk, if_true, hx]
  · intro H
    simp only [attrHash, hashIn, cont, Attr.kind, Attr.val, h, bind, Except.bind]

/-- C144: a continuous attribute treats an integer as the float it converts to, True as 1, False as 0, and a text as the float it
spells; integers that are too large, texts that are no number and values of other types raise. -/
theorem c144_continuous :
    (∀ (z : Int) (x : F), PyFloat.ofInt z = some x → Interchangeable (.int z) (.float x)) ∧
    Interchangeable (F := F) (.bool true) (.int 1) ∧ Interchangeable (F := F) (.bool false) (.int 0) ∧
    (∀ (s : Str) (x : F), PyFloat.parse s = some x → Interchangeable (.str s) (.float x)) ∧
    (∀ z : Int, PyFloat.ofInt (F := F) z = none → RaisesOn (F := F) .overflowError (.int z)) ∧
    (∀ s : Str, PyFloat.parse (F := F) s = none → RaisesOn (F := F) .valueError (.str s)) ∧
    RaisesOn (F := F) .typeError .none ∧ (∀ d, RaisesOn (F := F) .typeError (.dt d)) ∧ (∀ u, RaisesOn (F := F) .typeError (.xid u)) := by
  refine ⟨fun z x h => interchangeable_of ?_, interchangeable_of rfl, interchangeable_of rfl, fun s x h => interchangeable_of ?_,
    fun z h => raisesOn_of ?_, fun s h => raisesOn_of ?_, raisesOn_of rfl, fun d => raisesOn_of rfl, fun u => raisesOn_of rfl⟩ <;>
  simp [pyFloatOf, h]

/-- C144: uses_standard_model says exactly whether the text stored as lifecycle:model, trimmed, is `standard`; a model that is not a
text raises. -/
theorem c144_model {m : AttrMap F} {a : Attr F} (ha : dget py!"lifecycle:model" m = some a) :
    (∀ s, a.kind.isCollection = false → a.val = .str s → usesStandardModel m = .ok (decide (strip s = py!"standard"))) ∧
    (a.kind.isCollection = false → a.val = .none → usesStandardModel m = .ok false) ∧
    (a.kind.isCollection = false → (∀ s, a.val ≠ .str s) → a.val ≠ .none → usesStandardModel m = .error .attributeError) ∧
    (a.kind.isCollection = true → usesStandardModel m = .error .attributeError) := by
  have e : ∀ r, getValue a = r → extractModel m = r := by
    intro r hr
    simp only [extractModel, extractOr, ha, hr]
  refine ⟨?_, ?_, ?_, ?_⟩
  · intro s hk hv
    rw [usesStandardModel, e (.ok (.str s)) (by simp [getValue, hk, hv])]
    simp only [bind, Except.bind, Except.ok.injEq]
    rw [Bool.eq_iff_iff]
    simp
  · intro hk hv
    rw [usesStandardModel, e (.ok .none) (by simp [getValue, hk, hv])]
    simp [bind, Except.bind]
  · intro hk hs hn
    rw [usesStandardModel, e (.ok a.val) (by simp [getValue, hk])]
    cases hv : a.val with
    | str s => exact absurd hv (hs s)
    | none => exact absurd hv hn
    | _ => simp [bind, Except.bind]
  · intro hk
    rw [usesStandardModel, e (.error .attributeError) (by simp [getValue, hk])]
    simp [bind, Except.bind]

/-- C144: drivers and types that are neither None nor text raise AttributeError, whatever the element holds. -/
theorem c144_cost {v : PyVal F} (hn : v ≠ .none) (hs : ∀ s, v ≠ .str s) (m : AttrMap F) :
    assignDriverVal v m = .error .attributeError ∧ assignTypeVal v m = .error .attributeError := by
  cases v <;> simp_all [assignDriverVal, assignTypeVal]

example : Interchangeable (F := ToyFloat) (.bool false) (.int 0) := (c144_continuous).2.2.1
example : usesStandardModel (F := ToyFloat) [(py!"lifecycle:model", .mk .literal py!"lifecycle:model" none (.str py!" standard\n") [] [])] = .ok true := by
  decide +kernel
example : assignDriverVal (F := ToyFloat) (.int 3) [] = .error .attributeError := (c144_cost (by simp) (by simp) []).1

/-! ## C145: definitions and rows that lack something -/

/-- The XML attributes that an element of an extension definition must have: name, prefix and URI of the extension, the key of an
attribute definition. -/
def required (tag : Str) : List Str :=
  if lower tag = py!"xesextension" then [py!"name", py!"prefix", py!"uri"]
  else if lower tag ∈ [py!"string", py!"date", py!"int", py!"float", py!"boolean", py!"id"] then [py!"key"]
  else []

theorem attrValue_missing {as : List (Str × Str)} {k : Str} (h : k ∉ as.map Prod.fst) : attrValue as k = .error .keyError := by
  have : dget k as = none := by
    cases hd : dget k as with
    | none => rfl
    | some v => exact absurd (List.mem_map_of_mem (f := Prod.fst) (dget_mem hd)) h
  simp [attrValue, this]

theorem attrValue_cases (as : List (Str × Str)) (k : Str) : (∃ v, attrValue as k = .ok v) ∨ attrValue as k = .error .keyError := by
  unfold attrValue
  split
  · exact .inl ⟨_, rfl⟩
  · exact .inr rfl

theorem startExt_missing (w : ExtWorld F) {st : ExtSt F} {tag k : Str} {as : List (Str × Str)} (hk : k ∈ required tag)
    (hm : k ∉ as.map Prod.fst) (hx : lower tag ≠ py!"xesextension" → st.ext ≠ none) : startExt w st tag as = .error .keyError := by
  have miss := attrValue_missing hm
  unfold required at hk
  split at hk
  · next ht =>
    simp only [startExt, ht, if_true]
    rcases attrValue_cases as py!"name" with ⟨v1, h1⟩ | h1
    · rcases attrValue_cases as py!"prefix" with ⟨v2, h2⟩ | h2
      · rcases attrValue_cases as py!"uri" with ⟨v3, h3⟩ | h3
        · simp only [List.mem_cons, List.not_mem_nil, or_false] at hk
          rcases hk with rfl | rfl | rfl
          · rw [miss] at h1; cases h1
          · rw [miss] at h2; cases h2
          · rw [miss] at h3; cases h3
        · simp only [h1, h2, h3, bind, Except.bind]
      · simp only [h1, h2, bind, Except.bind]
    · simp only [h1, bind, Except.bind]
  · next ht =>
    split at hk
    · next hd =>
      simp only [List.mem_singleton] at hk
      subst hk
      obtain ⟨x, hx⟩ := Option.ne_none_iff_exists'.1 (hx ht)
      have key : ∀ d, startDef w st d as = .error .keyError := by
        intro d
        simp only [startDef, ExtSt.choose, ExtSt.current, hx, miss, bind, Except.bind]
      have hd' := hd
      simp only [List.mem_cons, List.not_mem_nil, or_false] at hd'
      rcases hd' with h | h | h | h | h | h <;>
        simp [startExt, defTag, h, key]
    · simp at hk

/-- C145: a definition in which an element lacks an XML attribute it must have raises KeyError, wherever the element is and whatever
follows it, when what comes before could be read. -/
theorem c145_definition (w : ExtWorld F) (names : GlobalMap) {before after : List Sax} {tag k : Str} {as : List (Str × Str)}
    {x : Option (ExtObj F)} {names' : GlobalMap} (hb : parseExt w names before = .ok (x, names'))
    (hx : lower tag ≠ py!"xesextension" → x ≠ none) (hk : k ∈ required tag) (hm : k ∉ as.map Prod.fst) :
    parseExt w names (before ++ .start tag as :: after) = .error .keyError := by
  unfold parseExt at hb ⊢
  obtain ⟨st, h1, h2⟩ := bind_ok.1 hb
  cases h2
  rw [runExt_append, h1]
  simp only [bind, Except.bind, runExt, startExt_missing w hk hm hx]

/-- C145: an alias, inside the definition of an attribute, that lacks its mapping or its name raises KeyError. -/
theorem c145_alias (w : ExtWorld F) (names : GlobalMap) {before after : List Sax} {tag k : Str} {as : List (Str × Str)}
    {st : ExtSt F} (hb : runExt w (.init F names) before = .ok st) (hc : st.cur ≠ none) (ht : lower tag = py!"alias")
    (hk : k = py!"mapping" ∨ k = py!"name") (hm : k ∉ as.map Prod.fst) :
    parseExt w names (before ++ .start tag as :: after) = .error .keyError := by
  unfold parseExt
  rw [runExt_append, hb]
  have miss := attrValue_missing hm
  obtain ⟨key, hc⟩ := Option.ne_none_iff_exists'.1 hc
  have : startExt w st tag as = .error .keyError := by
    have hd : defTag tag = none := by simp [defTag, ht]
    simp only [startExt, ht, hd, hc, if_true]
    rcases attrValue_cases as py!"mapping" with ⟨v1, h1⟩ | h1
    · rcases attrValue_cases as py!"name" with ⟨v2, h2⟩ | h2
      · rcases hk with rfl | rfl
        · rw [miss] at h1; cases h1
        · rw [miss] at h2; cases h2
      · simp [h1, h2, bind, Except.bind]
    · simp [h1, bind, Except.bind]
  simp only [bind, Except.bind, runExt, this]

/-- C145: a row of the CSV script with more cells than the file has columns raises KeyError, when the cells of the columns can be
converted. -/
theorem c145_row {strptime : Str → Str → Except PyErr DateTime} {types cells more : List Str} {m : AttrMap F}
    (h2 : 2 ≤ cells.length) (hl : cells.length = types.length) (h : convertLine strptime types cells = .ok m) (hm : more ≠ []) :
    convertLine (F := F) strptime types (cells ++ more) = .error .keyError := by
  unfold convertLine at *
  rw [List.drop_append_of_le_length h2]
  have key : ∀ (ts cs : List Str) (m m' : AttrMap F), cs.length = ts.length → csvAttrs strptime m ts cs = .ok m' →
      csvAttrs strptime m ts (cs ++ more) = .error .keyError := by
    intro ts
    induction ts with
    | nil =>
      intro cs m m' hl _
      simp only [List.length_nil, List.length_eq_zero_iff] at hl
      subst hl
      cases more with
      | nil => exact absurd rfl hm
      | cons c cs => rfl
    | cons t ts ih =>
      intro cs m m' hl h
      cases cs with
      | nil => simp at hl
      | cons c cs =>
        simp only [csvAttrs, List.cons_append] at h ⊢
        obtain ⟨a, h1, h2⟩ := bind_ok.1 h
        rw [h1]
        exact ih cs _ m' (by simpa using hl) h2
  exact key _ _ _ _ (by simp [hl]) h

/-- The events of the example up to the end of the extension element's start, then an event attribute without key. -/
example : parseExt onlineWorld .init ([.start py!"xesextension" [(py!"name", py!"Cost"), (py!"prefix", py!"cost"), (py!"uri", py!"u")]] ++
    .start py!"Float" [(py!"ky", py!"total")] :: [.stop py!"Float"]) = .error .keyError := by
  obtain ⟨st, h⟩ : ∃ st, parseExt onlineWorld .init [.start py!"xesextension" [(py!"name", py!"Cost"), (py!"prefix", py!"cost"), (py!"uri", py!"u")]] = .ok st ∧
      st.1.isSome := ⟨_, rfl, rfl⟩
  exact c145_definition onlineWorld .init h.1 (fun _ hn => by simp [hn] at h) (k := py!"key") (by decide +kernel) (by decide +kernel)

/-- An alias without name. -/
example : parseExt onlineWorld .init ([.start py!"xesextension" [(py!"name", py!"Cost"), (py!"prefix", py!"cost"), (py!"uri", py!"u")],
    .start py!"log" [], .start py!"int" [(py!"key", py!"total")]] ++ .start py!"ALIAS" [(py!"mapping", py!"EN")] :: []) = .error .keyError := by
  obtain ⟨st, h⟩ : ∃ st, runExt onlineWorld (.init ToyFloat .init) [.start py!"xesextension" [(py!"name", py!"Cost"), (py!"prefix", py!"cost"), (py!"uri", py!"u")],
      .start py!"log" [], .start py!"int" [(py!"key", py!"total")]] = .ok st ∧ st.cur.isSome := ⟨_, rfl, rfl⟩
  exact c145_alias onlineWorld .init h.1 (fun hn => by simp [hn] at h) (k := py!"name") (by decide +kernel) (.inr rfl) (by decide +kernel)

example : convertLine (F := ToyFloat) (fun _ _ => .error .other) [py!"case", py!"id", py!"Activity"] [py!"1", py!"2", py!"a", py!"b"] = .error .keyError :=
  c145_row (more := [py!"b"]) (cells := [py!"1", py!"2", py!"a"]) (by decide) rfl rfl (by decide)

/-! ## C146: how saved files begin -/

/-- The first lines of every XES file. -/
def xesHead : Str := py!"<?xml version=\"1.0\" ?>
<!--This file has been generated with the OpenXES library. It conforms-->
<!--to the XML serialization of the XES standard for log storage and-->
<!--management.-->
<!--XES standard version: 1.0-->
<!--OpenXES library version: 1.0RC7-->
<!--OpenXES is available from http://www.openxes.org/-->
<log xes.version=\"1.0\" xes.features=\"nested-attributes\" openxes.version=\"1.0RC7\""

/-- The first lines of every MXML file. -/
def mxmlHead : Str := py!"<?xml version=\"1.0\" ?>
<!--This file has been generated with the OpenXES library. It conforms-->
<!--to the legacy MXML standard for log storage and management.-->
<!--OpenXES library version: 1.0RC7-->
<!--OpenXES is available from http://www.xes-standard.org/-->
<WorkflowLog>
	<Source program=\"XES MXML serialization\" openxes.version=\"1.0RC7\"/>
	<Process id=\""

theorem saveTree_pretty (modern : Bool) {cs : List Str} {x : MNode} (hx : Tidy (fun _ => True) x) {text : Str}
    (h : saveTree modern cs x = .ok text) : text = prettyDoc modern cs (dom x) := by
  obtain ⟨d, h1, h2⟩ := bind_ok.1 h
  cases h2
  by_cases hl : LegalNode x
  · rw [(parseDom_et hx).1 hl] at h1
    cases h1
    rfl
  · rw [(parseDom_et hx).2 hl] at h1
    cases h1

/-- An element without text, as written. -/
theorem pretty_elem (modern : Bool) (n : Nat) {t : Str} {as : List (Str × Str)} {ks : List MNode}
    (hk : TidyAll (fun _ => True) ks) :
    pretty modern n (dom (.elem t as ks)) = tabs n ++ '<' :: (t ++ attrsText (domText modern true) as ++
      (if ks.isEmpty then py!"/>\n" else ['>', '\n'] ++ prettyAll modern (n + 1) (domAll ks) ++ tabs n ++ ['<', '/'] ++ t ++ ['>', '\n'])) := by
  have h1 := onlyText_tidy hk
  have h2 : onlyText (domAll ks) = none := by
    match ks, hk with
    | [], _ => rfl
    | [.elem .., .text _], hk => simp [TidyAll, Tidy] at hk
    | .text _ :: _, hk => simp [TidyAll, Tidy] at hk
    | .elem t' as' ks' :: r, _ => simp only [domAll, dom, onlyText]
  have h3 : (domAll ks).isEmpty = ks.isEmpty := by cases ks <;> simp [domAll]
  simp only [dom, h1, pretty, h2, h3]

/-- C146: whatever the log, a saved XES file begins with the declaration, the six comments and the root element with its three
attributes, and ends with the end of that element. -/
theorem c146_xes {modern : Bool} {L : Log F} {text : Str} (h : saveXes modern L = .ok text) :
    ∃ rest, text = xesHead ++ rest ∧ (rest = py!"/>\n" ∨ ∃ body, rest = py!">\n" ++ body ++ py!"</log>\n") := by
  obtain ⟨x, h1, h2⟩ := bind_ok.1 h
  have ht := serializeXes_tidy h1
  have h3 := saveTree_pretty modern (xml_tidy ht) h2
  simp only [serializeXes] at h1
  obtain ⟨gt, _, h1⟩ := bind_ok.1 h1
  obtain ⟨ge, _, h1⟩ := bind_ok.1 h1
  obtain ⟨as, _, h1⟩ := bind_ok.1 h1
  obtain ⟨ts, _, h1⟩ := bind_ok.1 h1
  simp only [Except.ok.injEq] at h1
  subst h1
  subst h3
  generalize L.extensions.map extXml ++ gt ++ ge ++ L.classifiers.map classifierXml ++ as ++ ts = ks at ht
  have hk : TidyAll (fun _ => True) (nodeList ks) := xmls_tidy (by simp only [XmlTidy] at ht; exact ht.2.2.2)
  have hh : py!"<?xml version=\"1.0\" ?>\n" ++ commentsText xesComments ++ (tabs 0 ++ '<' :: (py!"log" ++ attrsText (domText modern true) versionAttrs)) =
      xesHead := by cases modern <;> decide +kernel
  have hp := pretty_elem modern 0 (as := versionAttrs) (t := py!"log") hk
  refine ⟨if (nodeList ks).isEmpty = true then py!"/>\n"
    else ['>', '\n'] ++ prettyAll modern (0 + 1) (domAll (nodeList ks)) ++ tabs 0 ++ ['<', '/'] ++ py!"log" ++ ['>', '\n'], ?_, ?_⟩
  · simp only [prettyDoc, Xml.node]
    rw [hp, ← hh]
    simp only [List.append_assoc, List.cons_append]
  · cases ks with
    | nil => exact .inl (by simp [nodeList])
    | cons k ks =>
      refine .inr ⟨prettyAll modern 1 (domAll (nodeList (k :: ks))), ?_⟩
      simp [nodeList, tabs]

/-- C146: ... and a saved MXML file with the declaration, four comments, the root element, the source and the one process. -/
theorem c146_mxml {modern : Bool} {L : Log F} {text : Str} (h : saveMxml modern L = .ok text) :
    ∃ body, text = mxmlHead ++ body ++ py!"\t</Process>\n</WorkflowLog>\n" := by
  obtain ⟨x, h1, h2⟩ := bind_ok.1 h
  have ht := (serializeMxml_fine h1).1
  have h3 := saveTree_pretty modern ht h2
  obtain ⟨id, _, h1⟩ := bind_ok.1 h1
  obtain ⟨r, _, h1⟩ := bind_ok.1 h1
  obtain ⟨d, hd, h1⟩ := bind_ok.1 h1
  obtain ⟨is, his, h1⟩ := bind_ok.1 h1
  simp only [Except.ok.injEq] at h1
  subst h1
  subst h3
  have hk : TidyAll (fun _ => True) (d :: is) := ⟨(dataXml_fine hd).1, (instancesXml_fine his).1⟩
  have hr : ∃ a b, [.elem py!"Source" [(py!"program", py!"XES MXML serialization"), (py!"openxes.version", py!"1.0RC7")] [],
      .elem py!"Process" ([(py!"id", id.getD py!"none"), (py!"description", py!"process with id " ++ id.getD py!"None")] ++ r) (d :: is)] = [a, b] ∧
      TidyAll (fun _ => True) [a, b] := by
    refine ⟨_, _, rfl, ?_⟩
    simp only [Tidy] at ht
    rcases ht.2.2.2 with ⟨s, hs, _⟩ | ht
    · simp at hs
    · exact ht
  obtain ⟨a, b, hab, hr⟩ := hr
  have hp := pretty_elem modern 0 (as := []) (t := py!"WorkflowLog") hr
  simp only [List.cons.injEq, and_true] at hab
  obtain ⟨rfl, rfl⟩ := hab
  have hs := pretty_elem modern 1 (as := [(py!"program", py!"XES MXML serialization"), (py!"openxes.version", py!"1.0RC7")]) (t := py!"Source") (ks := []) trivial
  have hq := pretty_elem modern 1 (as := [(py!"id", id.getD py!"none"), (py!"description", py!"process with id " ++ id.getD py!"None")] ++ r)
    (t := py!"Process") hk
  have hh : py!"<?xml version=\"1.0\" ?>\n" ++ commentsText mxmlComments ++ (tabs 0 ++ '<' :: (py!"WorkflowLog" ++ [] ++ ['>', '\n'] ++
      (tabs 1 ++ '<' :: (py!"Source" ++ attrsText (domText modern true) [(py!"program", py!"XES MXML serialization"), (py!"openxes.version", py!"1.0RC7")] ++ py!"/>\n")) ++
      (tabs 1 ++ '<' :: py!"Process id=\""))) = mxmlHead := by cases modern <;> decide +kernel
  refine ⟨domText modern true (id.getD py!"none") ++ ['"'] ++
    attrsText (domText modern true) ((py!"description", py!"process with id " ++ id.getD py!"None") :: r) ++ py!">\n" ++
    prettyAll modern 2 (domAll (d :: is)), ?_⟩
  rw [← hh]
  simp only [prettyDoc]
  rw [hp]
  simp only [domAll, prettyAll] at hq ⊢
  rw [hs, hq]
  simp [attrsText, tabs]

/-- Both kinds of file exist. -/
example : ∃ (text : Str), saveXes false (noteLog py!"a") = .ok text ∧ ∃ rest, text = xesHead ++ rest := by
  obtain ⟨text, h⟩ : ∃ text, saveXes false (noteLog py!"a") = .ok text := by
    cases h : saveXes false (noteLog py!"a") with
    | ok t => exact ⟨t, rfl⟩
    | error e =>
      have : (saveXes false (noteLog py!"a")).isOk = true := by decide +kernel
      rw [h] at this
      cases this
  obtain ⟨rest, h1, _⟩ := c146_xes h
  exact ⟨text, h, rest, h1⟩

example : ∃ (text : Str), saveMxml false mxLog = .ok text ∧ ∃ body, text = mxmlHead ++ body ++ py!"\t</Process>\n</WorkflowLog>\n" := by
  obtain ⟨text, h⟩ : ∃ text, saveMxml false mxLog = .ok text := by
    cases h : saveMxml false mxLog with
    | ok t => exact ⟨t, rfl⟩
    | error e =>
      have : (saveMxml false mxLog).isOk = true := by decide +kernel
      rw [h] at this
      cases this
  exact ⟨text, h, c146_mxml h⟩

end

end Opy

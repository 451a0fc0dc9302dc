import Verif.Model.Xes
import Verif.Model.Mxml
/-
The text of the XML files: data_out/XesXmlSerializer.py:83-100, data_out/XMxmlSerializer.py:121-133 and
data_in/XesXmlParser.py:48, data_in/XMxmlParser.py:56.

The texts are written by `xml.etree.ElementTree.tostring` and `minidom.Document.toprettyxml` and read by expat
(`minidom.parseString`, `xml.sax.parse`); these are library functions of CPython (3.9 and later), modelled here as
far as the written files use them.

Simplifications of the reader: no document type or external entity (these are errors here); a processing
instruction is skipped up to `?>` without looking inside; names may use all characters above
ASCII; `]]>` in the text of an element (not allowed by XML) is text here.  Texts are sequences of characters: for encodings and gzip see
Model/Bytes.lean.
-/
namespace Opy

/-! ## Escapes -/

/-- `_escape_attrib` of ElementTree: the value of an attribute. -/
def etAttrText (s : Str) : Str :=
  let s := replaceAll ['&'] py!"&amp;" s
  let s := replaceAll ['<'] py!"&lt;" s
  let s := replaceAll ['>'] py!"&gt;" s
  let s := replaceAll ['"'] py!"&quot;" s
  let s := replaceAll ['\r'] py!"&#13;" s
  let s := replaceAll ['\n'] py!"&#10;" s
  replaceAll ['\t'] py!"&#09;" s

/-- `_escape_cdata` of ElementTree: the text of an element. -/
def etContentText (s : Str) : Str :=
  let s := replaceAll ['&'] py!"&amp;" s
  let s := replaceAll ['<'] py!"&lt;" s
  replaceAll ['>'] py!"&gt;" s

/-- `_write_data` of minidom; `modern`: Python 3.13 and later, `attr`: the value of an attribute. -/
def domText (modern attr : Bool) (s : Str) : Str :=
  if modern then
    let s := replaceAll ['&'] py!"&amp;" s
    let s := replaceAll ['<'] py!"&lt;" s
    let s := replaceAll ['>'] py!"&gt;" s
    if attr then
      let s := replaceAll ['"'] py!"&quot;" s
      let s := replaceAll ['\r'] py!"&#13;" s
      let s := replaceAll ['\n'] py!"&#10;" s
      replaceAll ['\t'] py!"&#9;" s
    else s
  else
    let s := replaceAll ['&'] py!"&amp;" s
    let s := replaceAll ['<'] py!"&lt;" s
    let s := replaceAll ['"'] py!"&quot;" s
    replaceAll ['>'] py!"&gt;" s

/-! ## Writing -/

/-- The attributes of a start tag, with the escape of the writer. -/
def attrsText (esc : Str → Str) : List (Str × Str) → Str
  | [] => []
  | (a, v) :: as => ' ' :: (a ++ ['=', '"'] ++ esc v ++ ['"'] ++ attrsText esc as)

/-- The only child, if it is a text: the test in `Element.writexml` of minidom. -/
def onlyText : List MNode → Option Str
  | [.text s] => some s
  | _ => none

mutual
/-- `_serialize_xml` of ElementTree. -/
def etText : MNode → Str
  | .text s => etContentText s
  | .elem t as ks =>
    '<' :: (t ++ attrsText etAttrText as ++
      (if ks.isEmpty = true ∨ onlyText ks = some [] then py!" />" else '>' :: (etTexts ks ++ ['<', '/'] ++ t ++ ['>'])))
/-- The children. -/
def etTexts : List MNode → Str
  | [] => []
  | k :: ks => etText k ++ etTexts ks
end

/-- The indentation. -/
def tabs (n : Nat) : Str := List.replicate n '\t'

mutual
/-- `writexml` of minidom with the indentation `n` (`toprettyxml("\t")`). -/
def pretty (modern : Bool) (n : Nat) : MNode → Str
  | .text s => domText modern false (tabs n ++ s ++ ['\n'])
  | .elem t as ks =>
    tabs n ++ '<' :: (t ++ attrsText (domText modern true) as ++
      (if ks.isEmpty then py!"/>\n"
       else match onlyText ks with
        | some s => '>' :: (domText modern false s ++ ['<', '/'] ++ t ++ ['>', '\n'])
        | none => ['>', '\n'] ++ prettyAll modern (n + 1) ks ++ tabs n ++ ['<', '/'] ++ t ++ ['>', '\n']))
/-- The children. -/
def prettyAll (modern : Bool) (n : Nat) : List MNode → Str
  | [] => []
  | k :: ks => pretty modern n k ++ prettyAll modern n ks
end

/-- The comments at the top of the file, each on its line. -/
def commentsText : List Str → Str
  | [] => []
  | c :: cs => py!"<!--" ++ c ++ py!"-->\n" ++ commentsText cs

/-- `toprettyxml("\t")` of a document with comments before its element. -/
def prettyDoc (modern : Bool) (comments : List Str) (x : MNode) : Str :=
  py!"<?xml version=\"1.0\" ?>\n" ++ commentsText comments ++ pretty modern 0 x

/-! ## Reading -/

/-- The characters of XML 1.0. -/
def isXmlChar (c : Char) : Bool :=
  c = '\t' || c = '\n' || c = '\r' || (32 ≤ c.toNat && c.toNat ≤ 0xD7FF) || (0xE000 ≤ c.toNat && c.toNat ≤ 0xFFFD) ||
    0x10000 ≤ c.toNat

/-- Line ends: XML 1.0, 2.11. -/
def normEol : Str → Str
  | [] => []
  | '\r' :: '\n' :: s => '\n' :: normEol s
  | '\r' :: s => '\n' :: normEol s
  | c :: s => c :: normEol s

/-- White space between the parts of a tag (after the line ends are normalised). -/
def isXmlSpace (c : Char) : Bool := c = ' ' || c = '\t' || c = '\n'

/-- First character of a name. -/
def isNameStart (c : Char) : Bool := c.isAlpha || c = '_' || c = ':' || (128 ≤ c.toNat && isXmlChar c)

/-- Character of a name. -/
def isNameChar (c : Char) : Bool := isNameStart c || c.isDigit || c = '-' || c = '.'

/-- Value of a hexadecimal digit. -/
def hexDigit? (c : Char) : Option Nat :=
  if 48 ≤ c.toNat ∧ c.toNat ≤ 57 then some (c.toNat - 48)
  else if 97 ≤ c.toNat ∧ c.toNat ≤ 102 then some (c.toNat - 87)
  else if 65 ≤ c.toNat ∧ c.toNat ≤ 70 then some (c.toNat - 55)
  else none

/-- The number written by digits of a base. -/
def numeral? (digit : Char → Option Nat) (base : Nat) : Nat → Str → Option Nat
  | acc, [] => some acc
  | acc, c :: cs => match digit c with
    | some d => numeral? digit base (base * acc + d) cs
    | none => none

/-- The character with a code point, if XML allows it. -/
def charRef (n : Option Nat) : Option Char :=
  match n with
  | some n => if n < 0x110000 ∧ isXmlChar (Char.ofNat n) = true ∧ (Char.ofNat n).toNat = n then some (Char.ofNat n) else none
  | none => none

/-- The character of a reference (the text between `&` and `;`): XML 1.0, 4.1 and 4.6. -/
def resolveRef : Str → Option Char
  | ['a', 'm', 'p'] => some '&'
  | ['l', 't'] => some '<'
  | ['g', 't'] => some '>'
  | ['q', 'u', 'o', 't'] => some '"'
  | ['a', 'p', 'o', 's'] => some '\''
  | '#' :: 'x' :: c :: cs => charRef (numeral? hexDigit? 16 0 (c :: cs))
  | '#' :: c :: cs => charRef (numeral? asciiDigit? 10 0 (c :: cs))
  | _ => none

/-- Where in the text the reader is. -/
inductive Lx where
  /-- between tags -/
  | text
  /-- inside a reference in the content -/
  | ref (r : Str)
  /-- after `<` -/
  | lt
  /-- in the name of a start tag -/
  | name (n : Str)
  /-- in a start tag after its name or an attribute; `gap`: white space was seen -/
  | inTag (n : Str) (as : List (Str × Str)) (gap : Bool)
  /-- in the name of an attribute -/
  | aname (n : Str) (as : List (Str × Str)) (a : Str)
  /-- before `=` -/
  | aeq (n : Str) (as : List (Str × Str)) (a : Str)
  /-- before the quote -/
  | aquote (n : Str) (as : List (Str × Str)) (a : Str)
  /-- in the value -/
  | aval (n : Str) (as : List (Str × Str)) (a : Str) (q : Char) (v : Str)
  /-- in a reference in the value -/
  | aref (n : Str) (as : List (Str × Str)) (a : Str) (q : Char) (v r : Str)
  /-- after the slash of an empty element -/
  | slash (n : Str) (as : List (Str × Str))
  /-- in the name of an end tag -/
  | stop (n : Str)
  /-- after the name of an end tag -/
  | stopGap (n : Str)
  /-- after `<!` -/
  | bang
  /-- after `<!-` -/
  | bang1
  /-- in a comment -/
  | comment
  /-- in a comment after `-` -/
  | comment1
  /-- in a comment after `--` -/
  | comment2
  /-- in a processing instruction or the declaration -/
  | pi
  /-- the same after `?` -/
  | pi1
  /-- after `<![` and a part of `CDATA[`; `r`: what is still missing -/
  | cdOpen (r : Str)
  /-- in a CDATA section -/
  | cdata
  /-- the same after `]` -/
  | cdata1
  /-- the same after `]]` -/
  | cdata2
  deriving DecidableEq

/-- The reader: position, open elements (innermost first), whether the document element was begun. -/
structure RdSt where
  lex : Lx
  stack : List Str
  seen : Bool
  deriving DecidableEq

/-- Not well-formed: `ExpatError` of minidom, `SAXParseException` of xml.sax. -/
def malformed {α : Type} : Except PyErr α := .error .other

/-- A character inside a start tag that does not belong to an attribute. -/
def tagChar (st : RdSt) (n : Str) (as : List (Str × Str)) (gap : Bool) (c : Char) : Except PyErr (RdSt × List MSax) :=
  if isXmlSpace c then .ok ({ st with lex := .inTag n as true }, [])
  else if c = '>' then .ok (⟨.text, n :: st.stack, true⟩, [.start n as])
  else if c = '/' then .ok ({ st with lex := .slash n as }, [])
  else if gap = true ∧ isNameStart c = true then .ok ({ st with lex := .aname n as [c] }, [])
  else malformed

/-- A character after the name of an end tag. -/
def stopChar (st : RdSt) (n : Str) (c : Char) : Except PyErr (RdSt × List MSax) :=
  if isXmlSpace c then .ok ({ st with lex := .stopGap n }, [])
  else if c = '>' then
    match st.stack with
    | [] => malformed
    | t :: stack => if t = n then .ok (⟨.text, stack, true⟩, [.stop n]) else malformed
  else malformed

/-- One character of the text: the new position and what is reported. -/
def rdStep (st : RdSt) (c : Char) : Except PyErr (RdSt × List MSax) :=
  match st.lex with
  | .text =>
    if c = '<' then .ok ({ st with lex := .lt }, [])
    else match st.stack with
      | [] => if isXmlSpace c then .ok (st, []) else malformed
      | _ :: _ => if c = '&' then .ok ({ st with lex := .ref [] }, []) else .ok (st, [.chars [c]])
  | .ref r =>
    if c = ';' then
      match resolveRef r with
      | some d => .ok ({ st with lex := .text }, [.chars [d]])
      | none => malformed
    else .ok ({ st with lex := .ref (r ++ [c]) }, [])
  | .lt =>
    if c = '/' then .ok ({ st with lex := .stop [] }, [])
    else if c = '!' then .ok ({ st with lex := .bang }, [])
    else if c = '?' then .ok ({ st with lex := .pi }, [])
    else if isNameStart c = true ∧ (st.stack ≠ [] ∨ st.seen = false) then .ok ({ st with lex := .name [c] }, [])
    else malformed
  | .name n => if isNameChar c then .ok ({ st with lex := .name (n ++ [c]) }, []) else tagChar st n [] false c
  | .inTag n as gap => tagChar st n as gap c
  | .aname n as a =>
    if isNameChar c then .ok ({ st with lex := .aname n as (a ++ [c]) }, [])
    else if c = '=' then .ok ({ st with lex := .aquote n as a }, [])
    else if isXmlSpace c then .ok ({ st with lex := .aeq n as a }, [])
    else malformed
  | .aeq n as a =>
    if c = '=' then .ok ({ st with lex := .aquote n as a }, [])
    else if isXmlSpace c then .ok (st, [])
    else malformed
  | .aquote n as a =>
    if c = '"' ∨ c = '\'' then .ok ({ st with lex := .aval n as a c [] }, [])
    else if isXmlSpace c then .ok (st, [])
    else malformed
  | .aval n as a q v =>
    if c = q then
      if a ∈ dkeys as then malformed else .ok ({ st with lex := .inTag n (as ++ [(a, v)]) false }, [])
    else if c = '<' then malformed
    else if c = '&' then .ok ({ st with lex := .aref n as a q v [] }, [])
    else .ok ({ st with lex := .aval n as a q (v ++ [if isXmlSpace c then ' ' else c]) }, [])
  | .aref n as a q v r =>
    if c = ';' then
      match resolveRef r with
      | some d => .ok ({ st with lex := .aval n as a q (v ++ [d]) }, [])
      | none => malformed
    else .ok ({ st with lex := .aref n as a q v (r ++ [c]) }, [])
  | .slash n as => if c = '>' then .ok (⟨.text, st.stack, true⟩, [.start n as, .stop n]) else malformed
  | .stop n => if isNameChar c then .ok ({ st with lex := .stop (n ++ [c]) }, []) else stopChar st n c
  | .stopGap n => stopChar st n c
  | .bang =>
    if c = '-' then .ok ({ st with lex := .bang1 }, [])
    else if c = '[' ∧ st.stack ≠ [] then .ok ({ st with lex := .cdOpen py!"CDATA[" }, [])
    else malformed
  | .bang1 => if c = '-' then .ok ({ st with lex := .comment }, []) else malformed
  | .comment => .ok (if c = '-' then { st with lex := .comment1 } else st, [])
  | .comment1 => .ok ({ st with lex := if c = '-' then .comment2 else .comment }, [])
  | .comment2 => if c = '>' then .ok ({ st with lex := .text }, []) else malformed
  | .pi => .ok (if c = '?' then { st with lex := .pi1 } else st, [])
  | .pi1 => .ok (if c = '>' then { st with lex := .text } else if c = '?' then st else { st with lex := .pi }, [])
  | .cdOpen r => match r with
    | [] => malformed
    | d :: r => if c = d then .ok ({ st with lex := if r = [] then .cdata else .cdOpen r }, []) else malformed
  | .cdata => if c = ']' then .ok ({ st with lex := .cdata1 }, []) else .ok (st, [.chars [c]])
  | .cdata1 =>
    if c = ']' then .ok ({ st with lex := .cdata2 }, []) else .ok ({ st with lex := .cdata }, [.chars [']'], .chars [c]])
  | .cdata2 =>
    if c = '>' then .ok ({ st with lex := .text }, [])
    else if c = ']' then .ok (st, [.chars [']']])
    else .ok ({ st with lex := .cdata }, [.chars [']'], .chars [']'], .chars [c]])

/-- All characters. -/
def rdRun (st : RdSt) : Str → Except PyErr (RdSt × List MSax)
  | [] => .ok (st, [])
  | c :: cs => do
    let (st, e) ← rdStep st c
    let (st, e') ← rdRun st cs
    .ok (st, e ++ e')

/-! ### The XML declaration -/

/-- White space in the declaration: `isSpace` of expat. -/
def declSpace (c : Char) : Bool := c = ' ' || c = '\t' || c = '\n' || c = '\r'

/-- A character of a value in the declaration. -/
def declChar (c : Char) : Bool := c.isAlpha || c.isDigit || c = '.' || c = '-' || c = '_'

/-- One part `name = "value"` of the declaration with what follows, `none` within if there is no more (`parsePseudoAttribute` of expat). -/
def declPart (s : Str) : Option (Option (Str × Str × Str)) :=
  match s with
  | [] => some none
  | c :: _ =>
    if declSpace c = false then none
    else match s.dropWhile declSpace with
      | [] => some none
      | d :: t =>
        if d = '=' then none
        else match ((d :: t).dropWhile fun c => ! (c = '=' || declSpace c)).dropWhile declSpace with
        | '=' :: u =>
          match u.dropWhile declSpace with
          | q :: v =>
            if q = '"' ∨ q = '\'' then
              match v.dropWhile fun c => c != q with
              | _ :: rest =>
                if (v.takeWhile fun c => c != q).all declChar then
                  some (some ((d :: t).takeWhile fun c => ! (c = '=' || declSpace c), v.takeWhile fun c => c != q, rest))
                else none
              | [] => none
            else none
          | [] => none
        | _ => none

/-- The last part of the declaration. -/
def standaloneOk (name value rest : Str) : Bool :=
  name = py!"standalone" && (value = py!"yes" || value = py!"no") && rest.all declSpace

/-- The encoding that a declaration (between `<?xml` and `?>`) names, if it names one (`doParseXmlDecl` of expat). -/
def declared (s : Str) : Option (Option Str) :=
  match declPart s with
  | some (some (n, _, s)) =>
    if n = py!"version" then
      match declPart s with
      | none => none
      | some none => some none
      | some (some (n, v, s)) =>
        if n = py!"encoding" then
          match v with
          | [] => none
          | c :: _ =>
            if c.isAlpha then
              match declPart s with
              | none => none
              | some none => some (some v)
              | some (some (n, y, s)) => if standaloneOk n y s then some (some v) else none
            else none
        else if standaloneOk n v s then some none else none
    else none
  | _ => none

/-- The text up to `?>`. -/
def upToPi : Str → Option Str
  | [] => none
  | c :: s => if c = '?' ∧ s.head? = some '>' then some [] else (upToPi s).map (c :: ·)

/-- What stands between `<?xml` and `?>` at the start of a document, if it begins so. -/
def declOf (s : Str) : Option Str :=
  match s with
  | '<' :: '?' :: 'x' :: 'm' :: 'l' :: c :: r => if declSpace c ∨ c = '?' then upToPi (c :: r) else none
  | _ => none

/-- A declaration at the start is as it should be. -/
def declOk (s : Str) : Bool :=
  match declOf s with
  | none => true
  | some d => (declared d).isSome

/-- Reading a text: the reported events, or an error.  The encoding that the declaration names does not matter for a text (`XML_SetEncoding`
in pyexpat). -/
def readXml (s : Str) : Except PyErr (List MSax) :=
  if s.all isXmlChar ∧ declOk (normEol s) then do
    let (st, e) ← rdRun ⟨.text, [], false⟩ (normEol s)
    if st.lex = .text ∧ st.stack = [] ∧ st.seen = true then .ok e else malformed
  else malformed

/-! ## The document object -/

/-- A text that follows other children joins a text before it (minidom builder); children are kept in reverse. -/
def domChars (s : Str) : List MNode → List MNode
  | .text t :: ks => .text (t ++ s) :: ks
  | ks => .text s :: ks

/-- One event for the builder: the open elements with their children in reverse, and the document element. -/
def domStep (st : List (Str × List (Str × Str) × List MNode) × Option MNode) :
    MSax → Except PyErr (List (Str × List (Str × Str) × List MNode) × Option MNode)
  | .start t as => .ok ((t, as, []) :: st.1, st.2)
  | .chars s => match st.1 with
    | (t, as, ks) :: r => .ok ((t, as, domChars s ks) :: r, st.2)
    | [] => .ok st
  | .stop _ => match st.1 with
    | (t, as, ks) :: (t', as', ks') :: r => .ok ((t', as', .elem t as ks.reverse :: ks') :: r, st.2)
    | [(t, as, ks)] => .ok ([], some (.elem t as ks.reverse))
    | [] => malformed

/-- All events. -/
def domRun (st : List (Str × List (Str × Str) × List MNode) × Option MNode) :
    List MSax → Except PyErr (List (Str × List (Str × Str) × List MNode) × Option MNode)
  | [] => .ok st
  | e :: es => do domRun (← domStep st e) es

/-- `minidom.parseString(text)`. -/
def parseDom (s : Str) : Except PyErr MNode := do
  let es ← readXml s
  match ← domRun ([], none) es with
  | (_, some x) => .ok x
  | (_, none) => malformed

/-! ## Saving and loading -/

/-- The text that is written for an element tree: data_out/XesXmlSerializer.py:83-100 and
data_out/XMxmlSerializer.py:121-133. -/
def saveTree (modern : Bool) (comments : List Str) (x : MNode) : Except PyErr Str := do
  let d ← parseDom (etText x)
  .ok (prettyDoc modern comments d)

mutual
/-- An XES element as an element with texts. -/
def Xml.node : Xml → MNode
  | .elem t as ks => .elem t as (nodeList ks)
/-- The same for a list. -/
def nodeList : List Xml → List MNode
  | [] => []
  | x :: xs => x.node :: nodeList xs
end

/-- The comments of data_out/XesXmlSerializer.py:84-95. -/
def xesComments : List Str :=
  [py!"This file has been generated with the OpenXES library. It conforms",
   py!"to the XML serialization of the XES standard for log storage and",
   py!"management.",
   py!"XES standard version: 1.0",
   py!"OpenXES library version: 1.0RC7",
   py!"OpenXES is available from http://www.openxes.org/"]

/-- The comments of data_out/XMxmlSerializer.py:122-129. -/
def mxmlComments : List Str :=
  [py!"This file has been generated with the OpenXES library. It conforms",
   py!"to the legacy MXML standard for log storage and management.",
   py!"OpenXES library version: 1.0RC7",
   py!"OpenXES is available from http://www.xes-standard.org/"]

section
variable {F : Type} [PyFloat F]

/-- `XesXmlSerializer().serialize(log, out)`: the text written, data_out/XesXmlSerializer.py:40-100. -/
def saveXes (modern : Bool) (log : Log F) : Except PyErr Str := do
  let x ← serializeXes log
  saveTree modern xesComments x.node

/-- The events that the XES handler looks at; it has no `characters` (data_in/XesXmlParser.py:53). -/
def xesEvents : List MSax → List Sax
  | [] => []
  | .start t as :: es => .start t as :: xesEvents es
  | .stop t :: es => .stop t :: xesEvents es
  | .chars _ :: es => xesEvents es

/-- `XesXmlParser(factory).parse(file)` on the text of the file: data_in/XesXmlParser.py:36-50.  An exception of
the handler or of the reader ends it; both are one error here. -/
def loadXes (given : Option (Factory F)) (reg : Factory F) (mgr : ExtMgr) (h : Heap F) (text : Str) :
    Except PyErr (Option Ref × Heap F) := do
  let es ← readXml text
  xesParse given reg mgr h (xesEvents es)

/-- `XMxmlSerializer().serialize(log, out)`: the text written, data_out/XMxmlSerializer.py:38-133. -/
def saveMxml (modern : Bool) (log : Log F) : Except PyErr Str := do
  let x ← serializeMxml log
  saveTree modern mxmlComments x

/-- `XMxmlParser().parse(file)` on the text of the file: data_in/XMxmlParser.py:42-58. -/
def loadMxml (rnd : Nat → Uuid) (text : Str) : Except PyErr (List (Log F)) := do
  let es ← readXml text
  mxmlParse rnd es

end

end Opy

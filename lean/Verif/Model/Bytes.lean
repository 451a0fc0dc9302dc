import Verif.Model.XmlText
/-
The bytes of the files: what `open(path, "w")`, `open(path)` and `gzip.open` add to the texts of Model/XmlText.lean.

data_out/XesXmlSerializer.py:97-100 and data_out/XMxmlSerializer.py:130-133 write the text to a text stream, or its
UTF-8 encoding to a binary stream; data_out/XesXmlGZIPSerializer.py:9-22 and data_out/XMxmlGZIPSerializer.py:11-24
reopen the path as a gzip file.  data_in/XesXmlParser.py:48 and data_in/XMxmlParser.py:56 hand the stream to
`xml.sax.parse`, which takes the characters of a text stream as they are and decodes a binary stream itself;
data_in/XesXmlGZIPParser.py:35-38 and data_in/XMxmlGZIPParser.py:34-37 reopen the path as a gzip file.

Bytes are numbers (below 256).  Simplifications: encodings are stateless and without a byte order mark of their own;
the error handler is `strict`; a surrogate of UTF-16 without its partner is an error in a binary document (expat takes
any two units for a pair if the first is a high surrogate); the compression is any pair of functions (`Gzip`).
-/
namespace Opy

/-! ## UTF-8 -/

/-- The UTF-8 form of a character: RFC 3629, 3. -/
def utf8Char (c : Char) : List Nat :=
  if c.toNat < 0x80 then [c.toNat]
  else if c.toNat < 0x800 then [0xC0 + c.toNat / 64, 0x80 + c.toNat % 64]
  else if c.toNat < 0x10000 then [0xE0 + c.toNat / 4096, 0x80 + c.toNat / 64 % 64, 0x80 + c.toNat % 64]
  else [0xF0 + c.toNat / 262144, 0x80 + c.toNat / 4096 % 64, 0x80 + c.toNat / 64 % 64, 0x80 + c.toNat % 64]

/-- `text.encode()`. -/
def utf8 : Str → List Nat
  | [] => []
  | c :: s => utf8Char c ++ utf8 s

/-- Decoding with `more` bytes of the current character to come, the bits `acc` read so far and the least code point
`low` that needs so many bytes. -/
def utf8Run : Nat → Nat → Nat → List Nat → Option Str
  | 0, _, _, [] => some []
  | _ + 1, _, _, [] => none
  | 0, _, _, b :: bs =>
    if b < 0x80 then (utf8Run 0 0 0 bs).map (Char.ofNat b :: ·)
    else if b < 0xC0 then none
    else if b < 0xE0 then utf8Run 1 (b - 0xC0) 0x80 bs
    else if b < 0xF0 then utf8Run 2 (b - 0xE0) 0x800 bs
    else if b < 0xF8 then utf8Run 3 (b - 0xF0) 0x10000 bs
    else none
  | more + 1, acc, low, b :: bs =>
    if 0x80 ≤ b ∧ b < 0xC0 then
      if more = 0 then
        if low ≤ acc * 64 + (b - 0x80) ∧ (acc * 64 + (b - 0x80)).isValidChar then
          (utf8Run 0 0 0 bs).map (Char.ofNat (acc * 64 + (b - 0x80)) :: ·)
        else none
      else utf8Run more (acc * 64 + (b - 0x80)) low bs
    else none

/-- Strict decoding: no overlong forms, no surrogates, nothing above 0x10FFFF. -/
def utf8Decode (b : List Nat) : Option Str := utf8Run 0 0 0 b

/-! ## Text streams -/

/-- An encoding: `locale.getpreferredencoding()` or the argument of `open`. -/
structure Codec where
  enc : Char → Option (List Nat)
  dec : List Nat → Option Str

/-- The encoding of a text, if all characters have one. -/
def Codec.encode (c : Codec) : Str → Option (List Nat)
  | [] => some []
  | x :: s => match c.enc x, c.encode s with
    | some b, some bs => some (b ++ bs)
    | _, _ => none

/-- `utf-8`. -/
def utf8Codec : Codec := ⟨fun c => some (utf8Char c), utf8Decode⟩

/-- One byte for one character. -/
def decodeBytes (top : Nat) : List Nat → Option Str
  | [] => some []
  | b :: bs => if b < top then (decodeBytes top bs).map (Char.ofNat b :: ·) else none

/-- `latin-1`. -/
def latin1 : Codec := ⟨fun c => if c.toNat < 256 then some [c.toNat] else none, decodeBytes 256⟩

/-- `ascii`. -/
def ascii : Codec := ⟨fun c => if c.toNat < 128 then some [c.toNat] else none, decodeBytes 128⟩

/-- `out.write(text)` on a text stream; `crlf`: the line end of the platform is CR LF (`io.TextIOWrapper`, newline
`None`).  A character without encoding is a `UnicodeEncodeError`, which is a `ValueError`. -/
def writePlain (codec : Codec) (crlf : Bool) (text : Str) : Except PyErr (List Nat) :=
  match codec.encode (if crlf then replaceAll ['\n'] ['\r', '\n'] text else text) with
  | some b => .ok b
  | none => .error .valueError

/-- A byte order mark at the start is no character of the document (expat). -/
def skipBom : Str → Str
  | [] => []
  | c :: s => if c.toNat = 0xFEFF then s else c :: s

/-- The text that the XML reader gets from a text stream: decoded, all line ends as `\n` (`io.TextIOWrapper`, newline
`None`).  A `UnicodeDecodeError` is a `ValueError`. -/
def readPlain (codec : Codec) (bytes : List Nat) : Except PyErr Str :=
  match codec.dec bytes with
  | some s => .ok (skipBom (normEol s))
  | none => .error .valueError

/-! ## Compressed files -/

/-- The gzip module; `named`: the encodings of one byte for a character that expat gets from Python by their names
(`PyUnknownEncodingHandler` in pyexpat.c), or `LookupError`, or `ValueError` for other encodings. -/
structure Gzip where
  pack : List Nat → List Nat
  unpack : List Nat → Except PyErr (List Nat)
  named : Str → Except PyErr Codec

/-- The bytes of the file after `file.write(text.encode())` and closing. -/
def writeGz (z : Gzip) (text : Str) : List Nat := z.pack (utf8 text)

/-- The code units of UTF-16, the high byte first or last. -/
def units16 (big : Bool) : List Nat → Option (List Nat)
  | [] => some []
  | [_] => none
  | a :: b :: r => (units16 big r).map ((if big then a * 256 + b else b * 256 + a) :: ·)

/-- The characters of code units; `hi`: the high surrogate before. -/
def utf16Run : Option Nat → List Nat → Option Str
  | none, [] => some []
  | some _, [] => none
  | none, u :: us =>
    if u < 0xD800 ∨ 0xE000 ≤ u then (utf16Run none us).map (Char.ofNat u :: ·)
    else if u < 0xDC00 then utf16Run (some u) us
    else none
  | some h, u :: us =>
    if 0xDC00 ≤ u ∧ u < 0xE000 then (utf16Run none us).map (Char.ofNat (0x10000 + (h - 0xD800) * 1024 + (u - 0xDC00)) :: ·)
    else none

/-- Decoding UTF-16. -/
def utf16Decode (big : Bool) (b : List Nat) : Option Str := (units16 big b).bind (utf16Run none)

/-- The name of the encoding in the declaration of a document, if there is one. -/
def declaredIn (s : Str) : Option Str :=
  match declOf s with
  | some d => (declared d).getD none
  | none => none

/-- A text, or the error of expat. -/
def orMalformed : Option Str → Except PyErr Str
  | some s => .ok s
  | none => malformed

/-- A binary document of single bytes: it is in the encoding that it declares, or UTF-8 (`initScan` in xmltok_ns.c, `processXmlDecl` in
xmlparse.c of expat).  A declaration that is not well-formed is found by `readXml`. -/
def read8 (named : Str → Except PyErr Codec) (b : List Nat) : Except PyErr Str :=
  match declaredIn (b.map Char.ofNat) with
  | none => orMalformed (utf8Decode b)
  | some n =>
    if lower n = py!"utf-8" then orMalformed (utf8Decode b)
    else if lower n = py!"us-ascii" then orMalformed (ascii.dec b)
    else if lower n = py!"iso-8859-1" then orMalformed (latin1.dec b)
    else if lower n ∈ [py!"utf-16", py!"utf-16be", py!"utf-16le"] then malformed
    else match named n with
      | .ok c => orMalformed (c.dec b)
      | .error e => .error e

/-- A binary document in UTF-16.  An encoding of single bytes cannot read it on. -/
def read16 (named : Str → Except PyErr Codec) (big : Bool) (b : List Nat) : Except PyErr Str :=
  match utf16Decode big b with
  | none => malformed
  | some s =>
    match declaredIn s with
    | none => .ok s
    | some n =>
      if lower n = py!"utf-16" ∨ lower n = (if big then py!"utf-16be" else py!"utf-16le") then .ok s
      else if lower n ∈ [py!"utf-8", py!"us-ascii", py!"iso-8859-1", py!"utf-16be", py!"utf-16le"] then malformed
      else match named n with
        | .ok _ => malformed
        | .error e => .error e

/-- The text that the XML reader gets from a binary stream: the first bytes tell UTF-16 from encodings of single bytes (`initScan` of expat).
Decoding and reading are one after the other here. -/
def readBinary (named : Str → Except PyErr Codec) : List Nat → Except PyErr Str
  | a :: b :: r =>
    if a = 0xFE ∧ b = 0xFF then read16 named true r
    else if a = 0xFF ∧ b = 0xFE then read16 named false r
    else if a = 0xEF ∧ b = 0xBB ∧ r.head? = some 0xBF then read8 named r.tail
    else if a = 0 then read16 named true (a :: b :: r)
    else if b = 0 then read16 named false (a :: b :: r)
    else read8 named (a :: b :: r)
  | b => read8 named b

/-- The text that the XML reader gets from a compressed file. -/
def readGz (z : Gzip) (bytes : List Nat) : Except PyErr Str := do
  let b ← z.unpack bytes
  readBinary z.named b

section
variable {F : Type} [PyFloat F]

/-- `XesXmlSerializer().serialize(log, file)`: the bytes of the file, data_out/XesXmlSerializer.py:40-100. -/
def saveXesPlain (codec : Codec) (crlf modern : Bool) (log : Log F) : Except PyErr (List Nat) := do
  let text ← saveXes modern log
  writePlain codec crlf text

/-- `XesXmlParser(factory).parse(file)` on the bytes of the file: data_in/XesXmlParser.py:36-50. -/
def loadXesPlain (codec : Codec) (given : Option (Factory F)) (reg : Factory F) (mgr : ExtMgr) (h : Heap F) (bytes : List Nat) :
    Except PyErr (Option Ref × Heap F) := do
  let text ← readPlain codec bytes
  loadXes given reg mgr h text

/-- `XesXmlGZIPSerializer().serialize(log, file)`: data_out/XesXmlGZIPSerializer.py:9-22. -/
def saveXesGz (z : Gzip) (modern : Bool) (log : Log F) : Except PyErr (List Nat) := do
  let text ← saveXes modern log
  .ok (writeGz z text)

/-- `XesXmlGZIPParser().parse(file)`: data_in/XesXmlGZIPParser.py:25-38. -/
def loadXesGz (z : Gzip) (given : Option (Factory F)) (reg : Factory F) (mgr : ExtMgr) (h : Heap F) (bytes : List Nat) :
    Except PyErr (Option Ref × Heap F) := do
  let text ← readGz z bytes
  loadXes given reg mgr h text

/-- `XMxmlSerializer().serialize(log, file)`: data_out/XMxmlSerializer.py:38-133. -/
def saveMxmlPlain (codec : Codec) (crlf modern : Bool) (log : Log F) : Except PyErr (List Nat) := do
  let text ← saveMxml modern log
  writePlain codec crlf text

/-- `XMxmlParser().parse(file)`: data_in/XMxmlParser.py:42-58. -/
def loadMxmlPlain (codec : Codec) (rnd : Nat → Uuid) (bytes : List Nat) : Except PyErr (List (Log F)) := do
  let text ← readPlain codec bytes
  loadMxml rnd text

/-- `XMxmlGZIPSerializer().serialize(log, file)`: data_out/XMxmlGZIPSerializer.py:11-24. -/
def saveMxmlGz (z : Gzip) (modern : Bool) (log : Log F) : Except PyErr (List Nat) := do
  let text ← saveMxml modern log
  .ok (writeGz z text)

/-- `XMxmlGZIPParser().parse(file)`: data_in/XMxmlGZIPParser.py:24-37. -/
def loadMxmlGz (z : Gzip) (rnd : Nat → Uuid) (bytes : List Nat) : Except PyErr (List (Log F)) := do
  let text ← readGz z bytes
  loadMxml rnd text

end

end Opy

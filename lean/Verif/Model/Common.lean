import Verif.Model.Regex
import Verif.Model.EntityTable
/-
Model of /repo/commonmark/common.py and of `html.unescape`
(/repo/commonmark/entitytrans.py:2308-2353; identical to the standard library
function used on Python >= 3.4, common.py:11-20).
-/
namespace CM

/-! ### Patterns, common.py:22-47 -/

/-- `[a-z0-9]`-style hex digit under IGNORECASE (`[a-f0-9]`): no non-ASCII
character folds to a-f. -/
def isHexCI (c : Char) : Bool := isDig c || inRange 'a' 'f' c || inRange 'A' 'F' c

/-- ENTITY, common.py:22 (always compiled with IGNORECASE):
`&(?:#x[a-f0-9]{1,6}|#[0-9]{1,7}|[a-z][a-z0-9]{1,31});` -/
def reENTITY : Re :=
  .seqs [.lit1 '&',
    .alts [
      .seqs [.lit1 '#', .chr (ciEq 'x'), .between 1 6 (.chr isHexCI)],
      .seqs [.lit1 '#', .between 1 7 (.chr isDig)],
      .seqs [.chr isAlphaCI, .between 1 31 (.chr isAlnumCI)]],
    .lit1 ';']

/-- TAGNAME, common.py:24 (IGNORECASE). -/
def reTAGNAME : Re :=
  .seq (.chr isAlphaCI) (.star (.chr fun c => isAlnumCI c || c == '-'))

/-- ATTRIBUTENAME, common.py:25 (IGNORECASE). -/
def reATTRIBUTENAME : Re :=
  .seq (.chr fun c => isAlphaCI c || c == '_' || c == ':')
    (.star (.chr fun c => isAlnumCI c || c == ':' || c == '.' || c == '_' || c == '-'))

/-- UNQUOTEDVALUE, common.py:26: `[^"'=<>`\x00-\x20]+` -/
def reUNQUOTEDVALUE : Re :=
  .plus (.chr fun c => !(c == '"' || c == '\'' || c == '=' || c == '<' || c == '>' || c == '`' ||
    c.toNat ≤ 0x20))

/-- SINGLEQUOTEDVALUE, common.py:27. -/
def reSINGLEQUOTEDVALUE : Re := .seqs [.lit1 '\'', .star (.chr (· != '\'')), .lit1 '\'']

/-- DOUBLEQUOTEDVALUE, common.py:28. -/
def reDOUBLEQUOTEDVALUE : Re := .seqs [.lit1 '"', .star (.chr (· != '"')), .lit1 '"']

/-- ATTRIBUTEVALUE, common.py:29-30. -/
def reATTRIBUTEVALUE : Re := .alts [reUNQUOTEDVALUE, reSINGLEQUOTEDVALUE, reDOUBLEQUOTEDVALUE]

/-- `\s*`. -/
def reWs0 : Re := .star (.chr isPySpace)

/-- ATTRIBUTEVALUESPEC, common.py:31. -/
def reATTRIBUTEVALUESPEC : Re := .seqs [reWs0, .lit1 '=', reWs0, reATTRIBUTEVALUE]

/-- ATTRIBUTE, common.py:32. -/
def reATTRIBUTE : Re := .seqs [.plus (.chr isPySpace), reATTRIBUTENAME, .opt reATTRIBUTEVALUESPEC]

/-- OPENTAG, common.py:33. -/
def reOPENTAG : Re :=
  .seqs [.lit1 '<', reTAGNAME, .star reATTRIBUTE, reWs0, .opt (.lit1 '/'), .lit1 '>']

/-- CLOSETAG, common.py:34. -/
def reCLOSETAG : Re := .seqs [.word (lit "</"), reTAGNAME, reWs0, .lit1 '>']

/-- HTMLCOMMENT, common.py:35: `<!---->|<!--(?:-?[^>-])(?:-?[^-])*-->` -/
def reHTMLCOMMENT : Re :=
  .alt (.word (lit "<!---->"))
    (.seqs [.word (lit "<!--"),
      .seq (.opt (.lit1 '-')) (.chr fun c => !(c == '>' || c == '-')),
      .star (.seq (.opt (.lit1 '-')) (.chr (· != '-'))),
      .word (lit "-->")])

/-- PROCESSINGINSTRUCTION, common.py:36: `[<][?].*?[?][>]` -/
def rePROCESSINGINSTRUCTION : Re :=
  .seqs [.word (lit "<?"), .lazyStar (.chr isDot), .word (lit "?>")]

/-- DECLARATION, common.py:37: `<![A-Z]+\s+[^>]*>` (IGNORECASE) -/
def reDECLARATION : Re :=
  .seqs [.word (lit "<!"), .plus (.chr isAlphaCI), .plus (.chr isPySpace),
    .star (.chr (· != '>')), .lit1 '>']

/-- CDATA, common.py:38: `<!\[CDATA\[[\s\S]*?\]\]>` (IGNORECASE) -/
def reCDATA : Re :=
  .seqs [.ciWord (lit "<![CDATA["), .lazyStar (.chr fun _ => true), .word (lit "]]>")]

/-- `reHtmlTag`, common.py:39-41. -/
def reHtmlTag : Re :=
  .alts [reOPENTAG, reCLOSETAG, reHTMLCOMMENT, rePROCESSINGINSTRUCTION, reDECLARATION, reCDATA]

/-- ESCAPABLE, common.py:43: the 32 ASCII punctuation characters. -/
def isEscapable (c : Char) : Bool :=
  (lit "!\"#$%&'()*+,./:;<=>?@[\\]^_`{|}~-").contains c

/-- `reEntityOrEscapedChar`, common.py:44-45. -/
def reEntityOrEscapedChar : Re :=
  .alt (.seq (.lit1 '\\') (.chr isEscapable)) reENTITY

/-! ### html.unescape -/

/-- `int(s, base)` for a string of ASCII (hex) digits. -/
def digitVal (c : Char) : Nat :=
  if inRange '0' '9' c then c.toNat - '0'.toNat
  else if inRange 'a' 'f' c then c.toNat - 'a'.toNat + 10
  else if inRange 'A' 'F' c then c.toNat - 'A'.toNat + 10
  else 0

def intBase (base : Nat) (s : Str) : Nat := s.foldl (fun a c => a * base + digitVal c) 0

/-- `_html5.get(s)`. -/
def html5Get (s : Str) : Option Str :=
  (html5Tab.find? fun e => e.1 == String.ofList s).map fun e => e.2.map Char.ofNat

/-- `for x in range(len(s)-1, 1, -1): if s[:x] in _html5: ...`,
entitytrans.py:2331-2333. -/
def html5Prefix (s : Str) : Nat → Option Str
  | 0 => none
  | 1 => none
  | x + 2 =>
    match html5Get (s.take (x + 2)) with
    | some v => some (v ++ s.drop (x + 2))
    | none => html5Prefix s (x + 1)

/-- `_invalid_charrefs.get(num)`. -/
def invalidCharref (num : Nat) : Option Nat := (invalidCharrefs.find? fun e => e.1 == num).map (·.2)

/-- Numeric part of `_replace_charref`, entitytrans.py:2310-2325. -/
def numCharref (num : Nat) : Str :=
  match invalidCharref num with
  | some v => [Char.ofNat v]
  | none =>
    if (0xD800 ≤ num && num ≤ 0xDFFF) || num > 0x10FFFF then [Char.ofNat 0xFFFD]
    else if invalidCodepoints.contains num then []
    else [Char.ofNat num]

/-- `_replace_charref`, entitytrans.py:2308-2335; the argument is `group(1)`,
i.e. the match without its `&`. -/
def replaceCharref (s : Str) : Str :=
  match s with
  | '#' :: t =>
    match t with
    | x :: ds =>
      if x == 'x' || x == 'X' then numCharref (intBase 16 (rstripBy (· == ';') ds))
      else numCharref (intBase 10 (rstripBy (· == ';') t))
    | [] => []
  | _ =>
    match html5Get s with
    | some v => v
    | none =>
      match html5Prefix s (s.length - 1) with
      | some v => v
      | none => '&' :: s

/-- `_charref`, entitytrans.py:2338-2340. -/
def reCharref : Re :=
  .seq (.lit1 '&')
    (.alts [
      .seqs [.lit1 '#', .plus (.chr isDig), .opt (.lit1 ';')],
      .seqs [.lit1 '#', .chr (fun c => c == 'x' || c == 'X'), .plus (.chr isHexCI), .opt (.lit1 ';')],
      .seqs [.between 1 32 (.chr fun c => !(c == '\t' || c == '\n' || c.toNat == 12 || c == ' ' ||
          c == '<' || c == '&' || c == '#' || c == ';')), .opt (.lit1 ';')]])

/-- `html.unescape` / `_unescape`, entitytrans.py:2343-2353. -/
def htmlUnescape (s : Str) : Str :=
  if s.contains '&' then reCharref.sub (fun m => replaceCharref (m.drop 1)) s else s

/-! ### Functions of common.py -/

/-- `unescape_char`, common.py:50-54. -/
def unescapeChar (s : Str) : Str :=
  match s with
  | '\\' :: c :: _ => [c]
  | _ => htmlUnescape s

/-- `unescape_string`, common.py:57-65. -/
def unescapeString (s : Str) : Str :=
  if s.any (fun c => c == '\\' || c == '&') then reEntityOrEscapedChar.sub unescapeChar s else s

/-- UTF-8 bytes of one scalar value (`str.encode('utf-8')`). -/
def utf8 (c : Char) : List Nat :=
  let n := c.toNat
  if n < 0x80 then [n]
  else if n < 0x800 then [0xC0 + n / 64, 0x80 + n % 64]
  else if n < 0x10000 then [0xE0 + n / 4096, 0x80 + n / 64 % 64, 0x80 + n % 64]
  else [0xF0 + n / 262144, 0x80 + n / 4096 % 64, 0x80 + n / 64 % 64, 0x80 + n % 64]

def utf8Str (s : Str) : List Nat := s.flatMap utf8

/-- Upper-case hexadecimal digit. -/
def hexDigit (n : Nat) : Char :=
  if n < 10 then Char.ofNat (48 + n) else Char.ofNat (55 + n)

/-- Bytes that `urllib.parse.quote(..., safe=';/@:+?=&()%#*,')` keeps: letters,
digits, `_.-~` (always safe on Python >= 3.7) and the `safe` argument,
common.py:70. -/
def isSafeUri (n : Nat) : Bool :=
  let c := Char.ofNat n
  n < 128 && (isAlnum c || (lit "_.-~").contains c || (lit ";/@:+?=&()%#*,").contains c)

/-- `quote` of one byte. -/
def quoteByte (n : Nat) : Str :=
  if isSafeUri n then [Char.ofNat n] else ['%', hexDigit (n / 16), hexDigit (n % 16)]

/-- `normalize_uri`, common.py:68-70 (the `except UnicodeDecodeError` branch is
Python 2 only). -/
def normalizeUri (s : Str) : Str := (utf8Str s).flatMap quoteByte

/-- `replace_unsafe_char`, common.py:92-101. -/
def replaceUnsafeChar (c : Char) : Str :=
  if c == '&' then lit "&amp;"
  else if c == '<' then lit "&lt;"
  else if c == '>' then lit "&gt;"
  else if c == '"' then lit "&quot;"
  else [c]

/-- `escape_xml` of a string, common.py:104-113 (the `re.search` shortcut
included). -/
def escapeXml (s : Str) : Str :=
  if s.any (fun c => c == '&' || c == '<' || c == '>' || c == '"') then s.flatMap replaceUnsafeChar
  else s

/-- `escape_xml(None) == ''`. -/
def escapeXmlOpt : Option Str → Str
  | none => []
  | some s => escapeXml s

end CM

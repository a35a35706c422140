import Verif.Model.PyStr
import Verif.Spec.Text
/-
A small tokenizer for HTML, written as a state machine that reads one character at a time, and the
notion of well-nested token sequence.  It is independent of the renderer.  It rejects (`none`) a `<`
that does not begin a complete tag or comment, a `>` or `"` in running text, an attribute without a
double-quoted value.
-/
namespace Spec
open CM

/-- Attribute names with their raw values. -/
abbrev TokAttrs := List (Str × Str)

inductive Tok where
  /-- a character of running text -/
  | chr (c : Char)
  | comment (body : Str)
  /-- `<name attrs>` -/
  | opening (name : Str) (attrs : TokAttrs)
  /-- `<name attrs />` -/
  | void (name : Str) (attrs : TokAttrs)
  /-- `</name>` -/
  | closing (name : Str)
deriving DecidableEq, Repr

/-- Where the tokenizer is. -/
inductive TokState where
  | data
  /-- after `<` -/
  | lt
  /-- after `<!` -/
  | bang
  /-- after `<!-` -/
  | bangDash
  /-- in a comment, text so far -/
  | comment (acc : Str)
  /-- after `</`, name so far -/
  | closeName (acc : Str)
  /-- in the name of an opening tag -/
  | openName (acc : Str)
  /-- after white space in a tag -/
  | space (name : Str) (attrs : TokAttrs)
  /-- in an attribute name -/
  | attrName (name : Str) (attrs : TokAttrs) (acc : Str)
  /-- after `=` -/
  | attrEq (name : Str) (attrs : TokAttrs) (an : Str)
  /-- in a quoted value -/
  | attrValue (name : Str) (attrs : TokAttrs) (an : Str) (acc : Str)
  /-- after a quoted value -/
  | afterValue (name : Str) (attrs : TokAttrs)
  /-- after `/` in a tag -/
  | slash (name : Str) (attrs : TokAttrs)
deriving DecidableEq, Repr

/-- Characters of tag and attribute names. -/
def isNameChar (c : Char) : Bool :=
  ('a' ≤ c && c ≤ 'z') || ('A' ≤ c && c ≤ 'Z') || ('0' ≤ c && c ≤ '9') || c == '-'

/-- One step: the next state and the token completed, if any. -/
def tokStep : TokState → Char → Option (TokState × Option Tok)
  | .data, c =>
    if c == '<' then some (.lt, none)
    else if c == '>' || c == '"' then none
    else some (.data, some (.chr c))
  | .lt, c =>
    if c == '!' then some (.bang, none)
    else if c == '/' then some (.closeName [], none)
    else if isNameChar c then some (.openName [c], none)
    else none
  | .bang, c => if c == '-' then some (.bangDash, none) else none
  | .bangDash, c => if c == '-' then some (.comment [], none) else none
  | .comment acc, c =>
    if c == '>' && acc.reverse.take 2 == ['-', '-'] then
      some (.data, some (.comment (acc.take (acc.length - 2))))
    else some (.comment (acc ++ [c]), none)
  | .closeName acc, c =>
    if c == '>' then (if acc.isEmpty then none else some (.data, some (.closing acc)))
    else if isNameChar c then some (.closeName (acc ++ [c]), none)
    else none
  | .openName acc, c =>
    if c == '>' then some (.data, some (.opening acc []))
    else if c == ' ' then some (.space acc [], none)
    else if isNameChar c then some (.openName (acc ++ [c]), none)
    else none
  | .space n as, c =>
    if c == '/' then some (.slash n as, none)
    else if isNameChar c then some (.attrName n as [c], none)
    else none
  | .attrName n as acc, c =>
    if c == '=' then some (.attrEq n as acc, none)
    else if isNameChar c then some (.attrName n as (acc ++ [c]), none)
    else none
  | .attrEq n as an, c => if c == '"' then some (.attrValue n as an [], none) else none
  | .attrValue n as an acc, c =>
    if c == '"' then some (.afterValue n (as ++ [(an, acc)]), none)
    else some (.attrValue n as an (acc ++ [c]), none)
  | .afterValue n as, c =>
    if c == '>' then some (.data, some (.opening n as))
    else if c == ' ' then some (.space n as, none)
    else none
  | .slash n as, c => if c == '>' then some (.data, some (.void n as)) else none

/-- Read a text from a state: the tokens and the final state. -/
def tokRun : TokState → Str → Option (List Tok × TokState)
  | st, [] => some ([], st)
  | st, c :: cs =>
    match tokStep st c with
    | none => none
    | some (st', t) =>
      match tokRun st' cs with
      | none => none
      | some (ts, st'') => some (t.toList ++ ts, st'')

/-- The tokens of a complete text. -/
def tokenize (s : Str) : Option (List Tok) :=
  match tokRun .data s with
  | some (ts, .data) => some ts
  | _ => none

/-- Opening and closing tags match like brackets, starting from a stack of open elements. -/
def nested : List Str → List Tok → Bool
  | stack, [] => stack.isEmpty
  | stack, .opening n _ :: ts => nested (n :: stack) ts
  | [], .closing _ :: _ => false
  | m :: stack, .closing n :: ts => m == n && nested stack ts
  | stack, _ :: ts => nested stack ts

/-- Elements the renderer writes with content. -/
def elementNames : List Str :=
  ["p", "h1", "h2", "h3", "h4", "h5", "h6", "em", "strong", "a", "code", "pre", "ul", "ol", "li",
    "blockquote"].map String.toList

/-- Elements it writes without content. -/
def voidNames : List Str := ["br", "hr", "img"].map String.toList

/-- Attributes it writes. -/
def attributeNames : List Str :=
  ["data-sourcepos", "href", "title", "src", "alt", "class", "start"].map String.toList

/-- A token that the renderer may emit, where `P` restricts attributes. -/
def Tok.allowed (P : Str → Str → Prop) : Tok → Prop
  | .chr _ => True
  | .comment b => b = " raw HTML omitted ".toList
  | .opening n as => n ∈ elementNames ∧ ∀ a ∈ as, a.1 ∈ attributeNames ∧ P a.1 a.2
  | .void n as => n ∈ voidNames ∧ ∀ a ∈ as, a.1 ∈ attributeNames ∧ P a.1 a.2
  | .closing n => n ∈ elementNames

/-- `w` is a prefix of `s` up to ASCII letter case, `w` in lower case. -/
def ciPrefix : Str → Str → Bool
  | [], _ => true
  | _ :: _, [] => false
  | w :: ws, c :: cs => c.toLower == w && ciPrefix ws cs

/-- URLs that browsers execute or that read local data. -/
def dangerous (u : Str) : Bool :=
  ciPrefix "javascript:".toList u || ciPrefix "vbscript:".toList u || ciPrefix "file:".toList u ||
  (ciPrefix "data:".toList u &&
    !(ciPrefix "data:image/png".toList u || ciPrefix "data:image/gif".toList u ||
      ciPrefix "data:image/jpeg".toList u || ciPrefix "data:image/webp".toList u))

/-- `w` occurs in `s` up to ASCII letter case. -/
def ciOccurs (w s : Str) : Prop := ∃ a b, s = a ++ b ∧ ciPrefix w b = true

/-- Only ASCII characters. -/
def Ascii (s : Str) : Prop := ∀ c ∈ s, c.toNat < 128

end Spec

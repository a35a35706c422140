import Mathlib.Data.List.Forall2
import Verif.Spec.Source
/-
HTML blocks, /repo/spec.txt "HTML blocks": the seven ways in which one can start, and how it ends.  A line is given without its
indentation and without its line ending.
-/
namespace Spec
open CM

/-- The letter `x` is the small letter `a`, in any case.  (Four more characters count as letters, see `NameLetter`.) -/
def LetterOf (a x : Char) : Prop :=
  x.toLower = a ∨ (a = 'i' ∧ (x.toNat = 0x130 ∨ x.toNat = 0x131)) ∨ (a = 's' ∧ x.toNat = 0x17F) ∨ (a = 'k' ∧ x.toNat = 0x212A)

/-- `x` is the word `w`, in any case. -/
def SameWord (w x : Str) : Prop := List.Forall₂ LetterOf w x

/-- The elements whose content is not read as Markdown up to the end tag. -/
def verbatimNames : List String := ["script", "pre", "style"]

/-- The elements of which any tag starts an HTML block.  (The specification has six more: `h2` to `h6`, and `meta`.) -/
def htmlBlockNames : List String :=
  ["address", "article", "aside", "base", "basefont", "blockquote", "body", "caption", "center", "col", "colgroup", "dd",
   "details", "dialog", "dir", "div", "dl", "dt", "fieldset", "figcaption", "figure", "footer", "form", "frame", "frameset",
   "h1", "head", "header", "hr", "html", "iframe", "legend", "li", "link", "main", "menu", "menuitem", "nav", "noframes",
   "ol", "optgroup", "option", "p", "param", "section", "source", "summary", "table", "tbody", "td", "tfoot", "th", "thead",
   "title", "tr", "track", "ul"]

/-- The line starts an HTML block in the way `i`. -/
def HtmlOpen (i : Nat) (l : Str) : Prop :=
  match i with
  | 1 => ∃ n r, l = '<' :: (n ++ r) ∧ (∃ w ∈ verbatimNames, SameWord w.toList n) ∧
      (r = [] ∨ ∃ c q, r = c :: q ∧ (isPySpace c = true ∨ c = '>'))
  | 2 => "<!--".toList <+: l
  | 3 => "<?".toList <+: l
  | 4 => ∃ c r, l = '<' :: '!' :: c :: r ∧ 'A' ≤ c ∧ c ≤ 'Z'
  | 5 => "<![CDATA[".toList <+: l
  | 6 => ∃ sl n r, l = '<' :: (sl ++ (n ++ r)) ∧ (sl = [] ∨ sl = ['/']) ∧ (∃ w ∈ htmlBlockNames, SameWord w.toList n) ∧
      (r = [] ∨ (∃ c q, r = c :: q ∧ (isPySpace c = true ∨ c = '>')) ∨ ∃ q, r = '/' :: '>' :: q)
  | 7 => ∃ tag w, l = tag ++ w ∧ Blank w ∧
      ((∃ n as v sl, TagName n ∧ Attributes as ∧ Blank v ∧ (sl = [] ∨ sl = ['/']) ∧
          tag = '<' :: (n ++ (as ++ (v ++ (sl ++ ['>']))))) ∨
        ∃ n v, TagName n ∧ Blank v ∧ tag = '<' :: '/' :: (n ++ (v ++ ['>'])))
  | _ => False

/-- The line starts an HTML block of type `i`: the first of the seven ways that fits. -/
def HtmlStart (i : Nat) (l : Str) : Prop := HtmlOpen i l ∧ ∀ j < i, ¬ HtmlOpen j l

/-- The line ends an HTML block of type `i`, which is not 6 or 7: these are ended by a blank line. -/
def HtmlEnd (i : Nat) (l : Str) : Prop :=
  match i with
  | 1 => ∃ a n b, l = a ++ ('<' :: '/' :: (n ++ '>' :: b)) ∧ ∃ w ∈ verbatimNames, SameWord w.toList n
  | 2 => "-->".toList <:+: l
  | 3 => "?>".toList <:+: l
  | 4 => '>' ∈ l
  | 5 => "]]>".toList <:+: l
  | _ => False

end Spec

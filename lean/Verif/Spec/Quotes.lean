import Verif.Spec.Phrase
/-
Quotation marks with the option `smart` (C74): which of them become opening and which closing ones.
-/
namespace Spec
open CM

/-- What a text is made of: inline content, and straight quotation marks, for which we know if they open and if they close. -/
inductive Bit where
  | span (x : Span)
  | quote (c : Char) (opens closes : Bool)

/-- `Prose b t k ts`: between the text `b` and the rest `k`, the text `t` is made of `ts`.  There is no emphasis and no bracket
in it.  A quotation mark opens if it is left-flanking and not right-flanking; it closes if it is right-flanking. -/
inductive Prose : Str → Str → Str → List Bit → Prop
  | nil {b k : Str} : Prose b [] k []
  | atom {b t k : Str} {xs : List Span} : Atom true t k xs → Prose b t k (xs.map .span)
  | quote {b k : Str} {c : Char} {o cl : Bool} : c = '\'' ∨ c = '"' → (o = true ↔ OpensQuote b.getLast? k.head?) →
      (cl = true ↔ RightFlanking (isPySpace · = true) (isPunct · = true) b.getLast? k.head?) → Prose b [c] k [.quote c o cl]
  | seq {b t u k : Str} {xs ys : List Bit} : Prose b t (u ++ k) xs → Prose (b ++ t) u k ys → Prose b (t ++ u) k (xs ++ ys)

/-- The next single quotation mark that opens or closes is there, and closes. -/
def closedNext : List Bit → Bool
  | [] => false
  | .quote '\'' true _ :: _ => false
  | .quote '\'' false true :: _ => true
  | _ :: r => closedNext r

/-- What a straight quotation mark becomes, before `r`: a double one that closes becomes a closing one, any other double one an
opening one; a single one that opens, and is closed before another one opens, becomes an opening one, any other single one an
apostrophe. -/
def curly (c : Char) (opens closes : Bool) (r : List Bit) : Char :=
  if c = '"' then if closes then '”' else '“' else if opens && closedNext r then '‘' else '’'

/-- The content of the text. -/
def settle : List Bit → List Span
  | [] => []
  | .span x :: r => x :: settle r
  | .quote c o cl :: r => .text [curly c o cl r] :: settle r

section
variable {w p : Char → Prop} [DecidablePred w] [DecidablePred p]
instance (o : Option Char) : Decidable (White w o) := by cases o <;> unfold White <;> infer_instance
instance (o : Option Char) : Decidable (Punct p o) := by cases o <;> unfold Punct <;> infer_instance
instance (a b : Option Char) : Decidable (LeftFlanking w p a b) := by unfold LeftFlanking; infer_instance
instance (a b : Option Char) : Decidable (RightFlanking w p a b) := by unfold RightFlanking; infer_instance
end

instance (c : Char) : Decidable (Ordinary c) := inferInstanceAs (Decidable (c ∉ "\n`[]\\!<&*_'\"".toList))

/-- A quotation mark between these characters opens. -/
def opensAt (before after : Option Char) : Bool :=
  decide (LeftFlanking (isPySpace · = true) (isPunct · = true) before after) &&
    !decide (RightFlanking (isPySpace · = true) (isPunct · = true) before after)

/-- A quotation mark between these characters closes. -/
def closesAt (before after : Option Char) : Bool := decide (RightFlanking (isPySpace · = true) (isPunct · = true) before after)

/-- The next single quotation mark of the text that opens or closes is there, and closes.  `before`: the character before the text. -/
def closesNext : Option Char → Str → Bool
  | _, [] => false
  | before, c :: r =>
    if c = '\'' && opensAt before r.head? then false
    else if c = '\'' && closesAt before r.head? then true
    else closesNext (some c) r

/-- The text with curly quotation marks: a double one that closes becomes a closing one, any other double one an opening one; a
single one that opens, and is closed before another one opens, becomes an opening one, any other single one an apostrophe. -/
def curlyText : Option Char → Str → Str
  | _, [] => []
  | before, c :: r =>
    (if c = '"' then if closesAt before r.head? then '”' else '“'
     else if c = '\'' then if opensAt before r.head? && closesNext (some c) r then '‘' else '’'
     else c) :: curlyText (some c) r

/-- `h` is the HTML of the text `t` with curly quotation marks. -/
def ProseHtml (o : HtmlOpts) (t h : Str) : Prop := ∃ ts, Prose [] t [] ts ∧ h = spansHtml o.safe o.softbreak (settle ts)

end Spec

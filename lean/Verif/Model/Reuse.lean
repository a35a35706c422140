import Verif.Model.Rst
/-
Renderer objects that are used more than once, also after an exception: what of the object survives a call of
`render` (/repo/commonmark/render/renderer.py:5-22, html.py:22-33, rst.py:24-26).
-/
namespace CM

/-- The loop of `render`, renderer.py:15-20: the exception that ended it, if one did, and the state at that time.  The
state is the one before the event that raised.  That is exact for the attributes that outlive the call: in rst.py
and html.py no method changes `indent_length` or `disable_tags` before a statement of the same call that can raise.  (`buf`
and `last_out` may have been changed, but `render` begins by setting them.) -/
def walkUntil {σ : Type} (step : σ → Event → Except PyErr σ) : σ → List Event → Option PyErr × σ
  | s, [] => (none, s)
  | s, e :: es =>
    match step s e with
    | .ok s' => walkUntil step s' es
    | .error x => (some x, s)

/-- A `ReStructuredTextRenderer` between calls, rst.py:24-26. -/
structure RstRenderer where
  indentChar : Str := [' ']
  indentLength : Int := 0
deriving DecidableEq, Repr

/-- `render` of that object: what the call returns or raises, and the object afterwards. -/
def RstRenderer.render (r : RstRenderer) (t : Tree) : Except PyErr Str × RstRenderer :=
  match walkUntil (rstEvent r.indentChar) ⟨[], ['\n'], r.indentLength⟩ (events none none t) with
  | (none, st) => (.ok st.buf, { r with indentLength := st.indentLength })
  | (some x, st) => (.error x, { r with indentLength := st.indentLength })

/-- An `HtmlRenderer` between calls, html.py:22-33 (`last_out` is set by `render`). -/
structure HtmlRenderer where
  options : HtmlOpts := {}
  disableTags : Int := 0

/-- `render` of that object. -/
def HtmlRenderer.render (r : HtmlRenderer) (t : Tree) : Except PyErr Str × HtmlRenderer :=
  match walkUntil (htmlEvent r.options) ⟨[], ['\n'], r.disableTags⟩ (events none none t) with
  | (none, st) => (.ok st.buf, { r with disableTags := st.disableTags })
  | (some x, st) => (.error x, { r with disableTags := st.disableTags })

/-- Calls of `render`, one after the other: what each returned or raised, and the object after the last. -/
def renderAll {R : Type} (render : R → Tree → Except PyErr Str × R) : R → List Tree → List (Except PyErr Str) × R
  | r, [] => ([], r)
  | r, t :: ts => ((render r t).1 :: (renderAll render (render r t).2 ts).1, (renderAll render (render r t).2 ts).2)

end CM

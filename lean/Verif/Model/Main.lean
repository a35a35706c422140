import Verif.Model.Rst
import Verif.Model.Dump
/-
Model of /repo/commonmark/main.py and /repo/commonmark/cmark.py, and of the option dictionaries of
`HtmlRenderer.__init__`.
-/
namespace CM

/-- What a call returns (`None` for `dumpAST`) and what it prints. -/
structure Out where
  value : Option Str
  stdout : List Str
deriving DecidableEq, Repr

/-- `commonmark(text, format)`, main.py:20-41, with the options that the shared default dictionary
of `HtmlRenderer` holds at that time. -/
def commonmarkWith (o : HtmlOpts) (text : Str) (format : Str) : Except PyErr Out := do
  let ast ← parse false text
  if !([lit "html", lit "json", lit "ast", lit "rst"].contains format) then .error .valueError
  else if format == lit "html" then return ⟨some (← renderHtml o ast), []⟩
  else if format == lit "json" then return ⟨some (← dumpJSON ast), []⟩
  else if format == lit "ast" then return ⟨none, dumpAST ast⟩
  else return ⟨some (← renderRst [' '] ast), []⟩

/-- `commonmark(text, format)` in a process that has not changed the default options. -/
def commonmark (text : Str) (format : Str := lit "html") : Except PyErr Out :=
  commonmarkWith {} text format

/-! ### Option dictionaries, html.py:22-30

`options={}` is evaluated once, so all renderers made without an argument share one dictionary; a
dictionary passed by the caller is stored and changed in place. -/

/-- A dictionary of renderer options. -/
structure OptDict where
  softbreak : Option Str := none
  safe : Option Bool := none
  sourcepos : Option Bool := none
deriving DecidableEq, Repr

/-- `options['softbreak'] = options.get('softbreak') or '\n'`, html.py:24. -/
def OptDict.fill (d : OptDict) : OptDict :=
  { d with softbreak := some (match d.softbreak with
      | some s => if s.isEmpty then ['\n'] else s
      | none => ['\n']) }

/-- How the methods read it. -/
def OptDict.read (d : OptDict) : HtmlOpts :=
  ⟨d.softbreak.getD ['\n'], d.safe.getD false, d.sourcepos.getD false⟩

/-- A process: dictionaries by reference (reference 0 is the shared default), and the renderers made
so far with the reference each one holds. -/
structure World where
  dicts : Nat → OptDict
  renderers : List Nat

/-- `HtmlRenderer(options)` with `options` the dictionary `r`; `HtmlRenderer()` is `newRenderer 0`. -/
def World.newRenderer (w : World) (r : Nat) : World :=
  { dicts := fun i => if i = r then (w.dicts r).fill else w.dicts i
    renderers := w.renderers ++ [r] }

/-- `renderer.options[...] = ...` or a change the caller makes to a dictionary. -/
def World.update (w : World) (r : Nat) (f : OptDict → OptDict) : World :=
  { w with dicts := fun i => if i = r then f (w.dicts i) else w.dicts i }

/-- The options that renderer number `k` uses. -/
def World.optsOf (w : World) (k : Nat) : Option HtmlOpts :=
  (w.renderers[k]?).map fun r => (w.dicts r).read

/-! ### Command line, cmark.py:8-49 -/

/-- Universal-newline translation done by text-mode files (`argparse.FileType('r')`). -/
def universalNewlines : Str → Str
  | [] => []
  | '\r' :: '\n' :: cs => '\n' :: universalNewlines cs
  | c :: cs => (if c == '\r' then '\n' else c) :: universalNewlines cs

/-- `main()` with flags `-a`, `-aj` on the decoded contents of the input file: what is written to
the output file and what is printed.  Argument parsing and I/O are not modelled. -/
def cmarkMain (a aj : Bool) (contents : Str) : Except PyErr Out := do
  let ast ← parse false (universalNewlines contents)
  if !a && !aj then return ⟨some (← renderHtml {} ast), []⟩
  else if a then return ⟨none, dumpAST ast⟩
  else return ⟨some (← dumpJSON ast), []⟩

end CM

import Verif.Proofs.LineEndings
/-
C14, C15: line endings.  C42: `commonmark()` and the command line tool.
-/
namespace CM
open Spec

/-- **C14.** The lines that are processed are the lines of the text: a non-empty list of lines, each
written with a final LF, is read back as that list. -/
theorem C14_lines_terminated (ls : List Str) (hne : ls ≠ [])
    (h : ∀ l ∈ ls, ∀ c ∈ l, c ≠ '\n' ∧ c ≠ '\r') : inputLines (ls.flatMap (· ++ ['\n'])) = ls :=
  inputLines_lines ls hne h

/-- **C14, C15.** The same when the last line, not empty, has no LF. -/
theorem C14_lines_unterminated (ls : List Str) (l : Str) (hne : l ≠ [])
    (h : ∀ m ∈ ls, ∀ c ∈ m, c ≠ '\n' ∧ c ≠ '\r') (hl : ∀ c ∈ l, c ≠ '\n' ∧ c ≠ '\r') :
    inputLines (ls.flatMap (· ++ ['\n']) ++ l) = ls ++ [l] :=
  inputLines_lines_last ls l hne h hl

/-- **C14 (CR LF).** Replacing every LF by CR LF changes nothing in the parsed document, whatever the
options and whatever the state of the parser object. -/
theorem C14_crlf (smart : Bool) (p : PState) (s : Str) (h : '\r' ∉ s) :
    parseWith smart p (toCRLF s) = parseWith smart p s := by
  apply parseWith_congr
  have hl : (toCRLF s).getLast? ≠ some '\r' := by
    rcases List.eq_nil_or_concat s with rfl | ⟨u, c, rfl⟩
    · simp [toCRLF]
    · have hc : c ≠ '\r' := by simp at h; exact fun e => h.2 e.symm
      simp only [toCRLF, List.concat_eq_append, List.flatMap_append, List.flatMap_cons, List.flatMap_nil]
      split <;> simp [hc]
  rw [← inputLines_universalNewlines _ hl, universalNewlines_toCRLF s h]

/-- **C14 (CR).** Replacing every LF by CR changes nothing for a text that does not end with a line
ending.  Missing from the full property: texts that end with LF, for which it is false. -/
theorem C14_cr_partial (smart : Bool) (p : PState) (s : Str) (h : '\r' ∉ s) (hl : s.getLast? ≠ some '\n') :
    parseWith smart p (toCR s) = parseWith smart p s := by
  apply parseWith_congr
  have hl : (toCR s).getLast? ≠ some '\r' := by
    rcases List.eq_nil_or_concat s with rfl | ⟨u, c, rfl⟩
    · simp [toCR]
    · have hc : c ≠ '\r' := by simp at h; exact fun e => h.2 e.symm
      simp at hl
      simp [toCR, hl, hc]
  rw [← inputLines_universalNewlines _ hl, universalNewlines_toCR s h]

/-- **C14, violated for a final CR.** `"```\na\n"` and the same text with CR line endings give
different code blocks: only a final LF is taken as a terminator (blocks.py:895). -/
theorem C14_final_cr_counterexample :
    (commonmark (lit "```\na\n")).toOption.map (·.value) ≠
      (commonmark (toCR (lit "```\na\n"))).toOption.map (·.value) := by decide +kernel

/-- **C15.** A final LF is optional: appending one to a text that does not end with a line-ending
character changes nothing in the parsed document. -/
theorem C15_final_newline (smart : Bool) (p : PState) (s : Str)
    (h1 : s.getLast? ≠ some '\n') (h2 : s.getLast? ≠ some '\r') :
    parseWith smart p (s ++ ['\n']) = parseWith smart p s := by
  apply parseWith_congr
  have e : (s.getLast? == some '\n') = false := by simpa using h1
  simp [inputLines, split_append_lf _ s (Nat.le_refl _) h2, e]

example : inputLines (lit "a\n\nb\n") = [lit "a", [], lit "b"] ∧ inputLines (lit "a\n\nb") = [lit "a", [], lit "b"] := by
  decide

/-- A text that meets the hypotheses of C14 and C15. -/
example : let s := lit "# a\n\n* b\nc"
    '\r' ∉ s ∧ s.getLast? ≠ some '\n' ∧ s.getLast? ≠ some '\r' ∧ toCRLF s ≠ s ∧ toCR s ≠ s := by decide

/-- **C42.** `commonmark(text)` is the rendering of the parsed text. -/
theorem C42_html (s : Str) : commonmark s =
    (parse false s).bind fun t => (renderHtml {} t).bind fun h => .ok ⟨some h, []⟩ := by
  simp only [commonmark, commonmarkWith]
  cases parse false s <;> rfl

/-- **C42.** `format='rst'`. -/
theorem C42_rst (s : Str) : commonmark s (lit "rst") =
    (parse false s).bind fun t => (renderRst [' '] t).bind fun h => .ok ⟨some h, []⟩ := by
  simp only [commonmark, commonmarkWith]
  cases parse false s <;> rfl

/-- **C42.** `format='json'`. -/
theorem C42_json (s : Str) : commonmark s (lit "json") =
    (parse false s).bind fun t => (dumpJSON t).bind fun h => .ok ⟨some h, []⟩ := by
  simp only [commonmark, commonmarkWith]
  cases parse false s <;> rfl

/-- **C42.** `format='ast'` prints the dump and returns None. -/
theorem C42_ast (s : Str) : commonmark s (lit "ast") =
    (parse false s).bind fun t => .ok ⟨none, dumpAST t⟩ := by
  simp only [commonmark, commonmarkWith]
  cases parse false s <;> rfl

/-- **C42.** Any other format is rejected with ValueError (once the text is parsed). -/
theorem C42_unknown_format (s f : Str) (t : Tree) (ht : parse false s = .ok t)
    (h : f ≠ lit "html" ∧ f ≠ lit "json" ∧ f ≠ lit "ast" ∧ f ≠ lit "rst") :
    commonmark s f = .error .valueError := by
  simp only [commonmark, commonmarkWith, ht, bind, Except.bind]
  rw [if_pos]
  simpa using h

/-- **C42.** No format is accepted but the four. -/
theorem C42_formats (s f : Str) (o : Out) (h : commonmark s f = .ok o) :
    f = lit "html" ∨ f = lit "json" ∨ f = lit "ast" ∨ f = lit "rst" := by
  refine Classical.byContradiction fun hn => ?_
  simp only [not_or] at hn
  cases hp : parse false s with
  | error e => simp [commonmark, commonmarkWith, hp, bind, Except.bind] at h
  | ok t => rw [C42_unknown_format s f t hp hn] at h; simp at h

/-- **C42.** The command line tool writes the HTML of `commonmark()` for every text that does not end
with a bare CR (the tool reads files with universal newlines). -/
theorem C42_cmark (s : Str) (h : s.getLast? ≠ some '\r') : cmarkMain false false s = commonmark s := by
  simp only [cmarkMain, commonmark, commonmarkWith,
    parse_congr false (inputLines_universalNewlines s h)]
  cases parse false s <;> rfl

/-- **C42.** With `-a` the tool prints what `format='ast'` prints and writes nothing. -/
theorem C42_cmark_ast (s : Str) (aj : Bool) (h : s.getLast? ≠ some '\r') :
    cmarkMain true aj s = commonmark s (lit "ast") := by
  simp only [cmarkMain, commonmark, commonmarkWith,
    parse_congr false (inputLines_universalNewlines s h)]
  cases parse false s <;> rfl

/-- **C42.** With `-aj` (and not `-a`) the tool writes the JSON dump. -/
theorem C42_cmark_json (s : Str) (h : s.getLast? ≠ some '\r') :
    cmarkMain false true s = commonmark s (lit "json") := by
  simp only [cmarkMain, commonmark, commonmarkWith,
    parse_congr false (inputLines_universalNewlines s h)]
  cases parse false s <;> rfl

/-- `C42_unknown_format` and `C42_formats` have instances. -/
example : (parse false (lit "*a*")).toOption.isSome ∧
    (commonmark (lit "*a*") (lit "pdf")).toOption = none := by decide +kernel

example : (commonmark (lit "*a*")).toOption.map (·.value) = some (some (lit "<p><em>a</em></p>\n")) := by
  decide +kernel
example : (lit "a\r\nb\rc\n").getLast? ≠ some '\r' := by decide

end CM

import Mathlib.Tactic.FinCases
import Verif.Proofs.CodeHtml
/-
C32 (fenced code blocks), C33 (indented code blocks).
-/
set_option linter.unusedVariables false
namespace CM
open Spec

/-- C32: a text whose first line is a code fence (`f` times `c`, then `info`), whose last line is the first one to close
that fence, parses to a document with one code block; its literal is the lines between the two, unchanged. -/
theorem C32_closed (smart : Bool) {s first close : Str} {ls : List Str} {c : Char} {f : Nat} {info : Str}
    (hs : TextLines s (first :: (ls ++ [close]))) (h1 : CodeFence c f info first) (h2 : ∀ l ∈ ls, ¬ ClosesFence c f l)
    (h3 : ClosesFence c f close) : ∃ d e, parse smart s = .ok (.node d [.node e []]) ∧ d.t = .document ∧
      e.t = .codeBlock ∧ e.literal = some (codeLines ls) ∧ e.info = some (unescapeString (strip (noNul info))) ∧
      e.sourcepos.map (·.1) = some (1, 1) ∧ e.sourcepos.map (·.2.1) = some (ls.length + 2) := by
  obtain ⟨d, k, hd, h⟩ := parse_fence (smart := smart) hs h1 h2 h3
  exact ⟨d, _, h, hd, rfl, rfl, rfl, rfl, rfl⟩

/-- C32: without a closing fence the rest of the text is the literal. -/
theorem C32_unclosed (smart : Bool) {s first : Str} {ls : List Str} {c : Char} {f : Nat} {info : Str}
    (hs : TextLines s (first :: ls)) (h1 : CodeFence c f info first) (h2 : ∀ l ∈ ls, ¬ ClosesFence c f l) :
    ∃ d e, parse smart s = .ok (.node d [.node e []]) ∧ d.t = .document ∧
      e.t = .codeBlock ∧ e.literal = some (codeLines ls) ∧ e.info = some (unescapeString (strip (noNul info))) ∧
      e.sourcepos.map (·.1) = some (1, 1) ∧ e.sourcepos.map (·.2.1) = some (ls.length + 1) := by
  obtain ⟨d, k, hd, h⟩ := parse_fence_open (smart := smart) hs h1 h2
  exact ⟨d, _, h, hd, rfl, rfl, rfl, rfl, rfl⟩

/-- C32: the HTML of such a text, when nothing but spaces follow the fence: only the characters `& < > "` of the lines
are rewritten (C10). -/
theorem C32_html (smart : Bool) {o : HtmlOpts} (ho : o.sourcepos = false) {s first : Str} {ls : List Str} {c : Char}
    {f k : Nat} (h1 : CodeFence c f (List.replicate k ' ') first) (h2 : ∀ l ∈ ls, ¬ ClosesFence c f l)
    (hs : TextLines s (first :: ls) ∨ ∃ close, ClosesFence c f close ∧ TextLines s (first :: (ls ++ [close]))) :
    toHtml smart o s = .ok ("<pre><code>".toList ++ escapeXml (codeLines ls) ++ "</code></pre>\n".toList) := by
  have key : ∃ d e, parse smart s = .ok (.node d [.node e []]) ∧ d.t = .document ∧
      e.t = .codeBlock ∧ e.literal = some (codeLines ls) ∧
      e.info = some (unescapeString (strip (noNul (List.replicate k ' ')))) := by
    rcases hs with hs | ⟨close, h3, hs⟩
    · obtain ⟨d, e, h, a, b, c, d, _⟩ := C32_unclosed smart hs h1 h2
      exact ⟨_, e, h, a, b, c, d⟩
    · obtain ⟨d, e, h, a, b, c, d, _⟩ := C32_closed smart hs h1 h2 h3
      exact ⟨_, e, h, a, b, c, d⟩
  obtain ⟨d, e, h, a, b, c, i⟩ := key
  have hn : noNul (List.replicate k ' ') = List.replicate k ' ' := by simp [noNul]
  rw [hn] at i
  simp only [toHtml, h, bind, Except.bind]
  rw [render_code a b c ho, i, codeClass_blank]
  rfl

/-- C32: the first word `w` of the info string is the language class. -/
theorem C32_html_class (smart : Bool) {o : HtmlOpts} (ho : o.sourcepos = false) {s first : Str} {ls : List Str} {c : Char}
    {f k : Nat} {w r : Str} (h1 : CodeFence c f (List.replicate k ' ' ++ (w ++ r)) first) (h2 : ∀ l ∈ ls, ¬ ClosesFence c f l)
    (hs : TextLines s (first :: ls) ∨ ∃ close, ClosesFence c f close ∧ TextLines s (first :: (ls ++ [close])))
    (hne : w ≠ []) (hw : ∀ x ∈ w, isPySpace x = false) (hr : ∀ x, r.head? = some x → isPySpace x = true)
    (hp : ∀ x ∈ w ++ r, x ≠ '\\' ∧ x ≠ '&' ∧ x ≠ Char.ofNat 0) :
    toHtml smart o s = .ok ("<pre><code class=\"language-".toList ++ escapeXml w ++ "\">".toList ++
      escapeXml (codeLines ls) ++ "</code></pre>\n".toList) := by
  have key : ∃ d e, parse smart s = .ok (.node d [.node e []]) ∧ d.t = .document ∧
      e.t = .codeBlock ∧ e.literal = some (codeLines ls) ∧
      e.info = some (unescapeString (strip (noNul (List.replicate k ' ' ++ (w ++ r))))) := by
    rcases hs with hs | ⟨close, h3, hs⟩
    · obtain ⟨d, e, h, a, b, c, d, _⟩ := C32_unclosed smart hs h1 h2
      exact ⟨_, e, h, a, b, c, d⟩
    · obtain ⟨d, e, h, a, b, c, d, _⟩ := C32_closed smart hs h1 h2 h3
      exact ⟨_, e, h, a, b, c, d⟩
  obtain ⟨d, e, h, a, b, c, i⟩ := key
  have hn : noNul (List.replicate k ' ' ++ (w ++ r)) = List.replicate k ' ' ++ (w ++ r) := by
    apply noNul_none
    intro hc
    rcases List.mem_append.1 hc with hc | hc
    · exact absurd (List.eq_of_mem_replicate hc) (by decide)
    · exact (hp _ hc).2.2 rfl
  rw [hn] at i
  simp only [toHtml, h, bind, Except.bind]
  rw [render_code a b c ho, i, codeClass_word hw hne hr (fun hc => (hp _ hc).1 rfl) (fun hc => (hp _ hc).2.1 rfl)]
  simp [HState.tagText, lit]

/-- Lines that look like other blocks, and a shorter fence, between two fences. -/
example : TextLines "~~~~ py x\n# a\n\n~~~\n> *b* <\n ~~~~~ ".toList ("~~~~ py x".toList ::
      (["# a".toList, [], "~~~".toList, "> *b* <".toList] ++ [" ~~~~~ ".toList])) ∧
    CodeFence '~' 4 (List.replicate 1 ' ' ++ ("py".toList ++ " x".toList)) "~~~~ py x".toList ∧
    (∀ l ∈ ["# a".toList, [], "~~~".toList, "> *b* <".toList], ¬ ClosesFence '~' 4 l) ∧
    ClosesFence '~' 4 " ~~~~~ ".toList := by
  refine ⟨(textLines_iff _ _).2 (by decide +kernel), ⟨by decide, by decide, by decide, Or.inr rfl⟩, ?_, 1, 5, 1, by decide,
    by decide, by decide⟩
  intro l hl hc
  obtain ⟨h1, h2⟩ := closesFence_chars hc
  revert h1 h2
  fin_cases hl <;> decide

/-- C33: non-blank lines after four spaces, with lines of at most three spaces among them, parse to one code block;
its literal is the lines without those four spaces. -/
theorem C33_literal (smart : Bool) {s first : Str} {ls xs : List Str}
    (hs : TextLines s (("    ".toList ++ first) :: ls)) (h1 : NotBlank first) (h2 : List.Forall₂ IndentedAs ls xs)
    (h3 : ∀ x ∈ (first :: xs).getLast?, NotBlank x) :
    ∃ d e, parse smart s = .ok (.node d [.node e []]) ∧ d.t = .document ∧
      e.t = .codeBlock ∧ e.literal = some (codeLines (first :: xs)) ∧ e.info = none ∧
      e.sourcepos.map (·.1) = some (1, 5) ∧ e.sourcepos.map (·.2.1) = some (ls.length + 1) := by
  obtain ⟨d, k, b, hd, h⟩ := parse_indented (smart := smart) hs h1 h2 h3
  exact ⟨d, _, h, hd, rfl, rfl, rfl, rfl, rfl⟩

/-- C33: the HTML of such a text. -/
theorem C33_html (smart : Bool) {o : HtmlOpts} (ho : o.sourcepos = false) {s first : Str} {ls xs : List Str}
    (hs : TextLines s (("    ".toList ++ first) :: ls)) (h1 : NotBlank first) (h2 : List.Forall₂ IndentedAs ls xs)
    (h3 : ∀ x ∈ (first :: xs).getLast?, NotBlank x) :
    toHtml smart o s = .ok ("<pre><code>".toList ++ escapeXml (codeLines (first :: xs)) ++ "</code></pre>\n".toList) := by
  obtain ⟨d, e, h, a, b, c, i, _⟩ := C33_literal smart hs h1 h2 h3
  simp only [toHtml, h, bind, Except.bind]
  rw [render_code a b c ho, i]
  rfl

/-- An empty line and a line with further indentation in an indented code block. -/
example : TextLines "    a <\n  \n      # b\n".toList (("    ".toList ++ "a <".toList) :: ["  ".toList, "      # b".toList]) ∧
    NotBlank "a <".toList ∧ List.Forall₂ IndentedAs ["  ".toList, "      # b".toList] [[], "  # b".toList] ∧
    ∀ x ∈ ("a <".toList :: [[], "  # b".toList]).getLast?, NotBlank x := by
  refine ⟨(textLines_iff _ _).2 (by decide +kernel), ⟨'a', by decide, by decide⟩,
    .cons (Or.inr ⟨rfl, 2, by decide, rfl⟩) (.cons (Or.inl rfl) .nil), ?_⟩
  intro x hx
  cases hx
  exact ⟨'b', by decide, by decide⟩

end CM

import Verif.Proofs.SafeParts
import Verif.Props.Source
import Verif.Props.Parsed
/-
C78: safe mode leaves out raw HTML and dangerous addresses, and changes nothing else.
-/
namespace CM
open Spec

/-- C78.  For every tree, also one built by hand, that can be rendered in both modes: the HTML in safe mode is the other
HTML with a comment in place of every piece of raw HTML, and without the addresses that are potentially unsafe.  (No raw
HTML in a line is a single newline.) -/
theorem C78_safe (o : HtmlOpts) (t : Tree) (html safe : Str)
    (hn : EverySubtree (fun d _ => d.t = .htmlInline → d.literal ≠ some ['\n']) t)
    (h1 : renderHtml { o with safe := false } t = .ok html) (h2 : renderHtml { o with safe := true } t = .ok safe) :
    ∃ ps : List SafePart, html = ps.flatMap SafePart.plain ∧ safe = ps.flatMap SafePart.safe ∧
      leftOut ps = treeLeft potentiallyUnsafe false t :=
  render_runs o t hn h1 h2

theorem htmlTag_not_newline {m : Str} (h : HtmlTag m) : m ≠ ['\n'] := by
  intro e
  have : 2 ≤ m.length := by cases h <;> simp <;> omega
  rw [e] at this; simp at this

theorem source_raw {smart strict : Bool} {refs : Str → Option RefDef} {S : Str} {L : Bool} {ts : List Tree} {i j : Nat}
    (h : Source smart strict refs S L ts i j) :
    ∀ t ∈ ts, EverySubtree (fun d _ => d.t = .htmlInline → d.literal ≠ some ['\n']) t := by
  induction h with
  | nil => simp
  | append _ _ h1 h2 =>
    intro t ht
    rcases List.mem_append.1 ht with ht | ht
    · exact h1 t ht
    · exact h2 t ht
  | html _ hm =>
    simp only [List.mem_singleton, forall_eq, EverySubtree, EverySubtreeList, and_true, forall_const]
    intro e; cases e; exact htmlTag_not_newline hm rfl
  | plain | smartPlain | escape | hardBreak | backslash | newline | code | ticks | ref | amp | less | delims |
    quote | single | double | bang | openB | openImg | closeB | uri | email =>
    simp [EverySubtree, EverySubtreeList]
  | lineEnd =>
    simp only [List.mem_cons, List.not_mem_nil, or_false, forall_eq_or_imp, forall_eq, EverySubtree, EverySubtreeList,
      and_true, reduceCtorEq, false_implies, true_and]
    intro h; split at h <;> cases h
  | emph _ _ _ ih | strong _ _ _ ih | link _ _ _ _ ih | image _ _ _ _ _ ih =>
    simp only [List.mem_singleton, forall_eq, EverySubtree, reduceCtorEq, false_implies, true_and]
    exact everySubtreeList_iff.2 ih

/-- C78.  For every text. -/
theorem C78_parsed (smart : Bool) (o : HtmlOpts) (s : Str) (t : Tree) (h : parse smart s = .ok t) :
    ∃ ps : List SafePart,
      toHtml smart { o with safe := false } s = .ok (ps.flatMap SafePart.plain) ∧
      toHtml smart { o with safe := true } s = .ok (ps.flatMap SafePart.safe) ∧
      leftOut ps = treeLeft potentiallyUnsafe false t := by
  obtain ⟨html, hr⟩ := C51_render_total smart { o with safe := false } s t h
  obtain ⟨html', hr'⟩ := C51_render_total smart { o with safe := true } s t h
  have hdoc := parse_doc h
  obtain ⟨refmap, hsrc⟩ := C53_source_parse smart s t h
  have hn : EverySubtree (fun d _ => d.t = .htmlInline → d.literal ≠ some ['\n']) t := by
    refine everySubtree_blocks (T := TextOf s) (G := (· ≠ Char.ofNat 0)) ?_ t (by rw [hdoc.1]; decide) ?_
    · intro d cs hk h; rw [h] at hk; exact absurd hk (by decide)
    · refine EverySubtree.mono ?_ t (everySubtree_and t hdoc.2.2.2 hsrc)
      rintro d cs ⟨hn, hx⟩
      refine ⟨hn, fun hk => ?_⟩
      obtain ⟨x, _, hx⟩ := hx hk
      exact everySubtreeList_iff.2 (source_raw hx)
  obtain ⟨ps, h1, h2, h3⟩ := C78_safe o t html html' hn hr hr'
  exact ⟨ps, by simp only [toHtml, h, bind, Except.bind, hr, h1], by simp only [toHtml, h, bind, Except.bind, hr', h2], h3⟩

/-- C78.  A text without raw HTML and without potentially unsafe addresses has the same HTML in both modes. -/
theorem C78_same (smart : Bool) (o : HtmlOpts) (s : Str) (t : Tree) (h : parse smart s = .ok t)
    (hl : treeLeft potentiallyUnsafe false t = []) :
    toHtml smart { o with safe := true } s = toHtml smart { o with safe := false } s := by
  obtain ⟨ps, h1, h2, h3⟩ := C78_parsed smart o s t h
  rw [hl] at h3
  have : ps.flatMap SafePart.safe = ps.flatMap SafePart.plain := by
    clear h1 h2
    induction ps with
    | nil => rfl
    | cons p ps ih =>
      cases p with
      | text s =>
        simp only [List.flatMap_cons, SafePart.safe, SafePart.plain]
        rw [ih (by simpa [leftOut] using h3)]
      | left l => simp [leftOut] at h3
  rw [h1, h2, this]

/-- Raw HTML in a line, in the description of an image and as a block, and addresses, one of them in a description. -/
example : (parse false "<i>[a](file:b)![<b>[c](data:d)](vbscript:e)[f](g)\n\n<hr>".toList).toOption.map
      (treeLeft potentiallyUnsafe false) =
    some [.raw "<i>".toList, .link "file:b".toList, .image "vbscript:e".toList, .raw "<b>".toList, .raw "<hr>".toList] := by
  decide +kernel

example : (toHtml false { safe := true } "<i>[a](file:b \"c\")![d](data:e)\n".toList).toOption =
    some "<p><!-- raw HTML omitted --><a title=\"c\">a</a><img src=\"\" alt=\"d\" /></p>\n".toList ∧
    (toHtml false { safe := false } "<i>[a](file:b \"c\")![d](data:e)\n".toList).toOption =
    some "<p><i><a href=\"file:b\" title=\"c\">a</a><img src=\"data:e\" alt=\"d\" /></p>\n".toList := by decide +kernel

end CM

import Verif.Proofs.RstTree
import Verif.Props.Rst
/-
C65: the reStructuredText is the tree.  C66: what it keeps of the blocks of the document.
-/
namespace CM
open Spec

/-- C65.  What the reStructuredText renderer writes for a tree is the tree's pieces, each at the beginning of a line
after the indentation of its place. -/
theorem C65_rst_is_tree (ic : Str) (t : Tree) (out : Str) (hic : '\n' ∉ ic) (h : renderRst ic t = .ok out) :
    out = layout ic true (rstPieces ic 0 false t) :=
  renderRst_layout hic h

/-- C65.  The reStructuredText of a parsed document whose headings begin with text (the others raise, see
`C39_otherwise_raises`) is its tree. -/
theorem C65_parsed (smart : Bool) (ic : Str) (s : Str) (t : Tree) (hic : '\n' ∉ ic) (h : parse smart s = .ok t)
    (ht : HeadingsHaveText t) : renderRst ic t = .ok (layout ic true (rstPieces ic 0 false t)) := by
  obtain ⟨st, h1, -⟩ := C39_headings_partial smart s t ic 0 h ht
  have h2 : renderRst ic t = .ok st.buf := by unfold renderRst; rw [h1]; rfl
  rw [h2, ← C65_rst_is_tree ic t _ hic h2]

/-- C65.  With no indentation character the output is the pieces one after the other. -/
theorem C65_flat (t : Tree) (out : Str) (h : renderRst [] t = .ok out) : out = (rstPieces [] 0 false t).flatMap Prod.snd := by
  rw [C65_rst_is_tree [] t out (by simp) h]
  have key : ∀ (ps : List RPiece) (b : Bool), layout [] b ps = ps.flatMap Prod.snd := by
    intro ps
    induction ps with
    | nil => intro b; rfl
    | cons p ps ih =>
      obtain ⟨n, s⟩ := p
      intro b
      rw [layout, List.flatMap_cons]
      split
      · rename_i hs; subst hs; rw [ih]; rfl
      · rw [ih]
        have : (List.replicate n ([] : Str)).flatten = [] := by induction n <;> simp_all [List.replicate]
        rw [this]
        split <;> rfl
  exact key _ true

/-- A document with most kinds of nodes: this is its reStructuredText. -/
example : (parse false "a\n===\n\n2. `b` [c](d)\n   > *e*\\\n   > f\n\n```py x\nm\nn\n```\n".toList).toOption.map
      (fun t => ((renderRst [' '] t).toOption, layout [' '] true (rstPieces [' '] 0 false t))) =
    some (some ("\na\n#\n\n#. ``b`` `c <d>`_\n       *e*\n\n       f\n\n\n".toList ++ ".. code:: py\n\n    m\n    n\n".toList),
      "\na\n#\n\n#. ``b`` `c <d>`_\n       *e*\n\n       f\n\n\n".toList ++ ".. code:: py\n\n    m\n    n\n".toList) := by
  decide +kernel

/-! ### C66 -/

/-- C66 fails: in a list item two paragraphs are written without anything between them, so that two documents have the same
reStructuredText; the second line of a code block in a list item is not as deep as the first; and the underline of a heading is
shorter than its title. -/
theorem C66_counterexample :
    (parse false "- a\n\n  b\n".toList).toOption.bind (fun t => (renderRst [' '] t).toOption) = some "\n* ab\n".toList ∧
    (parse false "- ab\n".toList).toOption.bind (fun t => (renderRst [' '] t).toOption) = some "\n* ab\n".toList ∧
    (parse false "-     x\n      y\n".toList).toOption.bind (fun t => (renderRst [' '] t).toOption) =
      some "\n* \n  .. code::\n\n      x\n    y\n\n".toList ∧
    (parse false "# a *b*\n".toList).toOption.bind (fun t => (renderRst [' '] t).toOption) = some "\na *b*\n##\n".toList := by
  decide +kernel

theorem layout_newline (ic : Str) (n : Nat) (b : List RPiece) : ∀ (s : Bool) (a : List RPiece),
    layout ic s (a ++ (n, ['\n']) :: b) = layout ic s a ++ '\n' :: layout ic true b
  | s, [] => by simp [layout]
  | s, (m, w) :: a => by
    rw [List.cons_append, layout, layout]
    split
    · rw [layout_newline]; rfl
    · rw [layout_newline]; simp

theorem rstPiecesList_append (ic : Str) (n : Nat) (b : Bool) (us : List Tree) : ∀ ts : List Tree,
    rstPiecesList ic n b (ts ++ us) = rstPiecesList ic n b ts ++ rstPiecesList ic n b us
  | [] => rfl
  | t :: ts => by rw [List.cons_append, rstPiecesList, rstPiecesList, rstPiecesList_append, List.append_assoc]

theorem rstPieces_document {ic : Str} {d : NodeData} {cs : List Tree} (hd : d.t = .document) :
    rstPieces ic 0 false (.node d cs) = rstPiecesList ic 0 false cs := by
  have hi : (d.t == Kind.item) = false := by rw [hd]; decide
  have hj : inner d = 0 := by simp [inner, hd]
  rw [rstPieces, hi, hj]
  simp [rstElement, hd]

/-- C66 (partial: paragraphs at the top of the document).  Two paragraphs, one after the other, are written with an empty line
between them. -/
theorem C66_paragraphs_partial (ic : Str) (d p q : NodeData) (ps qs pre post : List Tree) (out : Str) (hic : '\n' ∉ ic)
    (hd : d.t = .document) (hp : p.t = .paragraph) (hq : q.t = .paragraph)
    (h : renderRst ic (.node d (pre ++ .node p ps :: .node q qs :: post)) = .ok out) :
    ∃ before after, out = before ++ '\n' :: layout ic true (rstPiecesList ic 0 false ps) ++ "\n\n".toList ++
      layout ic true (rstPiecesList ic 0 false qs) ++ '\n' :: after := by
  rw [C65_rst_is_tree ic _ _ hic h, rstPieces_document hd, rstPiecesList_append, rstPiecesList, rstPiecesList]
  have one : ∀ (e : NodeData) (es : List Tree), e.t = .paragraph →
      rstPieces ic 0 false (.node e es) = (0, ['\n']) :: (rstPiecesList ic 0 false es ++ [(0, ['\n'])]) := by
    intro e es he
    have hi : (e.t == Kind.item) = false := by rw [he]; decide
    have hj : inner e = 0 := by simp [inner, he]
    rw [rstPieces, hi, hj]
    simp [rstElement, he]
  rw [one p ps hp, one q qs hq]
  refine ⟨layout ic true (rstPiecesList ic 0 false pre), layout ic true (rstPiecesList ic 0 false post), ?_⟩
  simp only [List.cons_append, List.append_assoc, List.nil_append]
  rw [layout_newline, layout_newline, ← List.nil_append ((0, ['\n']) :: (rstPiecesList ic 0 false qs ++ _)), layout_newline, layout_newline]
  simp [layout]

/-- C66 (partial: code blocks at the top of the document).  Every line of the code is written after four indentation characters,
under the directive with the language. -/
theorem C66_code_partial (ic : Str) (d c : NodeData) (l : Str) (cs pre post : List Tree) (out : Str) (hic : '\n' ∉ ic)
    (hd : d.t = .document) (hc : c.t = .codeBlock) (hl : c.literal = some l)
    (h : renderRst ic (.node d (pre ++ .node c cs :: post)) = .ok out) :
    ∃ before after, out = before ++ '\n' :: codeHead c.info ++ "\n\n".toList ++ codeText ic (pyLines l) ++ '\n' :: after := by
  rw [C65_rst_is_tree ic _ _ hic h, rstPieces_document hd, rstPiecesList_append, rstPiecesList, rstPieces]
  simp only [rstElement, hc, hl, Option.getD_some]
  refine ⟨layout ic true (rstPiecesList ic 0 false pre), layout ic true (rstPiecesList ic 0 false post), ?_⟩
  have zero : ∀ s, layout ic true [(0, s)] = s := by
    intro s
    simp only [layout]
    split
    · rename_i hs; rw [hs]
    · simp
  simp only [List.cons_append, List.nil_append]
  rw [layout_newline, ← List.singleton_append (l := (0, ['\n']) :: _), layout_newline, zero, ← List.nil_append ((0, ['\n']) :: _),
    layout_newline, ← List.singleton_append (l := (0, ['\n']) :: _), layout_newline, zero]
  simp [layout]

/-- C66 (partial: headings whose title is one text).  The title is underlined by as many characters as it has. -/
theorem C66_heading_partial (ic : Str) (d e x : NodeData) (l : Str) (xs pre post : List Tree) (out : Str) (hic : '\n' ∉ ic)
    (hd : d.t = .document) (he : e.t = .heading) (hx : x.t = .text) (hl : x.literal = some l)
    (h : renderRst ic (.node d (pre ++ .node e [.node x xs] :: post)) = .ok out) :
    ∃ before after, out = before ++ '\n' :: l ++ '\n' :: List.replicate l.length (underlineChar e.level) ++ '\n' :: after := by
  have hi : (e.t == Kind.item) = false := by rw [he]; decide
  have hj : inner e = 0 := by simp [inner, he]
  rw [C65_rst_is_tree ic _ _ hic h, rstPieces_document hd, rstPiecesList_append, rstPiecesList, rstPieces, hi, hj]
  simp only [rstElement, he, rstPiecesList, rstPieces, hx, hl, Option.getD_some, List.head?_cons, Option.map_some, Option.bind_some, Tree.data]
  refine ⟨layout ic true (rstPiecesList ic 0 false pre), layout ic true (rstPiecesList ic 0 false post), ?_⟩
  have zero : ∀ s, layout ic true [(0, s)] = s := by
    intro s
    simp only [layout]
    split
    · rename_i hs; rw [hs]
    · simp
  simp only [List.cons_append, List.nil_append, List.append_nil, Nat.add_zero]
  rw [layout_newline, ← List.singleton_append (l := (0, ['\n']) :: _), layout_newline, zero,
    ← List.singleton_append (l := (0, ['\n']) :: _), layout_newline, zero]
  simp

/-- A document with a heading, two paragraphs and a code block at its top meets the hypotheses of the three theorems. -/
example : (parse false "## ab\n\nc *d*\n\ne\n\n    f\n     g\n".toList).toOption.bind
      (fun t => (renderRst [' '] t).toOption) =
    some "\nab\n**\n\nc *d*\n\ne\n\n.. code::\n\n    f\n     g\n".toList ∧
    (parse false "## ab\n\nc *d*\n\ne\n\n    f\n     g\n".toList).toOption.map
      (fun t => (t.data.t, t.children.map fun c => (c.data.t, c.data.literal, c.children.map (·.data.t)))) =
    some (.document, [(.heading, none, [.text]), (.paragraph, none, [.text, .emph]), (.paragraph, none, [.text]),
      (.codeBlock, some "f\n g\n".toList, [])]) := by decide +kernel

end CM

import Verif.Proofs.HtmlTree
import Verif.Props.Parsed
/-
C61: the HTML is the tree.
-/
namespace CM
open Spec

/-- C61.  Whatever the HTML renderer writes for a tree is the sequence of tags and texts of the tree's nodes, in order;
nothing is added but newlines where a line ends. -/
theorem C61_html_is_tree (o : HtmlOpts) (t : Tree) (html : Str) (h : renderHtml o t = .ok html) :
    Written [] (htmlPieces o (fun u => o.safe && potentiallyUnsafe u) false false false t) html :=
  renderHtml_written h

/-- C61.  Every parsed document is rendered, and its HTML is its tree. -/
theorem C61_parsed (smart : Bool) (o : HtmlOpts) (s : Str) (t : Tree) (h : parse smart s = .ok t) :
    ∃ html, toHtml smart o s = .ok html ∧
      Written [] (htmlPieces o (fun u => o.safe && potentiallyUnsafe u) false false false t) html := by
  obtain ⟨html, hr⟩ := C51_render_total smart o s t h
  exact ⟨html, by simp only [toHtml, h, bind, Except.bind, hr], C61_html_is_tree o t html hr⟩

/-- The fixed texts among pieces, one after the other. -/
def fixedText (ps : List HPiece) : Str := ps.flatMap fun
  | .text s => s
  | .brk => []

/-- C61.  Apart from newlines the HTML is determined by the tree. -/
theorem C61_but_newlines (o : HtmlOpts) (t : Tree) (html : Str) (h : renderHtml o t = .ok html) :
    html.filter (· != '\n') =
      (fixedText (htmlPieces o (fun u => o.safe && potentiallyUnsafe u) false false false t)).filter (· != '\n') := by
  have key : ∀ {p ps w}, Written p ps w → w.filter (· != '\n') = (fixedText ps).filter (· != '\n') := by
    intro p ps w h
    induction h with
    | nil => rfl
    | text h ih => simpa [fixedText] using ih
    | newline h ih => simpa [fixedText] using ih
    | stay _ h ih => simpa [fixedText] using ih
  exact key (C61_html_is_tree o t html h)

/-- An image in a tight list item, in a block quote, and raw HTML: the tree is rendered, and these are its texts. -/
example : (toHtml false {} "> 2) ![a *b*](c \"d\")\n\nx<i>\n".toList).toOption =
    some ("<blockquote>\n<ol start=\"2\">\n<li><img src=\"c\" alt=\"a b\"".toList ++
      " title=\"d\" /></li>\n</ol>\n</blockquote>\n<p>x<i></p>\n".toList) ∧
    (parse false "> 2) ![a *b*](c \"d\")\n\nx<i>\n".toList).toOption.map
      (fun t => fixedText (htmlPieces {} (fun _ => false) false false false t)) =
    some ("<blockquote><ol start=\"2\"><li><img src=\"c\" alt=\"a b\"".toList ++
      " title=\"d\" /></li></ol></blockquote><p>x<i></p>".toList) := by decide +kernel

end CM

import Verif.Proofs.RunIndented
import Verif.Proofs.RunLeaf2
import Verif.Proofs.RunSetext
import Verif.Proofs.RunHtml
import Verif.Proofs.RunList
import Verif.Proofs.Reads
/-
C57: the lines of a document are read as its blocks.
-/
namespace CM
open Spec

theorem quoted_one {ls qs : List Str} (h : Quoted ls qs) (hq : ∀ l ∈ qs, OneLine l) : ∀ l ∈ ls, OneLine l := by
  induction h with
  | nil => simp
  | @cons pre l ls qs _ _ _ ih =>
    intro x hx
    rcases List.mem_cons.1 hx with rfl | hx
    · exact fun c hc => hq (pre ++ x) List.mem_cons_self c (List.mem_append_right _ hc)
    · exact ih (fun l hl => hq l (List.mem_cons_of_mem _ hl)) x hx

theorem indented_text_one {w : Nat} {ls qs : List Str} (h : Indented w ls qs) (hq : ∀ l ∈ qs, OneLine l) : ∀ l ∈ ls, OneLine l := by
  induction h with
  | nil => simp
  | @text l ls qs _ _ _ ih =>
    intro x hx
    rcases List.mem_cons.1 hx with rfl | hx
    · exact fun c hc => hq _ List.mem_cons_self c (List.mem_append_right _ hc)
    · exact ih (fun l hl => hq l (List.mem_cons_of_mem _ hl)) x hx
  | @blank k ls qs _ ih =>
    intro x hx
    rcases List.mem_cons.1 hx with rfl | hx
    · exact fun c hc => by cases hc
    · exact ih (fun l hl => hq l (List.mem_cons_of_mem _ hl)) x hx

theorem item_text_one {it : Spec.Item} {ty : ListType} {b dl : Option Char} (h : it.Ok ty b dl) (hq : ∀ l ∈ it.lines, OneLine l) :
    ∀ l ∈ it.text, OneLine l := by
  obtain ⟨c, r, ls, qs, e1, e2, -, -, -, -, hi⟩ := h.lines
  rw [e1]
  rw [e2] at hq
  intro x hx
  rcases List.mem_cons.1 hx with rfl | hx
  · exact fun c hc => hq _ List.mem_cons_self c (List.mem_append_right _ hc)
  · exact indented_text_one hi (fun l hl => hq l (List.mem_cons_of_mem _ hl)) x hx

/-- The parser reads the lines of a document as its blocks. -/
theorem doc_runs {sm : Reading} {o : HtmlOpts} (ho : o.sourcepos = false) {I : Str → Str → Prop} (hI : InlineHtml sm o I) {ls : List Str}
    {bs : List Blk} {g : Bool} (h : Doc o.safe I ls bs g) : (∀ l ∈ ls, OneLine l) → Runs sm o ls bs g := by
  induction h with
  | para h1 h2 h3 h4 => exact fun hone => runs_para ho hI h1 h2 h3 h4 hone
  | heading h1 h2 h3 h4 h5 h6 h7 => exact fun hone => runs_heading ho hI h1 h2 h3 h4 h5 h6 h7 hone
  | rule h => exact fun hone => runs_rule ho h hone
  | setext h1 h2 h3 => exact fun hone => runs_setext ho hI h1 h2 h3 hone
  | fenced h1 h2 h3 h4 => exact fun hone => runs_fenced ho h1 h2 h3 h4 hone
  | html h1 h2 h3 h4 h5 => exact fun hone => runs_rawhtml ho h1 h2 h3 h4 h5 hone
  | tag h1 h2 h3 h4 => exact fun hone => runs_tag ho h1 h2 h3 h4 hone
  | indented h1 h2 h3 => exact fun hone => runs_indented ho h1 h2 h3 hone
  | quote _ hq ih => exact fun hone => runs_quote ho (ih (quoted_one hq hone)) hq
  | list hd hok hleft ih =>
    refine fun hone => runs_list ho (fun it hit => ih it hit (item_text_one (hok it hit) fun l hl => hone l ?_)) hok hleft
    rcases List.mem_cons.1 hit with rfl | hit
    · exact List.mem_append_left _ hl
    · exact List.mem_append_right _ (List.mem_flatMap.2 ⟨it, hit, List.mem_append_right _ hl⟩)
  | join _ _ hx hnul hfol ih1 ih2 =>
    exact fun hone => runs_join ho (ih1 fun l hl => hone l (by simp [hl])) (ih2 fun l hl => hone l (List.mem_append_right _ hl)) hx hnul hfol

/-- The blocks of a text. -/
theorem runs_blocks {sm : Reading} {o : HtmlOpts} {ls : List Str} {bs : List Blk} {g : Bool} (h : Runs sm o ls bs g) {s : Str}
    {n : Nat} (hs : TextLines s (ls ++ List.replicate n [])) : ∃ r d cs, blockPhase PState.init s = .ok r ∧ r.refmap = [] ∧
      r.doc = some (.node d cs) ∧ d.t = .document ∧ Shows sm o cs bs := by
  obtain ⟨p, e1, e2, P, b, cs, fs, a⟩ := h.run PState.init n
  have hfin := finalizeAll_closeN P.length a.close (by simp [a.spine]) rfl a.doc
  have hlen : p.lineNumber = (ls ++ List.replicate n ([] : Str)).length := by rw [e2]; simp
  rw [hlen] at hfin
  have hd : (closeData (ls ++ List.replicate n ([] : Str)).length p.lastLineLength b.data).t = .document := by
    simpa [closeData] using a.doc
  have hb : blockPhase PState.init s = finalizeAll (ls ++ List.replicate n ([] : Str)).length (P.length + 2) p := by
    unfold blockPhase
    simp only [inputLines_of hs, e1, bind, Except.bind]
    rw [show p.spine.length = P.length + 1 by simp [a.spine]]
  exact ⟨_, _, cs, hb.trans hfin, a.refmap, rfl, hd, a.shows⟩

theorem runs_html {sm : Bool} {o : HtmlOpts} (ho : o.sourcepos = false) {ls : List Str} {bs : List Blk} {g : Bool} (h : Runs (sm, []) o ls bs g) {s : Str}
    {n : Nat} (hs : TextLines s (ls ++ List.replicate n [])) : toHtml sm o s = .ok (docHtml bs) := by
  obtain ⟨r, d, cs, e1, e2, e3, hd, ys, hy, hr⟩ := runs_blocks h hs
  have hy : processInlinesList sm [] cs = .ok ys := hy
  simp only [toHtml, parse_blocks e1 e3, e2]
  simp only [processInlines, hd, hy, bind, Except.bind, pure, Except.pure]
  exact rends_doc ho hd hr

theorem doc_html {sm : Bool} {o : HtmlOpts} (ho : o.sourcepos = false) {I : Str → Str → Prop} (hI : InlineHtml (sm, []) o I) {ls : List Str}
    {bs : List Blk} {g : Bool} (h : Doc o.safe I ls bs g) {s : Str} {n : Nat} (hs : TextLines s (ls ++ List.replicate n [])) :
    toHtml sm o s = .ok (docHtml bs) :=
  runs_html ho (doc_runs ho hI h fun l hl => textLines_oneLine hs l (List.mem_append_left _ hl)) hs

end CM

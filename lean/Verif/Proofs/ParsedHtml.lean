import Verif.Proofs.History
import Verif.Props.HtmlSafe
/-
Parsed documents meet the conditions of the rendering theorems.
-/
set_option linter.unusedVariables false
namespace CM
open Spec

mutual
theorem allNodes_of {P : NodeData → List NodeData → Prop} {Q : NodeData → Prop} (h : ∀ d ks, P d ks → Q d) :
    ∀ t : Tree, EveryNode P t → AllNodes Q t
  | .node d cs => fun hp => ⟨h d _ hp.1, allNodesList_of h cs hp.2⟩
theorem allNodesList_of {P : NodeData → List NodeData → Prop} {Q : NodeData → Prop} (h : ∀ d ks, P d ks → Q d) :
    ∀ ts : List Tree, EveryNodeList P ts → AllNodesList Q ts
  | [] => fun _ => trivial
  | t :: ts => fun hp => ⟨allNodes_of h t hp.1, allNodesList_of h ts hp.2⟩
end

theorem parsed_renderable {T : Str → Prop} {G : Char → Prop} {o : HtmlOpts} {d : NodeData} {ks : List NodeData}
    (h : NodeOk T G d ks) (hr : o.safe = false → d.t ≠ .htmlInline ∧ d.t ≠ .htmlBlock) :
    RenderableNode True o d := by
  have block : DataOk T G d → RenderableNode True o d := by
    intro hd
    refine ⟨?_, ?_, hd.level, hr, ?_⟩
    · intro h; have := hd.kind; rw [h] at this; revert this; decide
    · intro h; have := hd.kind; rw [h] at this; revert this; decide
    · intro _ _ u hu; rw [hd.clean.1] at hu; cases hu
  cases h with
  | block hb => exact block hb.data
  | leaf hb => exact block hb.data
  | inline hi =>
    have key : ∀ u, Ascii (normalizeUri u) := by
      intro u c hc
      have := normalizeUri_ascii u c hc; omega
    cases hi <;> refine ⟨(fun h => by cases h), (fun h => by cases h), (fun h => by cases h), hr, ?_⟩ <;> intro _ _ u hu <;>
      simp [textNode, codeNode, htmlInlineNode, mkNode, linkNode, Tree.data] at hu <;> subst hu <;> exact key _

theorem toHtml_ok {smart : Bool} {o : HtmlOpts} {s out : Str} (h : toHtml smart o s = .ok out) :
    ∃ t, parse smart s = .ok t ∧ renderHtml o t = .ok out := by
  simp only [toHtml, bind, Except.bind] at h
  cases hp : parse smart s with
  | error e => rw [hp] at h; cases h
  | ok t => rw [hp] at h; exact ⟨t, rfl, h⟩

theorem parsed_safe {smart : Bool} {o : HtmlOpts} {s : Str} {t : Tree} (hs : o.safe = true) (h : parse smart s = .ok t) :
    AllNodes (RenderableNode True o) t :=
  allNodes_of (fun d ks hn => parsed_renderable hn (by rw [hs]; intro h; cases h)) t (parse_doc h).2.2.2

mutual
theorem AllNodes.mono {P Q : NodeData → Prop} (h : ∀ d, P d → Q d) : ∀ t : Tree, AllNodes P t → AllNodes Q t
  | .node d cs => fun hp => ⟨h d hp.1, AllNodesList.mono h cs hp.2⟩
theorem AllNodesList.mono {P Q : NodeData → Prop} (h : ∀ d, P d → Q d) : ∀ ts : List Tree, AllNodesList P ts → AllNodesList Q ts
  | [] => fun _ => trivial
  | t :: ts => fun hp => ⟨AllNodes.mono h t hp.1, AllNodesList.mono h ts hp.2⟩
end

mutual
theorem AllNodes.and {P Q : NodeData → Prop} : ∀ {t : Tree}, AllNodes (fun d => P d → Q d) t → AllNodes P t → AllNodes Q t
  | .node _ _ => fun h hp => ⟨h.1 hp.1, AllNodesList.and h.2 hp.2⟩
theorem AllNodesList.and {P Q : NodeData → Prop} : ∀ {ts : List Tree}, AllNodesList (fun d => P d → Q d) ts →
    AllNodesList P ts → AllNodesList Q ts
  | [] => fun _ _ => trivial
  | _ :: _ => fun h hp => ⟨AllNodes.and h.1 hp.1, AllNodesList.and h.2 hp.2⟩
end

end CM

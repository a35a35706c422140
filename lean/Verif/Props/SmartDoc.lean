import Verif.Proofs.SmartHtml
import Verif.Props.Phrase
/-
C60: the option `smart` changes only quotation marks, dashes and dots, in text.  The specification is
`Verif/Spec/SmartText.lean`.
-/
namespace CM
open Spec

/-! ### The claim is false: an opening quotation mark changes which emphasis is found -/

theorem smartHtml_count {x y : Str} (h : SmartHtml x y) : y.count '<' = x.count '<' := by
  induction h with
  | nil => rfl
  | @step p q x y hp _ ih =>
    rw [List.count_append, List.count_append, ih]
    congr 1
    cases hp with
    | quot c hc => rcases hc with rfl | rfl <;> decide
    | text hp =>
      cases hp with
      | same c => rfl
      | dots => decide
      | dashes n a b _ _ =>
        rw [List.count_append]
        simp [List.count_replicate]
      | single c hc => rcases hc with rfl | rfl <;> decide
      | double c hc => rcases hc with rfl | rfl <;> decide

/-- With `smart`, `"**foo*bar**"` has no strong emphasis; without it, it has. -/
theorem C60_smart_changes_structure :
    (toHtml false {} "\"**foo*bar**\"".toList).toOption = some "<p>&quot;<strong>foo*bar</strong>&quot;</p>\n".toList ∧
    (toHtml true {} "\"**foo*bar**\"".toList).toOption = some "<p>“**foo*bar**”</p>\n".toList ∧
    ¬ ∃ t u, parse false "\"**foo*bar**\"".toList = .ok t ∧ parse true "\"**foo*bar**\"".toList = .ok u ∧ SmartTree t u := by
  have h1 : (toHtml false {} "\"**foo*bar**\"".toList).toOption = some "<p>&quot;<strong>foo*bar</strong>&quot;</p>\n".toList := by
    decide +kernel
  have h2 : (toHtml true {} "\"**foo*bar**\"".toList).toOption = some "<p>“**foo*bar**”</p>\n".toList := by decide +kernel
  refine ⟨h1, h2, ?_⟩
  rintro ⟨t, u, e1, e2, h⟩
  unfold toHtml at h1 h2
  rw [e1] at h1
  rw [e2] at h2
  simp only [bind, Except.bind] at h1 h2
  rcases renderHtml_smart {} h with ⟨a, b, e3, e4, h3⟩ | ⟨e, e3, e4⟩
  · rw [e3] at h1
    rw [e4] at h2
    cases h1
    cases h2
    exact absurd (smartHtml_count h3) (by decide)
  · rw [e3] at h1
    cases h1

/-! ### Where it is true -/

/-- Without quotation marks, or with no run of `*` or `_` longer than one, or with no run that can both open and
close emphasis: the two documents are the same except for smart punctuation in the text (and if one cannot be
parsed, neither can the other).  Missing: texts such as `"**foo*bar**"`, for which the claim is false, and other
texts with quotation marks where a run of several `*` or `_` can open and close. -/
theorem C60_smart_only_text_partial (s : Str) (h : NoQuotes s ∨ SingleMarks s ∨ OneSidedMarks s) :
    (∃ t u, parse false s = .ok t ∧ parse true s = .ok u ∧ SmartTree t u) ∨
      ∃ e, parse false s = .error e ∧ parse true s = .error e := by
  have : Both (fun u v => SmartTree v u) (parse true s) (parse false s) := by
    rcases h with h | h | h
    · exact parse_noQuotes h
    · exact parse_singleMarks h
    · exact parse_oneSided h
  exact this.swap

/-- The same for the HTML. -/
theorem C60_smart_html_partial (o : HtmlOpts) (s : Str) (h : NoQuotes s ∨ SingleMarks s ∨ OneSidedMarks s) :
    (∃ x y, toHtml false o s = .ok x ∧ toHtml true o s = .ok y ∧ SmartHtml x y) ∨
      ∃ e, toHtml false o s = .error e ∧ toHtml true o s = .error e := by
  refine toHtml_smart o ?_
  rcases h with h | h | h
  · exact parse_noQuotes h
  · exact parse_singleMarks h
  · exact parse_oneSided h

/-! ### Examples -/

/-- A check for `OneSidedMarks`. -/
def oneSidedAt : Str → Bool
  | b :: c :: r =>
    if c = '*' ∨ c = '_' then
      (b == c || match r.dropWhile (· == c) with
        | a :: _ => !decide (CanOpen (isPySpace · = true) (isPunct · = true) c (some b) (some a) ∧
            CanClose (isPySpace · = true) (isPunct · = true) c (some b) (some a))
        | [] => true) && !(b == '\\' && r.head? == some c)
    else true
  | _ => true

def oneSidedCheck : Str → Bool
  | [] => true
  | c :: s => oneSidedAt (c :: s) && oneSidedCheck s

theorem oneSidedCheck_infix {w : Str} (hw : w ≠ []) : ∀ {s : Str}, oneSidedCheck s = true → w <:+: s →
    ∃ v, oneSidedAt (w ++ v) = true
  | [], _, hi => absurd (List.infix_nil.1 hi) hw
  | c :: s, h, hi => by
    rw [oneSidedCheck, Bool.and_eq_true] at h
    rcases List.infix_cons_iff.1 hi with ⟨v, hv⟩ | hi
    · exact ⟨v, by rw [hv]; exact h.1⟩
    · exact oneSidedCheck_infix hw h.2 hi

theorem oneSided_of_check {s : Str} (h : oneSidedCheck s = true) : OneSidedMarks s := by
  refine ⟨?_, ?_, ?_⟩
  · intro c b a n hc hb ha hn ho hcl hi
    obtain ⟨v, this⟩ := oneSidedCheck_infix (by simp) h hi
    obtain ⟨k, rfl⟩ : ∃ k, n = k + 1 := ⟨n - 1, by omega⟩
    have hd : ((List.replicate k c ++ [a]) ++ v).dropWhile (· == c) = a :: v := by
      rw [List.append_assoc, List.dropWhile_append_of_pos (by simp [List.mem_replicate])]
      simp [ha]
    have he : b :: List.replicate (k + 1) c ++ [a] ++ v = b :: c :: ((List.replicate k c ++ [a]) ++ v) := by
      simp [List.replicate_succ]
    rw [he] at this
    simp only [oneSidedAt, if_pos hc, hd] at this
    simp [hb, ho, hcl] at this
  · intro hi
    obtain ⟨v, this⟩ := oneSidedCheck_infix (by simp) h hi
    simp [oneSidedAt] at this
  · intro hi
    obtain ⟨v, this⟩ := oneSidedCheck_infix (by simp) h hi
    simp [oneSidedAt] at this

/-- A text with quotation marks, strong and nested emphasis. -/
def smartSample : Str := "She said: \"**it's *so* late**\" -- and...\n\n> '***yes***' ---".toList

example : OneSidedMarks smartSample := oneSided_of_check (by decide +kernel)
example : ¬ NoQuotes smartSample ∧ ¬ SingleMarks smartSample :=
  ⟨fun h => absurd h.2 (by decide +kernel), fun h => absurd h.1 (by decide +kernel)⟩
example : (toHtml true {} smartSample).toOption = some
    ("<p>She said: “<strong>it’s <em>so</em> late</strong>” – and…</p>\n".toList ++
      "<blockquote>\n<p>‘<em><strong>yes</strong></em>’ —</p>\n</blockquote>\n".toList) := by decide +kernel
example : SingleMarks "\"a*b*\" 'c_d'".toList := ⟨by decide +kernel, by decide +kernel⟩
example : NoQuotes "**foo*bar** --".toList := ⟨by decide +kernel, by decide +kernel⟩

end CM

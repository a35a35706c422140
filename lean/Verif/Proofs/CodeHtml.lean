import Verif.Proofs.IndentedRun
import Verif.Proofs.Unescape
import Verif.Proofs.Compose
/-
Rendering a document that holds one code block.
-/
set_option linter.unusedVariables false
namespace CM
open Spec

theorem unescapeString_plain : ∀ s : Str, '\\' ∉ s → '&' ∉ s → unescapeString s = s
  | [], _, _ => rfl
  | c :: s, h1, h2 => by
    rw [unescapeString_cons (fun h => h1 (by simp [h])) (fun h => h2 (by simp [h])),
      unescapeString_plain s (fun h => h1 (by simp [h])) (fun h => h2 (by simp [h]))]

theorem splitWords_go_word : ∀ (w cur r : Str), (∀ c ∈ w, isPySpace c = false) → (cur ≠ [] ∨ w ≠ []) →
    (∀ c, r.head? = some c → isPySpace c = true) → ∃ ws, splitWords.go cur (w ++ r) = (cur.reverse ++ w) :: ws
  | [], cur, r, _, hne, hr => by
    have hc : cur ≠ [] := by rcases hne with h | h; exact h; exact absurd rfl h
    have hc' : cur.isEmpty = false := by simpa using hc
    cases r with
    | nil => exact ⟨[], by simp [splitWords.go, hc']⟩
    | cons c r =>
      have := hr c rfl
      exact ⟨splitWords.go [] r, by simp [splitWords.go, hc', this]⟩
  | c :: w, cur, r, hw, _, hr => by
    obtain ⟨ws, h⟩ := splitWords_go_word w (c :: cur) r (fun x hx => hw x (by simp [hx])) (Or.inl (by simp)) hr
    refine ⟨ws, ?_⟩
    have := hw c (by simp)
    simp [splitWords.go, this, h]

theorem splitWords_word {w r : Str} (hw : ∀ c ∈ w, isPySpace c = false) (hne : w ≠ [])
    (hr : ∀ c, r.head? = some c → isPySpace c = true) : ∃ ws, splitWords (w ++ r) = w :: ws := by
  obtain ⟨ws, h⟩ := splitWords_go_word w [] r hw (Or.inr hne) hr
  exact ⟨ws, h⟩

theorem rstrip_prefix (p : Char → Bool) (y : Str) : rstripBy p y <+: y := by
  have := List.dropWhile_suffix (l := y.reverse) p
  have := List.reverse_prefix.2 this
  simpa [rstripBy] using this

theorem rstrip_word {w r : Str} (hw : ∀ c ∈ w, isPySpace c = false) (hne : w ≠ [])
    (hr : ∀ c, r.head? = some c → isPySpace c = true) : ∃ r', rstripBy isPySpace (w ++ r) = w ++ r' ∧
      r' <+: r := by
  unfold rstripBy
  rw [List.reverse_append]
  cases hd : r.reverse.dropWhile isPySpace with
  | nil =>
    have hall := List.dropWhile_eq_nil_iff.1 hd
    rw [List.dropWhile_append_of_pos hall]
    refine ⟨[], ?_, by simp⟩
    have hwr : w.reverse.dropWhile isPySpace = w.reverse := by
      cases hq : w.reverse with
      | nil => rfl
      | cons x xs =>
        have : x ∈ w := by
          have : x ∈ w.reverse := by rw [hq]; simp
          simpa using this
        simp [hw x this]
    rw [hwr]; simp
  | cons x xs =>
    rw [List.dropWhile_append]
    simp only [hd, List.isEmpty_cons, Bool.false_eq_true, if_false]
    refine ⟨(x :: xs).reverse, by simp, ?_⟩
    have := rstrip_prefix isPySpace r
    rwa [rstripBy, hd] at this

/-- The class attribute of a code block whose info string starts with the word `w`. -/
theorem codeClass_word {k : Nat} {w r : Str} (hw : ∀ c ∈ w, isPySpace c = false) (hne : w ≠ [])
    (hr : ∀ c, r.head? = some c → isPySpace c = true) (h1 : '\\' ∉ w ++ r) (h2 : '&' ∉ w ++ r) :
    codeClass (some (unescapeString (strip (List.replicate k ' ' ++ (w ++ r))))) =
      [(lit "class", lit "language-" ++ escapeXml w)] := by
  have hs : lstripBy isPySpace (List.replicate k ' ' ++ (w ++ r)) = w ++ r := by
    unfold lstripBy
    rw [List.dropWhile_append_of_pos (fun c hc => by rw [List.eq_of_mem_replicate hc]; rfl)]
    cases w with
    | nil => exact absurd rfl hne
    | cons c w => simp [hw c (by simp)]
  obtain ⟨r', e1, hp⟩ := rstrip_word hw hne hr
  have hr' : ∀ c, r'.head? = some c → isPySpace c = true := by
    intro c hc
    apply hr
    obtain ⟨q, rfl⟩ := hp
    cases r' with
    | nil => cases hc
    | cons x xs => simpa using hc
  have hsub : ∀ c ∈ w ++ r', c ∈ w ++ r := by
    intro c hc
    rcases List.mem_append.1 hc with h | h
    · exact List.mem_append_left _ h
    · exact List.mem_append_right _ (hp.subset h)
  obtain ⟨ws, e2⟩ := splitWords_word hw hne hr'
  rw [strip, hs, e1, unescapeString_plain _ (fun h => h1 (hsub _ h)) (fun h => h2 (hsub _ h)), codeClass]
  simp only [e2]

theorem codeClass_blank {k : Nat} :
    codeClass (some (unescapeString (strip (List.replicate k ' ')))) = [] := by
  have hs : lstripBy isPySpace (List.replicate k ' ') = [] :=
    List.dropWhile_eq_nil_iff.2 (fun c hc => by rw [List.eq_of_mem_replicate hc]; rfl)
  rw [strip, hs]
  rfl

/-- HTML of a document with one code block. -/
theorem render_code {o : HtmlOpts} {d e : NodeData} {body : Str} (hd : d.t = .document) (he : e.t = .codeBlock)
    (hb : e.literal = some body) (ho : o.sourcepos = false) :
    renderHtml o (.node d [.node e []]) = .ok (lit "<pre>" ++ HState.tagText (lit "code") (codeClass e.info) false ++
      escapeXml body ++ lit "</code></pre>\n") := by
  unfold renderHtml
  rw [renderWith_document _ _ _ hd]
  simp [eventsList, events, he, isContainer, runEvents, htmlEvent, htmlCodeBlock, htmlAttrs, ho, hb, HState.cr, HState.tag,
    HState.out, escapeXmlOpt, HState.lit, HState.tagText, bind, Except.bind, pure, Except.pure, lit]

theorem noNul_none {l : Str} (h : Char.ofNat 0 ∉ l) : noNul l = l := by
  unfold noNul
  refine (List.map_congr_left (g := id) ?_).trans (List.map_id _)
  intro c hc
  have h0 : ¬ c = Char.ofNat 0 := by rintro rfl; exact h hc
  simp only [if_neg h0, id]

/-- What a closing fence is made of. -/
theorem closesFence_chars {c : Char} {n : Nat} {l : Str} (h : ClosesFence c n l) :
    (∀ x ∈ l, x = c ∨ x = ' ') ∧ n ≤ l.count c := by
  obtain ⟨k, m, r, _, hm, rfl⟩ := h
  constructor
  · intro x hx
    simp only [List.mem_append, List.mem_replicate] at hx
    rcases hx with hx | hx | hx
    · exact Or.inr hx.2
    · exact Or.inl hx.2
    · exact Or.inr hx.2
  · rw [List.count_append, List.count_append, List.count_replicate_self]
    omega

end CM

import Verif.Spec.Quotes
/-
Emphasis with any runs of delimiters (C75): the procedure of the specification, on a list of what the text is made of.  There
are no identifiers of nodes and no lower bounds for the search in it.
-/
namespace Spec
open CM

/-- What a text is made of: inline content, and runs of `*` or `_`, for which we know if they can open and close emphasis. -/
inductive Chunk where
  | span (x : Span)
  | run (c : Char) (n : Nat) (opens closes : Bool)

/-- A run that may open emphasis: of `length` characters `c`, `n` are left, and `inner` comes after it. -/
structure Opener where
  c : Char
  n : Nat
  length : Nat
  closes : Bool
  inner : List Span

/-- The rule about multiples of three: if the opener can also close or the closer (of `n` characters) can also open, the sum of
the lengths is not a multiple of three unless both are. -/
def Opener.kept (f : Opener) (n : Nat) (opens : Bool) : Bool :=
  (f.closes || opens) && (f.length + n) % 3 == 0 && !(f.length % 3 == 0 && n % 3 == 0)

/-- What has been read: the openers, the nearest first, and what comes before all of them. -/
structure Halfway where
  openers : List Opener
  base : List Span

/-- More content. -/
def Halfway.put (ys : List Span) : Halfway → Halfway
  | ⟨[], base⟩ => ⟨[], base ++ ys⟩
  | ⟨f :: r, base⟩ => ⟨{ f with inner := f.inner ++ ys } :: r, base⟩

/-- The nearest opener for a closer of `n` characters `c`, and the openers below it.  Those above become text. -/
def takeOpener (c : Char) (n : Nat) (opens : Bool) : List Opener → Option (List Span × Opener × List Opener)
  | [] => none
  | f :: r =>
    if f.c = c ∧ f.kept n opens = false then some ([], f, r)
    else match takeOpener c n opens r with
      | none => none
      | some (above, g, r') => some (above ++ .text (List.replicate f.n f.c) :: f.inner, g, r')

/-- Of a run of `n` characters `c`, `m` are left.  They close emphasis: two at a time if there are two on both sides, else one, as
long as there is an opener.  How many are left in the end.  (First argument: at most so often.) -/
def closeRun (c : Char) (n : Nat) (opens : Bool) : Nat → Nat → Halfway → Halfway × Nat
  | 0, m, st => (st, m)
  | k + 1, m, st =>
    if m = 0 then (st, 0)
    else match takeOpener c n opens st.openers with
      | none => (st, m)
      | some (above, f, r) =>
        if 2 ≤ m ∧ 2 ≤ f.n then
          closeRun c n opens k (m - 2) (if f.n = 2 then Halfway.put [.strong (f.inner ++ above)] ⟨r, st.base⟩
            else ⟨{ f with n := f.n - 2, inner := [.strong (f.inner ++ above)] } :: r, st.base⟩)
        else
          closeRun c n opens k (m - 1) (if f.n = 1 then Halfway.put [.emph (f.inner ++ above)] ⟨r, st.base⟩
            else ⟨{ f with n := f.n - 1, inner := [.emph (f.inner ++ above)] } :: r, st.base⟩)

/-- What a run of `n` characters becomes of which `m` did not close anything. -/
def leaveRun (c : Char) (n m : Nat) (opens closes : Bool) (st : Halfway) : Halfway :=
  if m = 0 then st
  else if opens then ⟨⟨c, m, n, closes, []⟩ :: st.openers, st.base⟩
  else st.put [.text (List.replicate m c)]

/-- The next part of the text. -/
def readChunk (st : Halfway) : Chunk → Halfway
  | .span x => st.put [x]
  | .run c n opens closes =>
    if closes then leaveRun c n (closeRun c n opens n n st).2 opens closes (closeRun c n opens n n st).1
    else leaveRun c n n opens closes st

/-- At the end, openers are text. -/
def unopened : List Opener → List Span → List Span
  | [], base => base
  | f :: r, base => unopened r base ++ .text (List.replicate f.n f.c) :: f.inner

/-- The content of the text. -/
def emphasised (ps : List Chunk) : List Span := unopened (ps.foldl readChunk ⟨[], []⟩).openers (ps.foldl readChunk ⟨[], []⟩).base

/-- The rule about multiples of three keeps no opener and closer from matching. -/
def NoThrees (ps : List Chunk) : Prop := ∀ c n m cl o, .run c n true cl ∈ ps → .run c m o true ∈ ps → cl = true ∨ o = true →
  (n + m) % 3 = 0 → m % 3 = 0

/-- All runs are of the same character, and every run can open or close emphasis. -/
def OneKind (ps : List Chunk) : Prop := ∀ c n o cl d m o' cl', .run c n o cl ∈ ps → .run d m o' cl' ∈ ps → c = d ∧ (o = true ∨ cl = true)

/-- The condition under which the code does what the specification says: with `one`, `OneKind`, else `NoThrees`. -/
def Fair (one : Bool) (ps : List Chunk) : Prop := if one then OneKind ps else NoThrees ps

/-- `Chunks smart one refs b t k ps`: between the text `b` and the rest `k`, the text `t` is made of `ps`. -/
inductive Chunks (smart one : Bool) (refs : Str → Option RefDef) : Str → Str → Str → List Chunk → Prop
  | nil {b k : Str} : Chunks smart one refs b [] k []
  /-- Anything of the grammar `Atom`: text, escapes, entities, code spans, raw HTML and so on. -/
  | atom {b t k : Str} {xs : List Span} : Atom smart t k xs → Chunks smart one refs b t k (xs.map .span)
  /-- Anything of the grammar `Phrase`. -/
  | phrase {b t k : Str} {xs : List Span} : one = false → Phrase smart refs ['*', '_'] b t k xs → Chunks smart one refs b t k (xs.map .span)
  /-- A run of delimiters. -/
  | run {b k : Str} {n : Nat} {c : Char} {o cl : Bool} : 1 ≤ n → c = '*' ∨ c = '_' → k.head? ≠ some c →
      (o = true ↔ CanOpen (isPySpace · = true) (isPunct · = true) c b.getLast? k.head?) →
      (cl = true ↔ CanClose (isPySpace · = true) (isPunct · = true) c b.getLast? k.head?) →
      Chunks smart one refs b (List.replicate n c) k [.run c n o cl]
  | seq {b t u k : Str} {ps qs : List Chunk} : Chunks smart one refs b t (u ++ k) ps → Chunks smart one refs (b ++ t) u k qs →
      Chunks smart one refs b (t ++ u) k (ps ++ qs)
  /-- A link or an image, with any runs in its text: these are for themselves.  A link text has no links in it. -/
  | link {b x w k dest title : Str} {image : Bool} {ps : List Chunk} :
      Chunks smart one refs (b ++ opening image) x (']' :: (w ++ k)) ps → Fair one ps → Target refs x w k dest title →
      (image = false → anyLink (emphasised ps) = false) →
      Chunks smart one refs b (opening image ++ (x ++ ']' :: w)) k [.span (if image then .image dest title (emphasised ps) else .link dest title (emphasised ps))]
  /-- Brackets that make no link (see `Phrase`), with any runs between them. -/
  | brackets {b x k : Str} {image : Bool} {ps : List Chunk} :
      Chunks smart one refs (b ++ opening image) x (']' :: k) ps →
      (image = false ∧ anyLink (emphasised ps) = true ∨ k.head? ≠ some '(' ∧ k.head? ≠ some '[' ∧
        refs (normalizeReference ('[' :: (x ++ [']']))) = none) →
      Chunks smart one refs b (opening image ++ (x ++ [']'])) k (.span (.text (opening image)) :: (ps ++ [.span (.text [']'])]))

/-- `h` is the HTML of the text `t`. -/
def ChunksHtml (smart : Bool) (o : HtmlOpts) (refs : Str → Option RefDef) (t h : Str) : Prop :=
  ∃ one ps, Chunks smart one refs [] t [] ps ∧ Fair one ps ∧ h = spansHtml o.safe o.softbreak (emphasised ps)

/-! For a line of ordinary characters, `*` and `_`, everything can be computed. -/

instance {w p : Char → Prop} [DecidablePred w] [DecidablePred p] (c : Char) (a b : Option Char) : Decidable (CanOpen w p c a b) := by
  unfold CanOpen; infer_instance
instance {w p : Char → Prop} [DecidablePred w] [DecidablePred p] (c : Char) (a b : Option Char) : Decidable (CanClose w p c a b) := by
  unfold CanClose; infer_instance

/-- What a text after the character `before` is made of.  (First argument: at least the length of the text.) -/
def chunksOf (smart : Bool) : Nat → Option Char → Str → List Chunk
  | 0, _, _ => []
  | _, _, [] => []
  | k + 1, before, c :: r =>
    if c = '*' ∨ c = '_' then
      .run c ((r.takeWhile (· = c)).length + 1)
        (decide (CanOpen (isPySpace · = true) (isPunct · = true) c before (r.dropWhile (· = c)).head?))
        (decide (CanClose (isPySpace · = true) (isPunct · = true) c before (r.dropWhile (· = c)).head?)) ::
        chunksOf smart k (some c) (r.dropWhile (· = c))
    else
      .span (.text (typeset smart ((c :: r).takeWhile fun x => decide (Ordinary x)))) ::
        chunksOf smart k (((c :: r).takeWhile fun x => decide (Ordinary x)).getLast?) ((c :: r).dropWhile fun x => decide (Ordinary x))

/-- `NoThrees` for two parts. -/
def noThree : Chunk → Chunk → Bool
  | .run c n true cl, .run d m o true => !(c == d && (cl || o) && (n + m) % 3 == 0) || m % 3 == 0
  | _, _ => true

instance (ps : List Chunk) : Decidable (NoThrees ps) :=
  decidable_of_iff (∀ p ∈ ps, ∀ q ∈ ps, noThree p q = true) (by
    constructor
    · intro h c n m cl o h1 h2 h3 h4
      have := h _ h1 _ h2
      rcases h3 with rfl | rfl <;> simpa [noThree, h4] using this
    · intro h p hp q hq
      unfold noThree
      split
      · rename_i c n cl d m o
        by_cases hc : c = d
        · subst hc
          by_cases h3 : cl = true ∨ o = true
          · by_cases h4 : (n + m) % 3 = 0
            · simp [h _ _ _ _ _ hp hq h3 h4]
            · simp [h4]
          · simp only [not_or, Bool.not_eq_true] at h3
            simp [h3]
        · simp [hc]
      · rfl)

/-- `OneKind` for two parts. -/
def sameKind : Chunk → Chunk → Bool
  | .run c _ o cl, .run d _ _ _ => c == d && (o || cl)
  | _, _ => true

instance (ps : List Chunk) : Decidable (OneKind ps) :=
  decidable_of_iff (∀ p ∈ ps, ∀ q ∈ ps, sameKind p q = true) (by
    constructor
    · intro h c n o cl d m o' cl' h1 h2
      simpa [sameKind] using h _ h1 _ h2
    · intro h p hp q hq
      unfold sameKind
      split
      · simpa using h _ _ _ _ _ _ _ _ hp hq
      · rfl)

instance (one : Bool) (ps : List Chunk) : Decidable (Fair one ps) := by unfold Fair; infer_instance

end Spec

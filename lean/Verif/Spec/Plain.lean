import Verif.Model.Basic
/-!
# Lines of plain text

The class of lines that the properties of paragraphs, headings and lists are about, and how lines form paragraphs.
-/
namespace Adoc

/-- Pieces joined with a separator. -/
def joinB (c : UInt8) : List Str → Str
  | [] => []
  | [p] => p
  | p :: q :: r => p ++ c :: joinB c (q :: r)

end Adoc

namespace Adoc.Spec

/-- Sequences of characters with a meaning of their own inside a line. -/
def markupWords : List Str :=
  [b!"http", b!"::", b!"--", b!"->", b!"''", b!"'s", b!"image:", b!"NOTE: ", b!"TIP: ", b!"IMPORTANT: ", b!"CAUTION: ",
   b!"WARNING: "]

/-- A line of plain text: it is not empty, does not begin with a block marker or in the middle of a character, has
no character that marks up text anywhere, and none of the sequences above. Everything else is allowed. -/
structure PlainLine (l : Str) : Prop where
  first : ∃ b bs, l = b :: bs ∧ isCont b = false ∧ b ∉ b!"=./|(:"
  chars : ∀ b ∈ l, b ∉ b!"\n*_`^~[]#&{+<"
  words : ∀ w ∈ markupWords, ¬w <:+: l

theorem infix_contains (w l : Str) (h : w <:+: l) : containsStr w l = true := by
  obtain ⟨p, t, rfl⟩ := h
  induction p with
  | nil =>
    cases w with
    | nil => cases t <;> simp [containsStr]
    | cons x xs => simp [containsStr]
  | cons b p ih => simp only [List.cons_append, containsStr, ih, Bool.or_true]

/-- A check for empty or plain lines. -/
def plainCheck : Str → Bool
  | [] => true
  | b :: bs => !isCont b && !(b!"=./|(:").contains b
    && (b :: bs).all (fun b => !(b!"\n*_`^~[]#&{+<").contains b) && markupWords.all fun w => !containsStr w (b :: bs)

theorem plain_of_check (l : Str) (h : plainCheck l = true) : l = [] ∨ PlainLine l := by
  match l with
  | [] => exact .inl rfl
  | b :: bs =>
    simp only [plainCheck, Bool.and_eq_true, Bool.not_eq_true', List.all_eq_true] at h
    obtain ⟨⟨⟨h1, h2⟩, h3⟩, h4⟩ := h
    refine .inr ⟨⟨b, bs, rfl, h1, by simpa using h2⟩, fun x hx => by simpa using h3 x hx, fun w hw hi => ?_⟩
    have := h4 w hw
    rw [infix_contains _ _ hi] at this; cases this

/-- Put a run of lines that begins at line `s` and ends just before line `n` in front of the groups that follow: if
the first of these begins at line `n` the two are one group. -/
def attach (s : Nat) (ls : List Str) (n : Nat) : List (Nat × List Str) → List (Nat × List Str)
  | [] => [(s, ls)]
  | (m, ls') :: gs => if m = n then (s, ls ++ ls') :: gs else (s, ls) :: (m, ls') :: gs

/-- The maximal runs of non-empty lines, each with the number of its first line; `n` is the number of the first of the
given lines. -/
def groups (n : Nat) : List Str → List (Nat × List Str)
  | [] => []
  | [] :: rest => groups (n + 1) rest
  | l :: rest => attach n [l] (n + 1) (groups (n + 1) rest)

example : groups 1 [b!"a", b!"b", [], [], b!"c", []] = [(1, [b!"a", b!"b"]), (5, [b!"c"])] := by decide

end Adoc.Spec

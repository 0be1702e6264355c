import Verif.Proof.Kinds
import Verif.Props.Origin
/-!
# C92: lists, description lists and tables contain only what belongs in them

The claim for all documents:

    parseText w fuel src = .ok g → ∀ x ∈ allBlocks g, ∀ c ∈ x.children, MayHold (kind x) (kind c)

It is false for documents that attach blocks to items with lines of one `+` (`C92_continuation_not`), so
`C92_lists_partial` assumes that there are no such lines. For tables there is no such assumption (`C92_tables`). The converse
is false as well: items, entries and cells also stand outside of lists and tables (`C92_outside`).
-/
namespace Adoc.Props
open Origin Kinds

theorem mem_innerL : ∀ {l : List Block} {x : Block}, x ∈ innerL l → ∃ b ∈ l, x ∈ inner b
  | [], _, h => by cases h
  | b :: bs, x, h => by
    rw [innerL, List.mem_append] at h
    rcases h with h | h
    · exact ⟨b, by simp, h⟩
    · obtain ⟨c, hc, hx⟩ := mem_innerL h
      exact ⟨c, by simp [hc], hx⟩

theorem mem_inner {b x : Block} (h : x ∈ inner b) : x = b ∨ ∃ c ∈ b.children, x ∈ inner c := by
  cases b <;> simp only [inner, List.mem_cons, List.not_mem_nil, or_false] at h <;>
    first
      | exact .inl h
      | exact h.imp_right fun h => mem_innerL h

theorem deep_all {fl : Bool} : ∀ {l : List Block}, (∀ b ∈ l, Deep fl b) → ∀ x ∈ innerL l, Deep fl x := by
  have one : ∀ {b : Block}, Deep fl b → ∀ x ∈ inner b, Deep fl x := by
    intro b hb
    induction hb with
    | @mk b h1 h2 ih =>
      intro x hx
      rcases mem_inner hx with rfl | ⟨c, hc, hx⟩
      · exact .mk h1 h2
      · exact ih c hc x hx
  intro l h x hx
  obtain ⟨b, hb, hx⟩ := mem_innerL hx
  exact one (h b hb) x hx

theorem kinds_hold {fl : Bool} {w : World} {fuel : Nat} {src : Str} {g : Asg} (h : parseText w fuel src = .ok g)
    (hs : fl = true → ¬ plusLine src) (hw : fl = true → ∀ path s, w.read path = some s → ¬ plusLine s) :
    ∀ x ∈ allBlocks g, ∀ c ∈ x.children, Hold fl (kind x) (kind c) := by
  unfold Adoc.parseText at h
  cases hp : Parser.parse w fuel (scan src) Parser.new with
  | error e => rw [hp] at h; cases h
  | ok q =>
    rw [hp] at h
    cases h
    intro x hx
    exact (deep_all (parse_deep hs hw (.inl rfl) hp) x hx).own

/-- Without continuation lines a list holds only items with its own markers, a description list only entries and a
table only cells, at every depth. Missing for the full claim: documents with continuation lines. -/
theorem C92_lists_partial {w : World} {fuel : Nat} {src : Str} {g : Asg} (h : parseText w fuel src = .ok g)
    (hs : ¬ plusLine src) (hw : ∀ path s, w.read path = some s → ¬ plusLine s) :
    ∀ x ∈ allBlocks g, ∀ c ∈ x.children, MayHold (kind x) (kind c) :=
  fun x hx c hc => kinds_hold (fl := true) h (fun _ => hs) (fun _ => hw) x hx c hc (.inl rfl)

/-- For all documents: a table holds only cells. -/
theorem C92_tables {w : World} {fuel : Nat} {src : Str} {g : Asg} (h : parseText w fuel src = .ok g) :
    ∀ x ∈ allBlocks g, kind x = .box .table → ∀ c ∈ x.children, kind c = .cell := by
  intro x hx hk c hc
  have := kinds_hold (fl := false) h (fun h => by cases h) (fun h => by cases h) x hx c hc (.inr hk)
  rw [hk] at this
  exact this

/-- No continuation lines, to be evaluated. -/
def noPlus : Bool → Str → Bool
  | _, [] => true
  | start, c :: s => !(start && c == c!"+" && s.head? == some c!"\n") && noPlus (c == c!"\n") s

theorem noPlus_tail : ∀ {a s : Str} {f : Bool}, noPlus f (a ++ s) = true → noPlus (match a.getLast? with | some c => c == c!"\n" | none => f) s = true
  | [], _, _, h => h
  | [c], _, _, h => by
    simp only [List.cons_append, List.nil_append, noPlus, Bool.and_eq_true] at h
    exact h.2
  | c :: d :: a, s, f, h => by
    simp only [List.cons_append, noPlus, Bool.and_eq_true] at h
    have := noPlus_tail (a := d :: a) (f := c == c!"\n") (s := s) (by simp only [List.cons_append, noPlus, Bool.and_eq_true]; exact h.2)
    rw [List.getLast?_cons_cons]
    cases h : (d :: a).getLast? with
    | none => simp at h
    | some e => rw [h] at this; exact this

theorem noPlus_ok {s : Str} (h : noPlus true s = true) : ¬ plusLine s := by
  rintro ⟨a, b, rfl, ha⟩
  rw [List.append_assoc] at h
  have := noPlus_tail h
  rcases ha with rfl | ⟨a, rfl⟩
  · simp [noPlus] at this
  · simp [noPlus] at this

/-- A document with all three, nested. -/
def kindsSource : Str :=
  b!"* a\n* b\n\n. c\n. d\n\nt:: u\nv:: w\n\n|===\n|x |y\n|===\n"

/-- The markers and kinds in it. -/
def kindsOf (g : Asg) : List (Kind × List Kind) :=
  ((allBlocks g).filter fun x => !x.children.isEmpty).map fun x => (kind x, x.children.map kind)

example : returns ((parseText emptyWorld 5 kindsSource).map kindsOf)
    [(.list .unordered, [.item b!"*", .item b!"*"]), (.list .ordered, [.item b!".", .item b!"."]),
      (.dlist, [.entry, .entry]), (.box .table, [.cell, .cell])] = true := by decide +kernel

example : ¬ plusLine kindsSource := noPlus_ok (by decide +kernel)

/-- Lists that meet the assumption where other blocks stand in the way of their items: the heading takes the list, the
second item stays outside of it, and the first list keeps its one item. -/
theorem C92_open_sample : noPlus true b!"== http://x\n* http://y\n* c\n" = true ∧
    returns ((parseText emptyWorld 5 b!"== http://x\n* http://y\n* c\n").map kindsOf)
      [(.item b!"*", [.other]), (.other, [.list .unordered]), (.list .unordered, [.item b!"*"]), (.item b!"*", [.words])] = true := by
  constructor <;> decide +kernel

/-- With continuation lines the claim is false: a bulleted list and an item in an ordered list, a list in a description list. -/
theorem C92_continuation_not :
    returns ((parseText emptyWorld 5 b!". d\n+\n[NOTE]\n. d'''\n\n+\n[quote]\n* b").map fun g => (kindsOf g).head?)
      (some (.list .ordered, [.item b!".", .list .unordered, .item b!"*"])) = true ∧
    returns ((parseText emptyWorld 5 b!"t:: u\n+\n.T\n* b\n+\n\n* b").map kindsOf)
      [(.item b!"*", [.words]), (.dlist, [.entry, .list .unordered]), (.entry, [.list .unordered, .item b!"*"])] = true := by
  constructor <;> decide +kernel

/-- The converse is false: an entry outside of a description list, a cell outside of a table, an item outside of a list. -/
theorem C92_outside :
    returns ((parseText emptyWorld 5 b!"--\nt:: u\n--\n").map kindsOf) [(.box .open_, [.dlist, .entry])] = true ∧
    returns ((parseText emptyWorld 5 b!"|c\n").map fun g => g.blocks.map kind) [.cell] = true ∧
    returns ((parseText emptyWorld 5 b!"== http://x\n* http://y\n* c\n").map fun g => g.blocks.map kind) [.item b!"*"] = true := by
  refine ⟨?_, ?_, ?_⟩ <;> decide +kernel

end Adoc.Props

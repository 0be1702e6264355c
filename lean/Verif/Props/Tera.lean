import Verif.Proof.Tera
import Verif.Props.Attributes
import Verif.Props.Origin
/-!
# C91: the page is what the templates say

`Model/Tera.lean` is a small template engine, `Model/Templates.lean` has the texts of the five templates. Running the texts
on the JSON form of a graph gives the page that the other properties of pages are about.
-/
namespace Adoc.Props
open Origin (allBlocks)

/-- An admonition says of which kind it is. -/
def hasKind : Block → Bool
  | .parent .admonition v .. => v.isSome
  | _ => true

/-- The number of columns of a table, as it is written. -/
def colsOf : Block → Option Str
  | .parent .table _ _ _ _ (some m) _ => m.attributes.get? b!"cols"
  | _ => none

/-- A text of at most 18 visible ASCII characters other than signs and points. -/
def simpleCols (c : Str) : Bool := c.length ≤ 18 && c.all fun b => 33 ≤ b && b < 127 && !(b!"+-.").contains b

theorem parseDigits_bound : ∀ (s : Str) (n : Nat), parseDigits s = some n → n < 10 ^ s.length := by
  intro s n h
  have key : ∀ (s : Str) (a n : Nat), s.foldl (fun acc b => acc.bind fun n =>
      if isDigit b then some (n * 10 + (b.toNat - 48)) else none) (some a) = some n → n < (a + 1) * 10 ^ s.length := by
    intro s
    induction s with
    | nil => intro a n h; simp at h; subst h; simp
    | cons b s ih =>
      intro a n h
      rw [List.foldl_cons, Option.bind_some] at h
      by_cases hb : isDigit b = true
      · rw [if_pos hb] at h
        have := ih _ _ h
        have hd : b.toNat - 48 ≤ 9 := by
          simp only [isDigit, Bool.and_eq_true, decide_eq_true_eq] at hb
          have := UInt8.le_iff_toNat_le.1 hb.2
          simp at this
          omega
        have h2 : (a * 10 + (b.toNat - 48) + 1) * 10 ^ s.length ≤ (a + 1) * 10 * 10 ^ s.length :=
          Nat.mul_le_mul_right _ (by omega)
        rw [List.length_cons, Nat.pow_succ, Nat.mul_comm (10 ^ s.length), ← Nat.mul_assoc]
        omega
      · rw [if_neg hb] at h
        have hn : ∀ s : Str, s.foldl (fun acc b => acc.bind fun n =>
            if isDigit b then some (n * 10 + (b.toNat - 48)) else none) none = none := by
          intro s
          induction s with
          | nil => rfl
          | cons c s ih => rw [List.foldl_cons]; exact ih
        rw [hn] at h
        cases h
  cases s with
  | nil => cases h
  | cons b s => simpa using key (b :: s) 0 n h

theorem toInt_simple (frac : Str → Int) {c : Str} (h : simpleCols c = true) : Tera.toInt frac c = Html.colsInt c := by
  simp only [simpleCols, Bool.and_eq_true, decide_eq_true_eq, List.all_eq_true] at h
  obtain ⟨hl, hb⟩ := h
  have ht : trim c = c := trim_id c fun b hbc => by
    have := hb b hbc
    exact ⟨this.1.1, by have := UInt8.lt_iff_toNat_lt.1 this.1.2; rw [UInt8.lt_iff_toNat_lt]; simp at this ⊢; omega⟩
  have hno : ∀ b ∈ c, b ≠ c!"+" ∧ b ≠ c!"-" ∧ b ≠ c!"." := fun b hbc => by
    have := (hb b hbc).2
    simp at this
    exact this
  have hp : c.contains c!"." = false := by
    rw [← Bool.not_eq_true, List.contains_iff_mem]
    exact fun hm => (hno _ hm).2.2 rfl
  have hsigned : parseSigned 9223372036854775807 c = (parseDigits c).map Int.ofNat := by
    cases c with
    | nil => rfl
    | cons b c =>
      have := hno b (by simp)
      simp only [parseSigned, this.1, this.2.1, if_false]
      cases hd : parseDigits (b :: c) with
      | none => rfl
      | some n =>
        have h1 := parseDigits_bound _ _ hd
        have h2 : 10 ^ (b :: c).length ≤ 10 ^ 18 := Nat.pow_le_pow_right (by decide) hl
        have h3 : n ≤ 9223372036854775807 := by
          have : (10 : Nat) ^ 18 ≤ 9223372036854775807 := by decide
          omega
        simp only [h3, if_true]
        rfl
  rw [Tera.toInt, ht, hsigned, hp, Html.colsInt]
  cases parseDigits c <;> rfl

/-- **C91**: if the order of maps does not matter for looking things up, every admonition has a kind and the numbers of
columns of tables are written in a simple way, then the templates, run with enough depth of calls, write the page of the graph
or fail as it does, whatever the engine makes of numbers with points and whether or not macros see the values given to the
engine.

Missing: numbers of columns with signs, points or blanks around them, or more than 18 digits, which `Html.render` reads as no
number. -/
theorem C91_templates_partial (frac : Str → Int) {ord : SMap Str → SMap Str} (ho : ∀ m k, (ord m).get? k = m.get? k) (sees : Bool)
    (g : Asg) (hk : ∀ b ∈ allBlocks g, hasKind b = true) (hc : ∀ b ∈ allBlocks g, ∀ c, colsOf b = some c → simpleCols c = true) :
    ∃ depth, ∀ fuel, depth ≤ fuel → Tera.render frac sees fuel ord g = Html.render sees g := by
  refine ⟨Tera.depthDoc g, fun fuel hf => Tera.render_eq ho sees g (fun b hb => ?_) hf⟩
  have h1 := hk b hb
  have h2 := hc b hb
  unfold Tera.Plain
  split
  · intro hv
    simp only [hasKind, hv] at h1
    cases h1
  · exact fun c hcc => toInt_simple frac (h2 c hcc)
  · trivial

/-- Every admonition in the graph of a source text has a kind. -/
theorem C91_kinds {w : World} {fuel : Nat} {src : Str} {g : Asg} (h : parseText w fuel src = .ok g) :
    ∀ b ∈ allBlocks g, hasKind b = true := by
  intro b hb
  obtain ⟨m, hm, _⟩ := C68_blocks h b hb
  unfold hasKind
  split
  · rename_i v _ _ _ _ _
    cases v with
    | some v => rfl
    | none => simp [Origin.marks, Origin.parentMarks] at hm
  · rfl

/-- From source text: the templates write the page of the graph. -/
theorem C91_source_partial (frac : Str → Int) {ord : SMap Str → SMap Str} (ho : ∀ m k, (ord m).get? k = m.get? k) (sees : Bool)
    {w : World} {fuel : Nat} {src : Str} {g : Asg} (h : parseText w fuel src = .ok g)
    (hc : ∀ b ∈ allBlocks g, ∀ c, colsOf b = some c → simpleCols c = true) :
    ∃ depth, ∀ fuel, depth ≤ fuel → Tera.render frac sees fuel ord g = Html.render sees g :=
  C91_templates_partial frac ho sees g (C91_kinds h) hc

/-- Without vertical bars in source and files there are no tables, and nothing has to be known of columns. -/
theorem C91_no_tables (frac : Str → Int) {ord : SMap Str → SMap Str} (ho : ∀ m k, (ord m).get? k = m.get? k) (sees : Bool)
    {w : World} {fuel : Nat} {src : Str} {g : Asg} (h : parseText w fuel src = .ok g) (hp : ¬ Avail w src c!"|") :
    ∃ depth, ∀ fuel, depth ≤ fuel → Tera.render frac sees fuel ord g = Html.render sees g := by
  refine C91_source_partial frac ho sees h fun b hb c hcc => ?_
  unfold colsOf at hcc
  split at hcc
  · exact ((C68_tables h hp _ hb).1 _ _ _ _ _ _ rfl).elim
  · cases hcc

/-- All numbers of columns in a graph are written in a simple way. -/
def simpleTables (g : Asg) : Bool := (allBlocks g).all fun b => ((colsOf b).map simpleCols).getD true

/-- What a test says of the page that the templates write for a source text. -/
theorem C91_test {frac : Str → Int} {src : Str} {test : Str → Bool} (h : pageIs src test = true)
    (ht : returns ((parseText emptyWorld 5 src).map simpleTables) true = true) :
    ∃ g s, parseText emptyWorld 5 src = .ok g ∧ test s = true ∧
      ∃ depth, ∀ fuel, depth ≤ fuel → Tera.render frac true fuel id g = .ok s := by
  cases hg : parseText emptyWorld 5 src with
  | error e => rw [hg] at ht; cases ht
  | ok g =>
    simp only [hg, Except.map, returns, decide_eq_true_eq] at ht
    simp only [pageIs, page, hg, bind, Except.bind] at h
    cases hs : Html.render true g with
    | error e => rw [hs] at h; cases h
    | ok s =>
      rw [hs] at h
      obtain ⟨depth, hd⟩ := C91_source_partial frac (ord := id) (fun _ _ => rfl) true hg fun b hb c hcc => by
        have := List.all_eq_true.1 ht b hb
        rwa [hcc] at this
      exact ⟨g, s, rfl, h, depth, fun fuel hf => (hd fuel hf).trans hs⟩

/-- A document with a title, a section, an admonition and a table with a header. -/
def bookSource : Str := b!"= T\n\n== S\n\nNOTE: x *y*\n\n|===\n|a |b\n|c |d\n|===\n"

example : pageIs bookSource (fun s => within b!"<title>T</title>" s && within b!"<h1>S</h1>" s &&
    within b!"<div data-type=\"note\">\n    <p>x <strong>y</strong></p></div>" s && within b!"<th>b</th>" s &&
    within b!"<tbody>\n        <tr>\n        <td>c </td>\n        <td>d</td>\n        </tr>\n    </tbody>" s) = true ∧
    returns ((parseText emptyWorld 5 bookSource).map simpleTables) true = true := by constructor <;> decide +kernel

/-- A table without a header in a document with a title has an empty header on the page if macros see the values given to the
engine, because `header` is the name of the document's title there; otherwise it has none. -/
theorem C91_empty_head :
    pageIs b!"= T\n\n[cols=\"2\"]\n|===\n|a\n|b\n|===\n" (within b!"<thead>\n        </thead>") = true ∧
    returns ((parseText emptyWorld 5 b!"= T\n\n[cols=\"2\"]\n|===\n|a\n|b\n|===\n").map simpleTables) true = true ∧
    returns (((parseText emptyWorld 5 b!"= T\n\n[cols=\"2\"]\n|===\n|a\n|b\n|===\n").bind fun g => Html.render false g).map
      (within b!"<thead>")) false = true := by
  refine ⟨?_, ?_, ?_⟩ <;> decide +kernel

end Adoc.Props

import Verif.Proof.JsonGraph
import Verif.Props.Origin
/-!
# The JSON output (C72–C75)
-/
namespace Adoc.Props
open Adoc Spec Origin Markup

/-! ## C72: the output is JSON -/

/-- A reader for JSON reads the output of every graph, in whatever order the maps are iterated, and gets the value of the
graph. -/
theorem C72_read (ord : SMap Str → SMap Str) (g : Asg) :
    JsonText.readText (jsonText ord g) = some (Json.ofAsg ord g) := Json.read_pretty _ 0

/-- A control byte, a quotation mark and a backslash in a source: they are escaped. -/
example :
    returns ((parseText emptyWorld 5 (b!"a \"b\" \\c" ++ [7, 9] ++ b!"\n")).map fun g =>
      (within b!"\n          \"value\": \"a \\\"b\\\" \\\\c\\u0007\\t\",\n" (jsonText id g),
        (JsonText.readText (jsonText id g)).isSome)) (true, true) = true := by decide +kernel

/-! ## C73: the output shows all of the graph -/

/-- Two graphs have the same output just if they are the same, apart from flags of the parser, the table of ids and the order
in which maps are iterated. -/
theorem C73_same_text (ord ord' : SMap Str → SMap Str) (g g' : Asg) :
    jsonText ord g = jsonText ord' g' ↔ shown ord g = shown ord' g' := by
  constructor
  · intro h
    exact Json.ofAsg_inj (Json.pretty_inj h)
  · intro h
    unfold jsonText
    rw [← Json.ofAsg_shown (ord := ord), ← Json.ofAsg_shown (ord := ord'), h]

/-- Sources with different texts, or with a different nesting, have different outputs. -/
example :
    returns ((parseText emptyWorld 5 b!"a\n\nb\n").bind fun g => (parseText emptyWorld 5 b!"a\nb\n").map fun g' =>
      decide (jsonText id g = jsonText id g')) false = true := by decide +kernel

/-! ## C74: the same document, the same output -/

/-- However the maps are iterated, a reader gets the same value, except for the order of members. -/
theorem C74_same_value {ord ord' : SMap Str → SMap Str} (ho : ∀ m, (ord m).Perm m ∧ (ord' m).Perm m) (g : Asg) :
    ∃ j j', JsonText.readText (jsonText ord g) = some j ∧ JsonText.readText (jsonText ord' g) = some j' ∧ Same j j' :=
  ⟨_, _, C72_read ord g, C72_read ord' g, Json.same_asg ho g⟩

/-- If no node has two attributes, the output is the same in every run. -/
theorem C74_text_partial {ord ord' : SMap Str → SMap Str} (ho : ∀ m, (ord m).Perm m ∧ (ord' m).Perm m) (g : Asg)
    (h : small g = true) : jsonText ord g = jsonText ord' g :=
  (C73_same_text ord ord' g g).2 (Json.small_asg ho g h)

/-- The property as stated is false: with two attributes the output of one run differs from that of another. -/
theorem C74_two_attributes :
    (∀ m : SMap Str, (id m).Perm m ∧ m.reverse.Perm m) ∧
    returns ((parseText emptyWorld 5 b!"[a=1,b=2]\nc\n").map fun g => decide (jsonText id g = jsonText List.reverse g)) false
      = true :=
  ⟨fun m => ⟨.refl _, List.reverse_perm m⟩, by decide +kernel⟩

/-- A document with one attribute. -/
example :
    returns ((parseText emptyWorld 5 b!"[a=1]\nc *d*\n").map fun g => (small g, decide (g.blocks.length = 1))) (true, true)
      = true := by decide +kernel

/-! ## C75: every node has a name, a type and a location -/

/-- In graphs without table cells, every node of the output has a name, a type and a list of positions. -/
theorem C75_nodes_partial (ord : SMap Str → SMap Str) (g : Asg) (h : cellFreeL g.blocks = true) :
    ∃ j, JsonText.readText (jsonText ord g) = some j ∧ allNodes j = true :=
  ⟨_, C72_read ord g, Json.allNodes_asg g h⟩

mutual
theorem cellFree_of {av : UInt8 → Prop} (hn : ¬ av c!"|") : ∀ b : Block, EveryB av b → cellFree b = true
  | .section _ _ _ bs _, h => by simp only [EveryB] at h; simp only [cellFree, cellFreeL_of hn bs h.2]
  | .list _ bs _ _, h => by simp only [EveryB] at h; simp only [cellFree, cellFreeL_of hn bs h.2]
  | .listItem _ _ bs _ _, h => by simp only [EveryB] at h; simp only [cellFree, cellFreeL_of hn bs h.2]
  | .dlist bs _ _, h => by simp only [EveryB] at h; simp only [cellFree, cellFreeL_of hn bs h.2]
  | .dlistItem _ _ bs _ _, h => by simp only [EveryB] at h; simp only [cellFree, cellFreeL_of hn bs h.2]
  | .brk _ _, _ => rfl
  | .image _ _ _ _, _ => rfl
  | .leaf _ _ _ _ _ _, _ => rfl
  | .parent _ _ _ bs _ _ _, h => by simp only [EveryB] at h; simp only [cellFree, cellFreeL_of hn bs h.2]
  | .tableCell is m l, h => by
    simp only [EveryB, NodeB] at h
    exact absurd (h.1 _ (by decide)) hn
theorem cellFreeL_of {av : UInt8 → Prop} (hn : ¬ av c!"|") : ∀ bs : List Block, EveryBs av bs → cellFreeL bs = true
  | [], _ => rfl
  | b :: bs, h => by
    simp only [EveryBs] at h
    simp only [cellFreeL, cellFree_of hn b h.1, cellFreeL_of hn bs h.2, Bool.and_self]
end

/-- If there is no vertical bar in the source and in files, every node of the output has a name, a type and positions. -/
theorem C75_source_partial {w : World} {fuel : Nat} {src : Str} {g : Asg} (ord : SMap Str → SMap Str)
    (h : parseText w fuel src = .ok g) (hn : ¬ Avail w src c!"|") :
    ∃ j, JsonText.readText (jsonText ord g) = some j ∧ allNodes j = true :=
  C75_nodes_partial ord g (cellFreeL_of hn _ (C67_graph h).blocks)

example : ¬ Avail emptyWorld b!"= T\n\n== S\n\n* a *b*\n\n----\nc\n----\n" c!"|" ∧
    returns ((parseText emptyWorld 5 b!"= T\n\n== S\n\n* a *b*\n\n----\nc\n----\n").map fun g => (allBlocks g).length) 4
      = true := by
  simp only [avail_empty]
  constructor <;> decide +kernel

/-- The property as stated is false for table cells, which have no type. -/
theorem C75_table :
    returns ((parseText emptyWorld 5 b!"|===\n|a |b\n|===\n").map fun g =>
      (JsonText.readText (jsonText id g)).map allNodes) (some false) = true := by decide +kernel

end Adoc.Props

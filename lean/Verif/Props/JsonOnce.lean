import Verif.Props.JsonRead
import Verif.Props.Run
/-!
# C104: no object of the JSON output has two members with the same name

What a JSON reader does with two members of the same name is left to the reader. Together with C72 the theorems say that every
reader gets the same values by the same names, in whatever order the maps of the program are iterated.
-/
namespace Adoc.Props
open Spec Origin

/-! ## Values -/

theorem distinct_iff {l : List Str} : distinct l = true ↔ l.Nodup := by
  induction l with
  | nil => simp [distinct]
  | cons k ks ih => simp [distinct, ih]

theorem onceL_iff {l : List Json} : onceL l = true ↔ ∀ x ∈ l, once x = true := by
  induction l with
  | nil => simp [onceL]
  | cons x xs ih => simp [onceL, ih]

theorem onceM_iff {l : List (Str × Json)} : onceM l = true ↔ ∀ m ∈ l, once m.2 = true := by
  induction l with
  | nil => simp [onceM]
  | cons x xs ih => simp only [onceM, Bool.and_eq_true, ih, List.mem_cons, forall_eq_or_imp]

theorem once_arr {l : List Json} (h : ∀ x ∈ l, once x = true) : once (.arr l) = true := by
  simp only [once]
  exact onceL_iff.2 h

theorem once_obj {l : List (Str × Json)} (hn : (l.map (·.1)).Nodup) (h : ∀ m ∈ l, once m.2 = true) : once (.obj l) = true := by
  simp only [once, Bool.and_eq_true]
  exact ⟨distinct_iff.2 hn, onceM_iff.2 h⟩

/-- The names of the members that are written are among the names of the fields, in the same order. -/
theorem fields_names (fs : List (Str × Option Json)) :
    ((fs.filterMap fun f => f.2.map fun v => (f.1, v)).map (·.1)).Sublist (fs.map (·.1)) := by
  induction fs with
  | nil => exact .refl _
  | cons f fs ih =>
    obtain ⟨k, v⟩ := f
    cases v with
    | none => exact .cons _ ih
    | some v => exact .cons_cons _ ih

theorem once_fields {fs : List (Str × Option Json)} (hn : (fs.map (·.1)).Nodup) (h : ∀ f ∈ fs, ∀ v ∈ f.2, once v = true) :
    once (Json.fields fs) = true := by
  refine once_obj (hn.sublist (fields_names fs)) fun m hm => ?_
  obtain ⟨f, hf, he⟩ := List.mem_filterMap.1 hm
  cases hv : f.2 with
  | none => rw [hv] at he; cases he
  | some v =>
    rw [hv] at he
    cases he
    exact h f hf v hv

theorem once_unlessEmpty {l : List Json} (h : ∀ x ∈ l, once x = true) : ∀ v ∈ Json.unlessEmpty l, once v = true := by
  intro v hv
  unfold Json.unlessEmpty at hv
  split at hv
  · cases hv
  · cases hv
    exact once_arr h

theorem once_str (s : Str) : once (.str s) = true := rfl
theorem once_num (n : Nat) : once (.num n) = true := rfl

theorem once_strs (l : List Str) : once (Json.strs l) = true :=
  once_arr fun _ hx => by obtain ⟨_, _, rfl⟩ := List.mem_map.1 hx; rfl

theorem once_location (l : Location) : once (Json.ofLocation l) = true := by
  refine once_fields (by simp only [List.map]; decide) ?_
  simp only [List.mem_cons, List.not_mem_nil, or_false]
  rintro f (rfl | rfl | rfl)
  · rintro v ⟨⟩; rfl
  · rintro v ⟨⟩; rfl
  · exact once_unlessEmpty fun x hx => by obtain ⟨_, _, rfl⟩ := List.mem_map.1 hx; rfl

theorem once_locations (l : List Location) : once (Json.ofLocations l) = true :=
  once_arr fun _ hx => by obtain ⟨_, _, rfl⟩ := List.mem_map.1 hx; exact once_location _

section
variable {ord : SMap Str → SMap Str} (ho : ∀ m, (ord m).Perm m) {av : UInt8 → Prop}
include ho

theorem once_map {m : SMap Str} (h : (m.map (·.1)).Nodup) : once (Json.ofMap ord m) = true := by
  refine once_obj ?_ fun m hm => ?_
  · rw [List.map_map]
    exact ((ho m).map _).nodup_iff.2 h
  · obtain ⟨_, _, rfl⟩ := List.mem_map.1 hm
    rfl

theorem once_meta {m : Meta} (h : (m.attributes.map (·.1)).Nodup) : once (Json.ofMeta ord m) = true := by
  refine once_fields (by simp only [List.map]; decide) ?_
  simp only [List.mem_cons, List.not_mem_nil, or_false]
  rintro f (rfl | rfl | rfl | rfl) v ⟨⟩
  · exact once_map ho h
  · exact once_strs _
  · exact once_strs _
  · exact once_locations _

theorem once_meta? {m : Option Meta} (h : MetaOk? av m) : ∀ v ∈ m.map (Json.ofMeta ord), once v = true := by
  intro v hv
  cases m with
  | none => cases hv
  | some m =>
    cases hv
    exact once_meta ho h.once

/-- Fields one after the other. -/
local macro "eachField" : tactic => `(tactic|
  (refine once_fields (by simp only [List.map]; decide) ?_
   simp only [List.mem_cons, List.not_mem_nil, or_false, forall_eq_or_imp, forall_eq, forall_eq', Option.mem_def, Option.some.injEq]))

mutual
theorem once_inline : ∀ i : Inline, EveryI av i → once (Json.ofInline ord i) = true
  | .span v f is m l o, h => by
    simp only [EveryI, NodeI] at h
    have h1 := once_meta? ho h.1.2
    have h2 := once_arr (once_inlines is h.2)
    simp only [Json.ofInline]
    eachField
    exact ⟨once_str _, once_str _, once_str _, once_str _, h2, h1, once_locations _⟩
  | .ref v t is m l, h => by
    simp only [EveryI, NodeI] at h
    have h1 := once_meta? ho h.1.2.2
    have h2 := once_arr (once_inlines is h.2)
    simp only [Json.ofInline]
    eachField
    exact ⟨once_str _, once_str _, once_str _, once_str _, h2, h1, once_locations _⟩
  | .lit n v l, _ => by
    simp only [Json.ofInline]
    eachField
    exact ⟨once_str _, once_str _, once_str _, once_locations _⟩
  | .brk l, _ => by
    simp only [Json.ofInline]
    eachField
    exact ⟨once_str _, once_str _, once_locations _⟩
theorem once_inlines : ∀ is : List Inline, EveryIs av is → ∀ x ∈ Json.ofInlines ord is, once x = true
  | [], _ => fun _ hx => by cases hx
  | i :: is, h => by
    simp only [EveryIs] at h
    have h1 := once_inline i h.1
    have h2 := once_inlines is h.2
    simp only [Json.ofInlines, List.mem_cons, forall_eq_or_imp]
    exact ⟨h1, h2⟩
end

mutual
theorem once_block : ∀ b : Block, EveryB av b → once (Json.ofBlock ord b) = true
  | .section t m v bs l, h => by
    simp only [EveryB, NodeB] at h
    have h1 := once_meta? ho h.1.2.2
    have h2 := once_arr (once_inlines ho t h.1.2.1)
    have h3 := once_arr (once_blocks bs h.2)
    simp only [Json.ofBlock]
    eachField
    exact ⟨once_str _, once_str _, h2, h1, once_num _, h3, once_locations _⟩
  | .list v bs m l, h => by
    simp only [EveryB, NodeB] at h
    have h1 := once_meta? ho h.1.2
    have h3 := once_arr (once_blocks bs h.2)
    simp only [Json.ofBlock]
    eachField
    exact ⟨once_str _, once_str _, once_str _, once_str _, h3, h1, once_locations _⟩
  | .listItem k p bs m l, h => by
    simp only [EveryB, NodeB] at h
    have h1 := once_meta? ho h.1.2.2.2
    have h2 := once_arr (once_inlines ho p h.1.2.2.1)
    have h3 := once_unlessEmpty (once_blocks bs h.2)
    simp only [Json.ofBlock]
    eachField
    exact ⟨once_str _, once_str _, once_str _, h2, h3, h1, once_locations _⟩
  | .dlist bs m l, h => by
    simp only [EveryB, NodeB] at h
    have h1 := once_meta? ho h.1.2
    have h3 := once_arr (once_blocks bs h.2)
    simp only [Json.ofBlock]
    eachField
    exact ⟨once_str _, once_str _, once_str _, h3, h1, once_locations _⟩
  | .dlistItem t p bs m l, h => by
    simp only [EveryB, NodeB] at h
    have h1 := once_meta? ho h.1.2.2.2
    have h2 := once_arr (once_inlines ho t h.1.2.1)
    have h2' := once_unlessEmpty (once_inlines ho p h.1.2.2.1)
    have h3 := once_unlessEmpty (once_blocks bs h.2)
    simp only [Json.ofBlock]
    eachField
    exact ⟨once_str _, once_str _, once_str _, h2, h2', h3, h1, once_locations _⟩
  | .brk v l, _ => by
    simp only [Json.ofBlock]
    eachField
    exact ⟨once_str _, once_str _, once_str _, once_locations _⟩
  | .image t c m l, h => by
    simp only [EveryB, NodeB] at h
    have h1 := once_meta? ho h.2.2.2
    have h2 := once_unlessEmpty (once_inlines ho c h.2.2.1)
    simp only [Json.ofBlock]
    eachField
    exact ⟨once_str _, once_str _, once_str _, once_str _, h2, h1, once_locations _⟩
  | .leaf n f d is m l, h => by
    simp only [EveryB, NodeB] at h
    have h1 := once_meta? ho h.2.2
    have h2 := once_arr (once_inlines ho is h.2.1)
    have h3 : ∀ v, Json.leafForm f = some v → once v = true := by cases f <;> rintro v ⟨⟩; rfl
    have h4 : ∀ v, d.map Json.str = some v → once v = true := by cases d <;> rintro v ⟨⟩; rfl
    simp only [Json.ofBlock]
    eachField
    exact ⟨once_str _, once_str _, h3, h4, h2, h1, once_locations _⟩
  | .parent n v d bs t m l, h => by
    simp only [EveryB, NodeB] at h
    have h1 := once_meta? ho h.1.2.2
    have h2 := once_unlessEmpty (once_inlines ho t h.1.2.1)
    have h3 := once_arr (once_blocks bs h.2)
    have h4 : ∀ x, (v.map fun v => Json.str (Json.parentVariant v)) = some x → once x = true := by cases v <;> rintro v ⟨⟩; rfl
    have h5 : ∀ x, (if d.isEmpty then none else some (Json.str d)) = some x → once x = true := by
      intro x hx
      split at hx
      · cases hx
      · cases hx; rfl
    simp only [Json.ofBlock]
    eachField
    exact ⟨once_str _, h4, once_str _, once_str _, h5, h3, h2, h1, once_locations _⟩
  | .tableCell is m l, h => by
    simp only [EveryB, NodeB] at h
    have h1 := once_meta? ho h.2.2
    have h2 := once_arr (once_inlines ho is h.2.1)
    simp only [Json.ofBlock]
    eachField
    exact ⟨once_str _, once_str _, h2, h1, once_locations _⟩
theorem once_blocks : ∀ bs : List Block, EveryBs av bs → ∀ x ∈ Json.ofBlocks ord bs, once x = true
  | [], _ => fun _ hx => by cases hx
  | b :: bs, h => by
    simp only [EveryBs] at h
    have h1 := once_block b h.1
    have h2 := once_blocks bs h.2
    simp only [Json.ofBlocks, List.mem_cons, forall_eq_or_imp]
    exact ⟨h1, h2⟩
end

theorem once_asg {g : Asg} (h : EveryG av g) : once (Json.ofAsg ord g) = true := by
  have h1 : ∀ v, g.attributes.map (Json.ofMap ord) = some v → once v = true := by
    intro v hv
    cases ha : g.attributes with
    | none => rw [ha] at hv; cases hv
    | some l => rw [ha] at hv; cases hv; exact once_map ho (h.once l ha)
  have h2 : ∀ v, g.header.map (Json.ofHeader ord) = some v → once v = true := by
    intro v hv
    cases hh : g.header with
    | none => rw [hh] at hv; cases hv
    | some x =>
      rw [hh] at hv
      cases hv
      have := once_arr (once_inlines ho x.title (h.header x hh).2)
      unfold Json.ofHeader
      eachField
      exact ⟨this, once_locations _⟩
  have h3 := once_arr (once_blocks ho g.blocks h.blocks)
  unfold Json.ofAsg
  eachField
  exact ⟨once_str _, once_str _, h1, h2, h3, once_locations _⟩

end

/-- A graph that the parser returns, in a run of the program. -/
theorem graph_every {s : Cli.System} {c : Cli.Call} {src : Str} {g : Asg} (h : Cli.graphOf s c src = .ok g) :
    EveryG (Avail s.world src) g := by
  unfold Cli.graphOf at h
  cases hp : Parser.parse s.world s.fuel (scan src) (if c.noResolve then Parser.newNoTargets else Parser.new) with
  | error e => rw [hp] at h; cases h
  | ok q =>
    rw [hp] at h
    cases h
    refine parse_origin (fun b hb => .inl hb) (fun path s hr b hb => .inr ⟨path, s, hr, hb⟩) ?_ hp
    split
    · exact .inr rfl
    · exact .inl rfl

/-- C104 for every source, all files, with and without checks of targets, and every order of the maps: the output is read as a
value in which no object has two members of the same name. -/
theorem C104_once {s : Cli.System} {c : Cli.Call} {src : Str} {g : Asg} {ord : SMap Str → SMap Str} (ho : ∀ m, (ord m).Perm m)
    (h : Cli.graphOf s c src = .ok g) : ∃ j, JsonText.readText (jsonText ord g) = some j ∧ once j = true :=
  ⟨_, C72_read ord g, once_asg ho (graph_every h)⟩

/-- The same for what a run of the program leaves behind: a file or, after the number of words if it is asked for, a text on
standard output. -/
theorem C104_run (s : Cli.System) (c : Cli.Call) (ho : ∀ m, (s.ord m).Perm m) (hb : c.backend = .json)
    (h : (Cli.run s c).status = .success) :
    ∃ text j, JsonText.readText text = some j ∧ once j = true
      ∧ ((∃ path, (Cli.run s c).files = [(path, .text text)])
        ∨ ∃ line, (Cli.run s c).stdout = line ++ text ++ b!"\n" ∧ (c.count = false → line = [])) := by
  obtain ⟨src, g, x, _, hg, hm, hd⟩ := C95_success s c h
  obtain ⟨j, hj, hj'⟩ := C104_once ho hg
  rw [hb] at hm
  cases hm
  refine ⟨_, j, hj, hj', ?_⟩
  rcases hd with ⟨path, _, hf, _⟩ | ⟨text, _, _, ht, hs⟩
  · exact .inl ⟨path, hf⟩
  · cases ht
    refine .inr ⟨_, hs, fun hc => ?_⟩
    simp [Cli.countLine, hc]

/-- Looking up a name in a list of members, from the front or from the back. -/
theorem lookup_perm {V : Type} {a b : SMap V} (h : a.Perm b) (hn : (b.map (·.1)).Nodup) (k : Str) : a.get? k = b.get? k := by
  have hna : (a.map (·.1)).Nodup := (h.map _).nodup_iff.2 hn
  cases hb : b.get? k with
  | some v => exact Rich.get_mem a hna k v (h.mem_iff.2 (SMap.get?_mem _ _ _ hb))
  | none =>
    cases ha : a.get? k with
    | none => rfl
    | some v =>
      have := Rich.get_mem b hn k v (h.mem_iff.1 (SMap.get?_mem _ _ _ ha))
      rw [hb] at this; cases this

/-- The value of an attribute of a block or an inline does not depend on the order in which the map is written. -/
theorem C104_lookup {s : Cli.System} {c : Cli.Call} {src : Str} {g : Asg} {ord : SMap Str → SMap Str} (ho : ∀ m, (ord m).Perm m)
    (h : Cli.graphOf s c src = .ok g) :
    (∀ m ∈ allMeta g, ∀ k, (ord m.attributes).get? k = m.attributes.get? k) ∧
    (∀ l ∈ g.attributes, ∀ k, (ord l).get? k = l.get? k) :=
  ⟨fun m hm k => lookup_perm (ho _) (all_meta (graph_every h) m hm).once k,
    fun l hl k => lookup_perm (ho _) ((graph_every h).once l hl) k⟩

/-- Attributes that are set twice, in the head of a document and for a block. -/
def twice : Str := b!"= T\n:a: 1\n:a: 2\n\n[a=1,a=2,b=3]\nx\n"

/-- The names of the attributes of the document and of its first block, in the order in which they are written. -/
def attributeNames (g : Asg) : List Str × List (List Str) :=
  (((g.attributes.getD []).map (·.1)), (allMeta g).map fun m => m.attributes.map (·.1))

example : (∀ m : SMap Str, m.reverse.Perm m) ∧
    returns ((parseText emptyWorld 5 twice).map fun g =>
      (attributeNames g, (JsonText.readText (jsonText List.reverse g)).map once)) (([b!"a"], [[b!"a", b!"b"]]), some true) = true := by
  refine ⟨List.reverse_perm, ?_⟩
  decide +kernel

/-- The test tells values apart. -/
example : once (.obj [(b!"a", .num 1), (b!"a", .num 2)]) = false ∧ once (.arr [.obj [(b!"a", .obj [])]]) = true := by decide +kernel

end Adoc.Props

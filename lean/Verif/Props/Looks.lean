import Verif.Proof.DocxLooks
import Verif.Props.Docx
/-!
# C105: how the paragraphs of Word documents look
-/
namespace Adoc.Props
open Docx Word

/-- In the Word document of any graph every paragraph whose style is not the one that thematic breaks ask for has a look that
the document defines, and it is the expected one. -/
theorem C105_looks_partial (io : Str → Option Unit) (g : Asg) (d : Doc) (h : render io g = .ok d) (p : Para)
    (hp : p ∈ paragraphs d) (ht : p.style ≠ b!"ThematicBreak") : seen d 3 p.style = some (expected p.style) := by
  obtain ⟨hg, hs⟩ := gen_of h
  have hb : ∀ x ∈ [b!"Normal", b!"No Spacing", b!"Title"], x ∈ styleIds d := by
    obtain ⟨st, hr, rfl⟩ := render_ok h
    exact (keep (I := SInv True) _ (fun o _ s s' hi hrun => hi.op o (fun _ => trivial) hrun) _ _ (SInv.init _ g.header) hr).base
  obtain ⟨s, hk, e⟩ := hs p hp
  exact seen_known hg hb _ ((C52_defined io g d h p hp).resolve_right ht) (e ▸ id_ne s hk)

/-- Without thematic breaks in the graph every paragraph has the expected look. -/
theorem C105_all_partial (io : Str → Option Unit) (g : Asg) (d : Doc) (h : render io g = .ok d)
    (ht : thematicL g.blocks = false) : ∀ p ∈ paragraphs d, seen d 3 p.style = some (expected p.style) := by
  intro p hp
  refine C105_looks_partial io g d h p hp fun e => ?_
  have hn := (C52_exactly io g d h).2 ht p hp
  obtain ⟨st, hr, rfl⟩ := render_ok h
  have hi := keep (I := SInv True) _ (fun o _ s s' hi hrun => hi.op o (fun _ => trivial) hrun) _ _ (SInv.init _ g.header) hr
  exact hi.none (e ▸ hn)

/-- The paragraph of a thematic break has no look that the document defines, however many definitions are followed. -/
theorem C105_thematic_break (io : Str → Option Unit) (g : Asg) (d : Doc) (h : render io g = .ok d) (n : Nat) :
    seen d n b!"ThematicBreak" = none := by
  cases n with
  | zero => rfl
  | succ n =>
    have : d.styles.find? (fun e => e.id == b!"ThematicBreak") = none := by
      rw [List.find?_eq_none]
      intro e he hc
      obtain ⟨s, _, rfl⟩ := (gen_of h).1 e he
      exact gen_ne s (by simpa using hc)
    simp only [seen, this]

/-- Paragraphs that show roles have the looks of the roles. -/
theorem by_role {io : Str → Option Unit} {g : Asg} {d : Doc} (h : render io g = .ok d) (rs : List Role)
    (hb : ∀ r ∈ rs, Docx.Role.Boxed r) (ps : List Para) (hp : ∀ p ∈ ps, p ∈ paragraphs d) (hs : showRoles rs ps) :
    ps.map (fun p => seen d 3 p.style) = rs.map Role.look := by
  induction rs generalizing ps with
  | nil => cases ps with
    | nil => rfl
    | cons p ps => exact hs.elim
  | cons r rs ih => cases ps with
    | nil => exact hs.elim
    | cons p ps =>
      have hr := hb r (by simp)
      have e : seen d 3 p.style = r.look := by
        by_cases hx : r = .rule
        · subst hx
          rw [show p.style = _ from hs.1]
          exact C105_thematic_break io g d h 3
        · by_cases ht : p.style = b!"ThematicBreak"
          · exfalso
            have h1 := hs.1
            rw [ht] at h1
            revert h1
            cases r with
            | rule => exact absurd rfl hx
            | numbered => rintro ⟨n, hn⟩; simp at hn
            | heading n => intro hn; simp [Role.style] at hn
            | boxTitle n =>
              simp only [Docx.Role.Boxed, boxNames, List.mem_cons, List.not_mem_nil, or_false] at hr
              rcases hr with rfl | rfl | rfl <;> simp [Role.style]
            | boxText n =>
              simp only [Docx.Role.Boxed, boxNames, List.mem_cons, List.not_mem_nil, or_false] at hr
              rcases hr with rfl | rfl | rfl <;> simp [Role.style]
            | _ => simp [Role.style]
          · rw [C105_looks_partial io g d h p (hp p (by simp)) ht]
            exact role_look r hr p.style hs.1 hx
      simp only [List.map_cons, e]
      rw [ih (fun r hr => hb r (by simp [hr])) ps (fun p hp' => hp p (by simp [hp'])) hs.2]

/-- Paragraphs of the body are paragraphs of the document. -/
theorem body_sub (d : Doc) : ∀ p ∈ bodyParas d, p ∈ paragraphs d := by
  intro p hp
  simp only [bodyParas, List.mem_filterMap] at hp
  obtain ⟨i, hi, e⟩ := hp
  simp only [paragraphs, List.mem_flatMap]
  refine ⟨i, hi, ?_⟩
  cases i with
  | para q => cases e; simp
  | table rows => cases e
  | picture t => cases e

/-- In a graph as C55 asks for, without a title, the looks of the paragraphs follow, one by one, from the kinds of blocks they
come from. -/
theorem C105_kinds_partial (io : Str → Option Unit) (g : Asg) (d : Doc) (h : render io g = .ok d) (dirty : Bool)
    (hc : calmL false g.blocks = some dirty) (hh : g.header = none) :
    (bodyParas d).map (fun p => seen d 3 p.style) = (rolesL .body g.blocks).map Role.look :=
  by_role h _ (rolesL_boxed .body trivial g.blocks) _ (body_sub d) (C55_roles_partial io g d h dirty hc hh)

/-- The same with a title, which is bold. -/
theorem C105_kinds_title_partial (io : Str → Option Unit) (g : Asg) (d : Doc) (h : render io g = .ok d) (dirty : Bool)
    (hc : calmL false g.blocks = some dirty) (hd : Header) (hh : g.header = some hd) (ht : hd.title ≠ []) :
    (bodyParas d).map (fun p => seen d 3 p.style) =
      some { font := some b!"Times New Roman", size := some 24, line := some 480, first := some 0, bold := true } ::
        (rolesL .body g.blocks).map Role.look := by
  obtain ⟨p, ps, e, hs, hr⟩ := C55_roles_title_partial io g d h dirty hc hd hh ht
  have hb := body_sub d
  rw [e] at hb ⊢
  rw [List.map_cons, by_role h _ (rolesL_boxed .body trivial g.blocks) ps (fun q hq => hb q (by simp [hq])) hr]
  congr 1
  rw [C105_looks_partial io g d h p (hb p (by simp)) (by rw [hs]; decide), hs]
  decide

example : calmL false sampleGraph.blocks = some true ∧ (render allFiles sampleGraph).isOk = true ∧
    (rolesL .body sampleGraph.blocks).map (fun r => r.look.isSome) =
      [true, true, true, true, true, true, true, true, true, true, false] := by decide +kernel

/-- A section with a sidebar that has a title, code, a quotation and a verse. -/
def lookGraph : Asg :=
  { Asg.new with
    header := some ⟨[word b!"Title"], []⟩
    blocks := [
      plainPara b!"one",
      .section [word b!"Head"] none 1 [
        .parent .sidebar none b!"****" [plainPara b!"three"] [word b!"Box"] none [],
        .parent .quote none b!"____" [plainPara b!"four"] [] none [],
        .leaf .listing .delimited (some b!"----") [word b!"five"] none [],
        .leaf .verse .delimited (some b!"____") [word b!"six"] none []] []] }

/-- The looks of the paragraphs. -/
def wordLooks (d : Doc) : List (Option Look) := (paragraphs d).map fun p => seen d 3 p.style

/-- The paragraphs of the Word document of a graph have these looks. -/
def haveLooks (g : Asg) (ls : List (Option Look)) : Bool :=
  match render allFiles g with
  | .ok d => wordLooks d = ls
  | .error _ => false

/-- A look in Times New Roman with 12 points. -/
def times : Look := { font := some b!"Times New Roman", size := some 24 }

example : thematicL lookGraph.blocks = false ∧ haveLooks lookGraph [
    some { times with bold := true, line := some 480, first := some 0 },
    some { times with line := some 480, first := some 720 },
    some { times with bold := true, line := some 480, first := some 0 },
    some { times with bold := true, line := some 480, first := some 0 },
    some { times with line := some 480, left := some 720, right := some 720, first := some 360 },
    some { times with italic := true, left := some 720, right := some 720, first := some 0 },
    some { font := some b!"Courier New", size := some 24, first := some 0 },
    some { times with italic := true, left := some 0, right := some 0, first := some (-720) }] = true := by decide +kernel

/-- Whether the Word document of a graph defines this look for the style. -/
def definesLook (g : Asg) (id : Str) (l : Look) : Bool :=
  match render allFiles g with
  | .ok d => seen d 3 id = some l
  | .error _ => false

/-- Although a centred bold style is defined for thematic breaks, their paragraph does not have it. -/
theorem C105_witness : haveLooks (graphOf [.brk .thematic []]) [none] = true ∧
    definesLook (graphOf [.brk .thematic []]) b!"Thematic Break"
      { times with bold := true, line := some 480, first := some 720, centred := true } = true := by
  decide +kernel

end Adoc.Props

import Verif.Props.Scanner
import Verif.Proof.ScanSafe
/-!
# Properties of the scanner: C07

The property is false of the code: there are short sources on which the scanner panics or never returns. Each is
proved below. The partial theorem covers every text that ends with a newline and in which each construct is closed.
-/
namespace Adoc.Props
open Adoc Scanner Spec

/-- **C07** fails: sources on which iterating the scanner panics. -/
theorem C07_panics : ∀ src ∈ [b!"AT&T", b!"{foo", b!":foo", b!"=", b!"=é\n", b!"<<foo", b!"<<é>>\n", b!"[[foo]]", b!"tag::foo",
    b!"http://aé\n", b!"|é\n", b!"======é\n"], ∃ it ∈ scan src, ∃ p, it = .panic p := by
  intro src h
  simp only [List.mem_cons, List.not_mem_nil, or_false] at h
  rcases h with rfl | rfl | rfl | rfl | rfl | rfl | rfl | rfl | rfl | rfl | rfl | rfl
  all_goals first
    | exact ⟨.panic .index, by decide, _, rfl⟩
    | exact ⟨.panic .slice, by decide, _, rfl⟩

/-- **C07** fails: sources on which iterating the scanner never ends. -/
theorem C07_hangs : ∀ src ∈ [b!"image::x\n", b!"see image:x\n", b!"include::x\n", b!"a [.x\n", b!":foo: bar",
    b!"tag::a[]\ntag::b[]\n"], .hang ∈ scan src := by
  decide

theorem safe_runF (src : Str) (hu : ∃ cs, src = enc cs) (hc : WellClosed src) (n : Nat) :
    ∀ s : Scanner, s.src = src → s.expectingTagEnd = false → s.current ≤ src.length → isBoundary src s.current = true →
      ∀ it ∈ runF n s, it.returned = true := by
  induction n with
  | zero => intro s _ _ _ _ it hi; cases hi
  | succ n ih =>
    intro s hs he hl hb it hi
    rw [runF_succ] at hi
    unfold Scanner.next at hi
    by_cases hend : s.isAtEnd = true
    · rw [if_pos hend] at hi
      by_cases hsc : s.scanning = true
      · rw [if_pos hsc] at hi
        simp only [Item.returned, if_true, List.mem_cons] at hi
        rcases hi with rfl | hi
        · rfl
        · exact ih { s with scanning := false } hs he hl hb it hi
      · rw [if_neg hsc] at hi; cases hi
    · rw [if_neg hend] at hi
      have hlt : s.current < s.src.length := by
        unfold Scanner.isAtEnd at hend; simpa using hend
      have hsafe : Safe { s with start := s.current } :=
        .of_closed (by rw [← hs] at hu; exact hu) (by rw [hs]; exact hb) hlt he (by rw [← hs] at hc; exact hc)
      have hg := hsafe.dispatch (c := s.src.getD s.current 0) (by
        dsimp only
        rw [List.getD_eq_getElem?_getD, List.getElem?_eq_getElem hlt]; rfl)
      have hst : scanToken { s with start := s.current }
          = dispatch (at_ { s with start := s.current } (s.current + 1)) (s.src.getD s.current 0) := rfl
      rw [hst] at hi
      generalize dispatch (at_ { s with start := s.current } (s.current + 1)) (s.src.getD s.current 0) = r at *
      obtain ⟨i, s'⟩ := r
      obtain ⟨h1, h2, h3, h4, h5, _, _⟩ := hg
      dsimp only at h1 h2 h3 h4 h5 hi
      simp only [h1, if_true, List.mem_cons] at hi
      rcases hi with rfl | hi
      · exact h1
      · exact ih s' (by rw [h2, hs]) (by rw [h5, he]) (by rw [← hs]; exact h3) (by rw [← hs]; exact h4) it hi

/-- **C07**, partial: on every text that is valid UTF-8, ends with a newline and has its constructs closed
(`Spec.WellClosed`), every call returns a token or an error value.

Missing from the full statement: all other texts. `C07_panics` and `C07_hangs` show that it is false there. -/
theorem C07_returns_partial (cs : List Char) (hc : WellClosed (enc cs)) : ∀ it ∈ scan (enc cs), ¬Failed it := by
  intro it hi
  rw [failed_iff]
  rw [safe_runF (enc cs) ⟨cs, rfl⟩ hc _ (Scanner.new (enc cs)) rfl rfl (Nat.zero_le _) (by simp [Scanner.new, newWithStack, isBoundary]) it hi]
  simp

-- a closed text with a heading marker, a cross reference and a multi-byte character
example : WellClosed (enc "== é\n<<b>>\n".toList) := by
  have he : enc "== é\n<<b>>\n".toList = b!"== é\n<<b>>\n" := by decide
  rw [he]
  refine ⟨by decide, ?_⟩
  intro p r h
  have hr : r ∈ (List.range 13).map (fun k => (b!"== é\n<<b>>\n").drop k) := by
    refine List.mem_map.2 ⟨p.length, ?_, by rw [h, List.drop_left]⟩
    have := congrArg List.length h
    simp at this ⊢; omega
  rw [show (List.range 13).map (fun k => (b!"== é\n<<b>>\n").drop k) = ([[61, 61, 32, 195, 169, 10, 60, 60, 98, 62, 62, 10], [61, 32, 195, 169, 10, 60, 60, 98, 62, 62, 10],
      [32, 195, 169, 10, 60, 60, 98, 62, 62, 10], [195, 169, 10, 60, 60, 98, 62, 62, 10], [169, 10, 60,
      60, 98, 62, 62, 10], [10, 60, 60, 98, 62, 62, 10], [60, 60, 98, 62, 62, 10], [60, 98, 62, 62, 10],
      [98, 62, 62, 10], [62, 62, 10], [62, 10], [10], []] : List Str) by decide] at hr
  have no : ∀ (pat : Str) (P : Prop), pat.isPrefixOf r = false → pat <+: r → P := fun pat P h1 h2 => by
    rw [← List.isPrefixOf_iff_prefix, h1] at h2; cases h2
  clear h
  simp only [List.mem_cons, List.not_mem_nil, or_false] at hr
  rcases hr with rfl | rfl | rfl | rfl | rfl | rfl | rfl | rfl | rfl | rfl | rfl | rfl | rfl
  all_goals
    refine ⟨no _ _ (by decide), no _ _ (by decide), no _ _ (by decide), no _ _ (by decide), ?_, ?_, no _ _ (by decide),
      no _ _ (by decide), no _ _ (by decide), no _ _ (by decide)⟩
  all_goals first
    | exact no _ _ (by decide)
    | exact fun _ => ⟨b!"<<b", b!"\n", by decide, by decide⟩
    | exact fun _ => ⟨2, 32, b!"é\n<<b>>\n", by decide, by decide, by decide⟩
    | exact fun _ => ⟨1, 32, b!"é\n<<b>>\n", by decide, by decide, by decide⟩

end Adoc.Props

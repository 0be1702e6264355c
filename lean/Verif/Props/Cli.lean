import Verif.Model.Cli
/-!
# C41: where the output goes
-/
namespace Adoc.Props
open Cli

private theorem drop_not {p : UInt8 → Bool} {x : UInt8} (hx : p x = false) (a b : Str) (h : ∀ c ∈ a, p c = true) :
    (a ++ x :: b).dropWhile p = x :: b := by
  rw [List.dropWhile_append_of_pos h]
  simp [hx]

private theorem take_not {p : UInt8 → Bool} {x : UInt8} (hx : p x = false) (a b : Str) (h : ∀ c ∈ a, p c = true) :
    (a ++ x :: b).takeWhile p = a := by
  rw [List.takeWhile_append_of_pos h]
  simp [hx]

private theorem take_all {p : UInt8 → Bool} (a : Str) (h : ∀ c ∈ a, p c = true) : a.takeWhile p = a := by
  simpa using List.takeWhile_append_of_pos (l₁ := a) (l₂ := []) h

private theorem drop_all {p : UInt8 → Bool} (a : Str) (h : ∀ c ∈ a, p c = true) : a.dropWhile p = [] := by
  simpa using List.dropWhile_append_of_pos (l₁ := a) (l₂ := []) h

/-- A directory prefix of a path: empty, or ending in a slash. -/
def IsDir (d : Str) : Prop := d = [] ∨ d.getLast? = some 47

private theorem dir_rev {d : Str} (h : IsDir d) : d.reverse = [] ∨ ∃ r, d.reverse = 47 :: r := by
  rcases h with h | h
  · simp [h]
  · right
    rw [List.getLast?_eq_head?_reverse] at h
    cases e : d.reverse with
    | nil => simp [e] at h
    | cons x r => simp [e] at h; exact ⟨r, by rw [h]⟩

private theorem span_dir (name d : Str) (hd : IsDir d) (h : ∀ c ∈ name, c ≠ 47) :
    (name ++ d.reverse).takeWhile (· ≠ 47) = name ∧ (name ++ d.reverse).dropWhile (· ≠ 47) = d.reverse := by
  rcases dir_rev hd with e | ⟨r, e⟩
  · rw [e, List.append_nil]; exact ⟨take_all _ (by simpa using h), drop_all _ (by simpa using h)⟩
  · rw [e]; exact ⟨take_not (by simp) _ _ (by simpa using h), drop_not (by simp) _ _ (by simpa using h)⟩

private theorem dropTrailing_name (name d : Str) (hn : name ≠ []) (hdot : name ≠ [46]) (h : ∀ c ∈ name, c ≠ 47) :
    dropTrailing (name ++ d) = name ++ d := by
  match name, hn with
  | [x], _ =>
    have hx : x ≠ 47 := h x (by simp)
    have hx' : x ≠ 46 := by simpa using hdot
    simp only [List.cons_append, List.nil_append]
    unfold dropTrailing
    split <;> simp_all
  | x :: y :: r, _ =>
    have hx : x ≠ 47 := h x (by simp)
    have hy : y ≠ 47 := h y (by simp)
    simp only [List.cons_append]
    unfold dropTrailing
    split <;> simp_all

/-- The extension of a file name is replaced: everything after the last dot of the file name, in any directory. -/
theorem C41_replaces_extension (dir stem old ext : Str) (hd : IsDir dir) (hs : stem ≠ [])
    (hss : ∀ c ∈ stem, c ≠ 47) (ho : ∀ c ∈ old, c ≠ 47 ∧ c ≠ 46)
    (hdd : stem ++ 46 :: old ≠ [46, 46]) :
    setExtension (dir ++ stem ++ 46 :: old) ext = dir ++ stem ++ 46 :: ext := by
  have hrev : (dir ++ stem ++ 46 :: old).reverse = (old.reverse ++ 46 :: stem.reverse) ++ dir.reverse := by simp
  have hmem : ∀ c ∈ old.reverse ++ 46 :: stem.reverse, c ≠ 47 := by
    intro c hc
    simp only [List.mem_append, List.mem_reverse, List.mem_cons] at hc
    rcases hc with hc | rfl | hc
    · exact (ho c hc).1
    · decide
    · exact hss c hc
  have hne : old.reverse ++ 46 :: stem.reverse ≠ [] := by simp
  have hlen : 2 ≤ (old.reverse ++ 46 :: stem.reverse).length := by
    have : 0 < stem.length := List.length_pos_iff.mpr hs
    simp; omega
  have hdot : old.reverse ++ 46 :: stem.reverse ≠ [46] := by intro e; rw [e] at hlen; simp at hlen
  have hdots : old.reverse ++ 46 :: stem.reverse ≠ [46, 46] := by
    intro e
    apply hdd
    have := congrArg List.reverse e
    simpa using this
  have hstem : stemRev (old.reverse ++ 46 :: stem.reverse) = stem.reverse := by
    unfold stemRev
    rw [drop_not (by simp) _ _ (by intro c hc; simpa using (ho c (by simpa using hc)).2)]
    simp [hs]
  unfold setExtension
  simp only [hrev, dropTrailing_name _ _ hne hdot hmem, (span_dir _ _ hd hmem).1, (span_dir _ _ hd hmem).2, hstem]
  rw [if_neg (by simp only [not_or]; exact ⟨hne, hdot, hdots⟩)]
  simp

/-- A file name without a dot (or with only a leading dot) gets the extension appended. -/
theorem C41_appends_extension (dir name ext : Str) (hd : IsDir dir) (hn : name ≠ [])
    (hd1 : name ≠ [46]) (hss : ∀ c ∈ name, c ≠ 47) (ho : ∀ c ∈ name.tail, c ≠ 46) :
    setExtension (dir ++ name) ext = dir ++ name ++ 46 :: ext := by
  have hrev : (dir ++ name).reverse = name.reverse ++ dir.reverse := by simp
  have hmem : ∀ c ∈ name.reverse, c ≠ 47 := by intro c hc; exact hss c (by simpa using hc)
  have hne : name.reverse ≠ [] := by simpa using hn
  have hdot : name.reverse ≠ [46] := by
    intro e; have := congrArg List.reverse e; exact hd1 (by simpa using this)
  have hdots : name.reverse ≠ [46, 46] := by
    intro e
    have e' : name = [46, 46] := by have := congrArg List.reverse e; simpa using this
    subst e'
    exact ho 46 (by simp) rfl
  have hstem : stemRev name.reverse = name.reverse := by
    cases name with
    | nil => exact absurd rfl hn
    | cons x r =>
      have hr : ∀ c ∈ r.reverse, (fun c : UInt8 => decide (c ≠ 46)) c = true := by
        intro c hc; simpa using ho c (by simpa using hc)
      unfold stemRev
      rw [List.reverse_cons]
      by_cases hx : x = 46
      · subst hx
        rw [drop_not (by simp) _ _ hr]
        simp
      · rw [drop_all (r.reverse ++ [x]) (by
          intro c hc
          simp only [List.mem_append, List.mem_singleton] at hc
          rcases hc with hc | rfl
          · exact hr c hc
          · simpa using hx)]
  unfold setExtension
  simp only [hrev, dropTrailing_name _ _ hne hdot hmem, (span_dir _ _ hd hmem).1, (span_dir _ _ hd hmem).2, hstem]
  rw [if_neg (by simp only [not_or]; exact ⟨hne, hdot, hdots⟩)]
  simp

/-- The end of a path that names nothing: separators and components of one dot. -/
inductive Trail : Str → Prop where
  | nil : Trail []
  | slash (t : Str) (h : Trail t) : Trail (t ++ b!"/")
  | dot (t : Str) (h : Trail t) : Trail (t ++ b!"/.")

private theorem dropTrailing_trail (p : Str) {t : Str} (h : Trail t) : dropTrailing (p ++ t).reverse = dropTrailing p.reverse := by
  induction h with
  | nil => simp
  | slash t _ ih =>
    rw [← List.append_assoc, List.reverse_append]
    show dropTrailing (47 :: (p ++ t).reverse) = _
    rw [dropTrailing]; exact ih
  | dot t _ ih =>
    rw [← List.append_assoc, List.reverse_append]
    show dropTrailing (46 :: 47 :: (p ++ t).reverse) = _
    rw [dropTrailing, dropTrailing]; exact ih

/-- What names nothing at the end of a path is dropped, if the path names a file. -/
theorem C41_trailing (p t ext : Str) (ht : Trail t) (h : setExtension p ext ≠ p) :
    setExtension (p ++ t) ext = setExtension p ext := by
  unfold setExtension at h ⊢
  simp only [dropTrailing_trail p ht] at h ⊢
  split
  · rename_i hc; rw [if_pos hc] at h; exact absurd rfl h
  · rfl

/-- Where the path ends in two dots, or names nothing, it is taken as it is. -/
theorem C41_no_name (dir name t ext : Str) (hd : IsDir dir) (ht : Trail t)
    (hn : name = b!".." ∨ (dir = [] ∧ (name = [] ∨ name = b!"."))) : setExtension (dir ++ name ++ t) ext = dir ++ name ++ t := by
  unfold setExtension
  simp only [dropTrailing_trail _ ht]
  rcases hn with rfl | ⟨rfl, rfl | rfl⟩
  · have hrev : (dir ++ b!"..").reverse = b!".." ++ dir.reverse := by simp
    have hm : ∀ c ∈ b!"..", c ≠ (47 : UInt8) := by decide
    simp only [hrev, dropTrailing_name _ _ (by decide : b!".." ≠ []) (by decide) hm, (span_dir _ _ hd hm).1]
    rw [if_pos (by simp)]
  · rw [if_pos]
    left; simp [dropTrailing]
  · rw [if_pos]
    right; left; simp [dropTrailing]

private theorem dropTrailing_split : ∀ (n : Nat) (r : Str), r.length ≤ n →
    ∃ t, Trail t.reverse ∧ r = t ++ dropTrailing r ∧ (∀ x, dropTrailing r ≠ 47 :: x) ∧ (∀ x, dropTrailing r ≠ 46 :: 47 :: x)
  | n, [], _ => ⟨[], .nil, by simp [dropTrailing], by simp [dropTrailing], by simp [dropTrailing]⟩
  | 0, _ :: _, h => by simp at h
  | n + 1, c :: r, h => by
    have hl : r.length ≤ n := by simpa using h
    by_cases hc : c = 47
    · subst hc
      obtain ⟨t, h1, h2, h3, h4⟩ := dropTrailing_split n r hl
      rw [dropTrailing]
      exact ⟨47 :: t, by rw [List.reverse_cons]; exact .slash _ h1, by rw [List.cons_append, ← h2], h3, h4⟩
    · by_cases hd : c = 46 ∧ ∃ r', r = 47 :: r'
      · obtain ⟨rfl, r', rfl⟩ := hd
        obtain ⟨t, h1, h2, h3, h4⟩ := dropTrailing_split n r' (by simp at hl; omega)
        rw [dropTrailing, dropTrailing]
        exact ⟨46 :: 47 :: t, by simpa using Trail.dot _ h1, by rw [List.cons_append, List.cons_append, ← h2], h3, h4⟩
      · have he : dropTrailing (c :: r) = c :: r := by
          unfold dropTrailing
          split
          · rename_i heq; cases heq; exact absurd rfl hc
          · rename_i heq; cases heq; exact absurd ⟨rfl, _, rfl⟩ hd
          · rfl
        rw [he]
        refine ⟨[], .nil, rfl, fun x hx => hc (by injection hx), fun x hx => hd ?_⟩
        injection hx with h1 h2
        exact ⟨h1, x, h2⟩

private theorem dropWhile_head {p : UInt8 → Bool} : ∀ {l : Str} {c : UInt8} {r : Str}, l.dropWhile p = c :: r → p c = false
  | [], _, _, h => by simp at h
  | x :: l, c, r, h => by
    rw [List.dropWhile_cons] at h
    split at h
    · exact dropWhile_head h
    · rename_i hx; cases h; simpa using hx

/-- Every path is a directory, a name and an end that names nothing, so that the theorems on names, `C41_no_name` and
`C41_trailing` together say what happens to every path. -/
theorem C41_every_path (p : Str) : ∃ dir name t, p = dir ++ name ++ t ∧ IsDir dir ∧ Trail t ∧ (∀ c ∈ name, c ≠ 47)
    ∧ (name = [] → dir = []) ∧ (name = b!"." → dir = []) := by
  obtain ⟨t, h1, h2, h3, h4⟩ := dropTrailing_split _ p.reverse (Nat.le_refl _)
  generalize dropTrailing p.reverse = r at *
  have hs := List.takeWhile_append_dropWhile (p := fun c : UInt8 => decide (c ≠ 47)) (l := r)
  have hmem : ∀ c ∈ r.takeWhile (fun c : UInt8 => decide (c ≠ 47)), c ≠ 47 := by
    intro c hc
    have := List.all_takeWhile (p := fun c : UInt8 => decide (c ≠ 47)) (l := r)
    rw [List.all_eq_true] at this
    simpa using this c hc
  refine ⟨(r.dropWhile (fun c => decide (c ≠ 47))).reverse, (r.takeWhile (fun c => decide (c ≠ 47))).reverse, t.reverse, ?_, ?_, h1, ?_, ?_, ?_⟩
  · rw [← List.reverse_append, hs, ← List.reverse_append, ← h2, List.reverse_reverse]
  · cases hd : r.dropWhile (fun c : UInt8 => decide (c ≠ 47)) with
    | nil => exact .inl rfl
    | cons c x =>
      right
      have := dropWhile_head hd
      have : c = 47 := by simpa using this
      subst this
      simp
  · intro c hc; exact hmem c (by simpa using hc)
  · intro hn
    rw [List.reverse_eq_nil_iff] at hn
    rw [hn, List.nil_append] at hs
    cases r with
    | nil => rfl
    | cons c x =>
      rw [hs]
      exact absurd (by rw [dropWhile_head hs |> fun h => (by simpa using h : c = 47)]) (h3 x)
  · intro hn
    have hn : r.takeWhile (fun c : UInt8 => decide (c ≠ 47)) = [46] := by
      have := congrArg List.reverse hn; simpa using this
    rw [hn] at hs
    cases hd : r.dropWhile (fun c : UInt8 => decide (c ≠ 47)) with
    | nil => rfl
    | cons c x =>
      have hc : c = 47 := by simpa using dropWhile_head hd
      subst hc
      rw [hd] at hs
      exact absurd hs.symm (h4 x)

example : Trail b!"/./" ∧ setExtension b!"a/b.adoc/./" b!"html" = b!"a/b.html" ∧ setExtension b!"a/../" b!"html" = b!"a/../" := by
  refine ⟨.slash b!"/." (.dot [] .nil), ?_, ?_⟩
  · exact (C41_trailing b!"a/b.adoc" b!"/./" b!"html" (.slash b!"/." (.dot [] .nil)) (by decide +kernel)).trans (by decide +kernel)
  · exact C41_no_name b!"a/" b!".." b!"/" _ (.inr rfl) (.slash [] .nil) (.inl rfl)

/-- Where the name of the input has the extension of the output already, the input is written over. -/
theorem C41_overwrites (dir stem : Str) (b : Backend) (hd : IsDir dir) (hs : stem ≠ []) (hss : ∀ c ∈ stem, c ≠ 47)
    (hf : dir ++ stem ++ 46 :: b.ext ≠ b!"-") (hb : b ≠ .docx) (x : Bool) :
    destination ⟨dir ++ stem ++ 46 :: b.ext, none, b, x⟩ = .file (dir ++ stem ++ 46 :: b.ext) := by
  have : setExtension (dir ++ stem ++ 46 :: b.ext) b.ext = dir ++ stem ++ 46 :: b.ext :=
    C41_replaces_extension dir stem b.ext b.ext hd hs hss (by cases b <;> decide)
      (by intro h; have := congrArg List.length h; cases b <;> simp [Backend.ext] at this)
  cases b <;> simp_all [destination, readOutput]

/-- The three cases of the destination for the text formats. -/
theorem C41_text_formats (a : Args) (hb : a.backend ≠ .docx) :
    (a.output = some b!"-" → destination a = .stdout) ∧
    (∀ o, a.output = some o → o ≠ b!"-" → destination a = .file o) ∧
    (a.output = none → a.file = b!"-" → destination a = .stdout) ∧
    (a.output = none → a.file ≠ b!"-" → destination a = .file (setExtension a.file a.backend.ext)) := by
  obtain ⟨file, output, backend, nr⟩ := a
  cases backend <;> simp_all +contextual [destination, readOutput]

/-- Docx output never goes to standard output: the program stops with an error instead, also with `-x`. -/
theorem C41_docx (a : Args) (hb : a.backend = .docx) :
    destination a ≠ .stdout ∧
    (a.noResolve = true → destination a = .refused) ∧
    (a.noResolve = false →
      (a.output = some b!"-" → destination a = .refused) ∧
      (∀ o, a.output = some o → o ≠ b!"-" → destination a = .file o) ∧
      (a.output = none → a.file = b!"-" → destination a = .refused) ∧
      (a.output = none → a.file ≠ b!"-" → destination a = .file (setExtension a.file b!"docx"))) := by
  obtain ⟨file, output, backend, nr⟩ := a
  subst hb
  cases nr <;> cases output <;> simp_all +contextual [destination, readOutput, Backend.ext] <;> split <;> simp

example : destination ⟨b!"a.b/c.adoc", none, .json, false⟩ = .file b!"a.b/c.json" := by decide +kernel
example : destination ⟨b!"a.b/c", none, .htmlbook, true⟩ = .file b!"a.b/c.html" := by decide +kernel
example : destination ⟨b!"x.adoc", some b!"-", .htmlbook, true⟩ = .stdout := by decide
example : destination ⟨b!"x.adoc", some b!"-", .docx, false⟩ = .refused := by decide
example : IsDir b!"a.b/" ∧ b!"c" ≠ [] ∧ b!"a.b/" ++ b!"c" ++ 46 :: b!"adoc" = b!"a.b/c.adoc" := by
  refine ⟨Or.inr ?_, ?_, ?_⟩ <;> decide

end Adoc.Props

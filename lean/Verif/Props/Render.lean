import Verif.Model.Render
/-!
# C38, C39, C40: tables and text runs in the renderers
-/
namespace Adoc.Props
open Render

variable {α : Type}

/-! ## Rows

Specification: a table laid out in rows of `cols` cells. -/

/-- Every row but the last has exactly `cols` cells, and the last has at most `cols`. -/
def FullRows (cols : Nat) (rows : List (List α)) : Prop :=
  (∀ r ∈ rows.dropLast, r.length = cols) ∧ (∀ r ∈ rows, r.length ≤ cols)

private theorem mod_step {cols idx k : Nat} (hk : k < cols) (hm : idx % cols = k) :
    (idx + 1) % cols = 0 ↔ k + 1 = cols := by
  subst hm
  have hc : 0 < cols := by omega
  rw [Nat.add_mod]
  by_cases h1 : cols = 1
  · subst h1; simp [Nat.mod_one]
  · rw [Nat.mod_eq_of_lt (a := 1) (by omega)]
    by_cases h : idx % cols + 1 = cols
    · rw [h]; simp
    · rw [Nat.mod_eq_of_lt (by omega)]; omega

/-- What the HTML loop keeps true: all cells so far, in rows of `cols`. -/
private theorem htmlLoop_spec (cols total : Nat) (hc : 1 ≤ cols) (cs : List α) :
    ∀ (idx : Nat) (cur : List α) (rows : List (List α)), (2 ≤ cols ∨ 1 ≤ idx) →
      idx + cs.length = total →
      idx % cols = cur.length % cols → (cur.length < cols ∨ (cs = [] ∧ cur.length ≤ cols)) →
      (∀ r ∈ rows, r.length = cols) →
      (htmlLoop cols total cs idx cur rows).flatten = rows.flatten ++ cur ++ cs ∧
      FullRows cols (htmlLoop cols total cs idx cur rows) := by
  induction cs with
  | nil =>
    intro idx cur rows _ _ _ hcur hrows
    simp only [htmlLoop, List.flatten_append, List.flatten_cons, List.flatten_nil, List.append_nil, true_and]
    refine ⟨by simpa using hrows, ?_⟩
    intro r hr
    simp only [List.mem_append, List.mem_singleton] at hr
    rcases hr with hr | rfl
    · exact Nat.le_of_eq (hrows r hr)
    · omega
  | cons c cs ih =>
    intro idx cur rows h2 htot hmod hcur hrows
    have hlt : cur.length < cols := by rcases hcur with h | ⟨h, _⟩; exact h; cases h
    rw [Nat.mod_eq_of_lt hlt] at hmod
    have hstep := mod_step hlt hmod
    simp only [List.length_cons] at htot
    have hm1 : (idx + 1) % cols = (cur.length + 1) % cols := by rw [← Nat.mod_add_mod, hmod]
    simp only [htmlLoop]
    split
    · rename_i hcond
      have hfull := hstep.mp hcond.2.1
      have := ih (idx + 1) [] (rows ++ [cur ++ [c]]) (by omega) (by omega) (by simpa using hcond.2.1) (by simp; omega)
        (by
          intro r hr
          simp only [List.mem_append, List.mem_singleton] at hr
          rcases hr with hr | rfl
          · exact hrows r hr
          · simpa using hfull)
      refine ⟨?_, this.2⟩
      rw [this.1]; simp
    · rename_i hcond
      have := ih (idx + 1) (cur ++ [c]) rows (by omega) (by omega) (by simpa using hm1) (by
        by_cases hfull : cur.length + 1 = cols
        · right
          have h0 := hstep.mpr hfull
          have hidx : idx + 1 = total := by
            false_or_by_contra
            rename_i hne
            apply hcond
            refine ⟨?_, h0, hne⟩
            rcases h2 with h2 | h2
            · have : idx ≠ 0 := by
                rintro rfl
                simp only [Nat.zero_mod] at hmod
                omega
              omega
            · omega
          refine ⟨?_, by simp; omega⟩
          exact List.eq_nil_of_length_eq_zero (by omega)
        · left; simp; omega) hrows
      refine ⟨?_, this.2⟩
      rw [this.1]; simp

/-- **C39** (with at least two columns, or with a header row): each cell of the table is in exactly one row, in
order, and the rows have the declared number of columns. -/
theorem C39_rows_partial (cols : Nat) (header : Bool) (cells : List α) (hc : 2 ≤ cols ∨ (1 ≤ cols ∧ header = true))
    (hn : header = true → cols ≤ cells.length) :
    let t := htmlTable cols header cells
    (header = true → t.1 = (cells.take cols).map some) ∧ (header = false → t.1 = []) ∧
    t.2.flatten = (if header then cells.drop cols else cells) ∧ FullRows cols t.2 := by
  have hc1 : 1 ≤ cols := by omega
  cases header with
  | false =>
    have := htmlLoop_spec cols cells.length hc1 cells 0 [] [] (by simp at hc; omega) (by simp) (by simp) (by simp; omega) (by simp)
    simp only [htmlTable, Bool.false_eq_true, if_false, List.drop_zero]
    refine ⟨by simp, by simp, ?_, this.2⟩
    rw [this.1]; simp
  | true =>
    have hle := hn rfl
    have := htmlLoop_spec cols cells.length hc1 (cells.drop cols) cols [] [] (by omega) (by simp; omega) (by simp)
      (by simp; omega) (by simp)
    simp only [htmlTable, if_true]
    refine ⟨fun _ => ?_, by simp, ?_, this.2⟩
    · apply List.ext_getElem
      · simp; omega
      · intro i h1 h2
        simp only [List.length_map, List.length_range] at h1
        simp [List.getElem?_eq_getElem (show i < cells.length by omega)]
    · rw [this.1]; simp

private theorem htmlLoop_flatten (cols total : Nat) (cs : List α) : ∀ (idx : Nat) (cur : List α) (rows : List (List α)),
    (htmlLoop cols total cs idx cur rows).flatten = rows.flatten ++ cur ++ cs := by
  induction cs with
  | nil => intro idx cur rows; simp [htmlLoop]
  | cons c cs ih =>
    intro idx cur rows
    simp only [htmlLoop]
    split <;> rw [ih] <;> simp

/-- **C39**, first half, for every table and every number of columns: each cell is in the head or in exactly one row, in order. -/
theorem C39_each_once (cols : Nat) (header : Bool) (cells : List α) :
    let t := htmlTable cols header cells
    t.1.filterMap id ++ t.2.flatten = cells := by
  have hh : ∀ n, ((List.range n).map fun i => cells[i]?).filterMap id = cells.take n := by
    intro n
    induction n with
    | zero => simp
    | succ n ih =>
      rw [List.range_succ, List.map_append, List.filterMap_append, ih, List.take_add_one]
      simp only [List.map_cons, List.map_nil]
      cases cells[n]? <;> rfl
  simp only [htmlTable, htmlLoop_flatten, hh]
  simp

private theorem htmlLoop_one (total : Nat) (cs : List α) (z : α) : ∀ (idx : Nat) (rows : List (List α)), 0 < idx → idx + cs.length + 1 = total →
    htmlLoop 1 total (cs ++ [z]) idx [] rows = rows ++ (cs ++ [z]).map fun c => [c] := by
  induction cs with
  | nil =>
    intro idx rows h0 ht
    simp only [List.length_nil] at ht
    simp only [List.nil_append, htmlLoop]
    rw [if_neg (by omega)]
    simp
  | cons c cs ih =>
    intro idx rows h0 ht
    simp only [List.length_cons] at ht
    simp only [List.cons_append, htmlLoop, List.nil_append]
    rw [if_pos ⟨h0, Nat.mod_one _, by omega⟩, ih (idx + 1) _ (by omega) (by omega)]
    simp

/-- The rows with one column and no header, exactly: two cells in the first, one in each of the others. -/
theorem C39_one_column_rows (a b z : α) (cells : List α) :
    (htmlTable 1 false (a :: b :: (cells ++ [z]))).2 = [a, b] :: (cells ++ [z]).map fun c => [c] := by
  simp only [htmlTable, Bool.false_eq_true, if_false, List.drop_zero, htmlLoop, List.length_cons, List.length_append, List.nil_append, List.length_nil]
  rw [if_neg (by omega), if_pos ⟨by omega, trivial, by omega⟩, htmlLoop_one _ cells z _ _ (by omega) (by omega)]
  simp

/-- **C39** fails for one column without a header: the first row holds two cells. -/
theorem C39_one_column (a b c : α) (cs : List α) :
    ∃ rows, (htmlTable 1 false (a :: b :: c :: cs)).2 = [a, b] :: rows := by
  have key : ∀ (cs : List α) (total idx : Nat) (cur : List α) (rows : List (List α)),
      ∃ more, htmlLoop 1 total cs idx cur ([a, b] :: rows) = [a, b] :: more := by
    intro cs
    induction cs with
    | nil => intro total idx cur rows; exact ⟨rows ++ [cur], rfl⟩
    | cons x xs ih =>
      intro total idx cur rows
      simp only [htmlLoop]
      split
      · rw [List.cons_append]; exact ih ..
      · exact ih ..
  have h : (htmlTable 1 false (a :: b :: c :: cs)).2
      = htmlLoop 1 (cs.length + 3) (c :: cs) 2 [] [[a, b]] := by
    simp [htmlTable, htmlLoop, Nat.mod_one]
  rw [h]
  exact key ..

example : htmlTable 2 true [1, 2, 3, 4, 5] = ([some 1, some 2], [[3, 4], [5]]) := by decide
example : htmlTable 1 false [1, 2, 3] = ([], [[1, 2], [3]]) := by decide

/-! ## Docx -/

private theorem docxLoop_spec (cols total : Nat) (hc : 2 ≤ cols) (cs : List α) :
    ∀ (idx : Nat) (cur : List α) (rows : List (List α)),
      idx + cs.length = total →
      idx % cols = cur.length % cols → (cur.length < cols ∨ (cs = [] ∧ cur.length ≤ cols)) →
      (cs = [] → total ≠ 0 → cur ≠ []) → (∀ r ∈ rows, r.length = cols) →
      ∃ rows' cur', docxLoop cols total cs idx cur rows = .ok (rows', cur') ∧
        rows'.flatten ++ cur' = rows.flatten ++ cur ++ cs ∧ (∀ r ∈ rows', r.length = cols) ∧
        cur'.length ≤ cols ∧ (total ≠ 0 → cur' ≠ []) := by
  induction cs with
  | nil =>
    intro idx cur rows _ _ hcur hne hrows
    exact ⟨rows, cur, rfl, by simp, hrows, by omega, hne rfl⟩
  | cons c cs ih =>
    intro idx cur rows htot hmod hcur _ hrows
    have hlt : cur.length < cols := by rcases hcur with h | ⟨h, _⟩; exact h; cases h
    rw [Nat.mod_eq_of_lt hlt] at hmod
    have hstep := mod_step hlt hmod
    simp only [List.length_cons] at htot
    have hm1 : (idx + 1) % cols = (cur.length + 1) % cols := by rw [← Nat.mod_add_mod, hmod]
    have hgo : ∀ h0 : ¬(0 < idx ∧ (idx + 1) % cols = 0 ∧ idx + 1 ≠ total),
        ∃ rows' cur', docxLoop cols total cs (idx + 1) (cur ++ [c]) rows = .ok (rows', cur') ∧
        rows'.flatten ++ cur' = rows.flatten ++ cur ++ c :: cs ∧ (∀ r ∈ rows', r.length = cols) ∧
        cur'.length ≤ cols ∧ (total ≠ 0 → cur' ≠ []) := by
      intro hcond
      obtain ⟨rows', cur', e, h1, h2, h3, h4⟩ := ih (idx + 1) (cur ++ [c]) rows (by omega) (by simpa using hm1) (by
        by_cases hfull : cur.length + 1 = cols
        · right
          have h0 := hstep.mpr hfull
          have hidx : idx + 1 = total := by
            false_or_by_contra
            rename_i hne
            apply hcond
            refine ⟨?_, h0, hne⟩
            have : idx ≠ 0 := by
              rintro rfl
              simp only [Nat.zero_mod] at hmod
              omega
            omega
          refine ⟨?_, by simp; omega⟩
          exact List.eq_nil_of_length_eq_zero (by omega)
        · left; simp; omega) (by simp) hrows
      exact ⟨rows', cur', e, by rw [h1]; simp, h2, h3, h4⟩
    simp only [docxLoop]
    split
    · rename_i hpos
      rw [if_neg (by omega)]
      split
      · rename_i hcond
        have hfull := hstep.mp hcond.1
        obtain ⟨rows', cur', e, h1, h2, h3, h4⟩ := ih (idx + 1) [] (rows ++ [cur ++ [c]]) (by omega)
          (by simpa using hcond.1) (by simp; omega)
          (by intro h; subst h; simp at htot; omega)
          (by
            intro r hr
            simp only [List.mem_append, List.mem_singleton] at hr
            rcases hr with hr | rfl
            · exact hrows r hr
            · simpa using hfull)
        exact ⟨rows', cur', e, by rw [h1]; simp, h2, h3, h4⟩
      · rename_i hcond
        exact hgo (by intro h; exact hcond h.2)
    · rename_i hcond
      exact hgo (by intro h; exact hcond h.1)

/-- **C38**, what holds with at least two columns: the rows of the docx table are full rows of the leading cells, in
order, each once. Missing: the cells after them, see `C38_last_row_lost`. -/
theorem C38_rows_partial (cols : Nat) (cells : List α) (hc : 2 ≤ cols) :
    ∃ rows rest, docxRows cols cells = .ok rows ∧ rows.flatten ++ rest = cells ∧ (∀ r ∈ rows, r.length = cols) ∧
      rest.length ≤ cols := by
  obtain ⟨rows, cur, e, h1, h2, h3, _⟩ := docxLoop_spec cols cells.length hc cells 0 [] [] (by simp) (by simp)
    (by simp; omega) (by intro h; simp [h]) (by simp)
  refine ⟨rows, cur, ?_, by simpa using h1, h2, h3⟩
  simp [docxRows, e, bind, Except.bind, pure, Except.pure]

/-- **C38** is false: whenever a table has cells, the cells of its last row are missing from the docx table. -/
theorem C38_last_row_lost (cols : Nat) (cells : List α) (hc : 2 ≤ cols) (hn : cells ≠ []) :
    ∃ rows rest, docxRows cols cells = .ok rows ∧ cells = rows.flatten ++ rest ∧ rest ≠ [] ∧ rest.length ≤ cols := by
  obtain ⟨rows, cur, e, h1, h2, h3, h4⟩ := docxLoop_spec cols cells.length hc cells 0 [] [] (by simp) (by simp)
    (by simp; omega) (by intro h; exact absurd h hn) (by simp)
  refine ⟨rows, cur, ?_, by simpa using h1.symm, h4 (by simpa using hn), h3⟩
  simp [docxRows, e, bind, Except.bind, pure, Except.pure]

/-- **C38** is false: without a column count a table of two or more cells makes the renderer panic. -/
theorem C38_no_columns (a b : α) (cs : List α) : docxRows 0 (a :: b :: cs) = .error (.panic .divZero) := by
  simp [docxRows, docxLoop, bind, Except.bind]

private theorem docxLoop_one (total : Nat) (cs : List α) (z : α) : ∀ (idx : Nat) (rows : List (List α)), 0 < idx → idx + cs.length + 1 = total →
    docxLoop 1 total (cs ++ [z]) idx [] rows = .ok (rows ++ cs.map fun c => [c], [z]) := by
  induction cs with
  | nil =>
    intro idx rows h0 ht
    simp only [List.length_nil] at ht
    simp only [List.nil_append, docxLoop, h0, if_true]
    rw [if_neg (by decide), if_neg (by omega)]
    simp
  | cons c cs ih =>
    intro idx rows h0 ht
    simp only [List.length_cons] at ht
    simp only [List.cons_append, docxLoop, h0, if_true, List.nil_append]
    rw [if_neg (by decide), if_pos ⟨Nat.mod_one _, by omega⟩, ih (idx + 1) _ (by omega) (by omega)]
    simp

/-- **C38** is false with one column, too: the first two cells are in one row, and the last cell is missing. -/
theorem C38_one_column (a b z : α) (cells : List α) :
    docxRows 1 (a :: b :: (cells ++ [z])) = .ok ([a, b] :: cells.map fun c => [c]) := by
  simp only [docxRows, docxLoop, List.length_cons, List.length_append, List.nil_append, List.length_nil]
  rw [if_neg (by decide), if_pos (by decide), if_neg (by decide), if_pos ⟨trivial, by omega⟩,
    docxLoop_one _ cells z _ _ (by omega) (by omega)]
  simp [bind, Except.bind, pure, Except.pure]

/-- With one column and at most two cells there are no rows. -/
theorem C38_one_column_short (a b : α) : docxRows 1 ([] : List α) = .ok [] ∧ docxRows 1 [a] = .ok [] ∧ docxRows 1 [a, b] = .ok [] := ⟨rfl, rfl, rfl⟩

example : docxRows 2 [1, 2, 3, 4] = .ok [[1, 2]] := rfl
example : docxRows 1 [1, 2, 3] = .ok [[1, 2]] := rfl

/-! ## Runs -/

mutual
/-- Specification: each text below an inline, in order, with the variants of the spans around it (outermost first). -/
def textsIn (around : List SpanVariant) : Inline → List (Str × List SpanVariant)
  | .lit _ v _ => [(v, around)]
  | .span v _ is _ _ _ => textsInL (around ++ [v]) is
  | .brk _ => []
  | .ref _ _ is _ _ => textsInL around is
def textsInL (around : List SpanVariant) : List Inline → List (Str × List SpanVariant)
  | [] => []
  | i :: is => textsIn around i ++ textsInL around is
end

mutual
/-- Does a span occur in an inline? -/
def hasSpan : Inline → Bool
  | .lit .. => false
  | .span .. => true
  | .brk _ => false
  | .ref _ _ is _ _ => hasSpanL is
def hasSpanL : List Inline → Bool
  | [] => false
  | i :: is => hasSpan i || hasSpanL is
end

mutual
/-- No span is followed by anything inside the same parent. -/
def SpansLast : Inline → Prop
  | .lit .. => True
  | .span _ _ is _ _ _ => SpansLastL is
  | .brk _ => True
  | .ref _ _ is _ _ => SpansLastL is
def SpansLastL : List Inline → Prop
  | [] => True
  | i :: is => SpansLast i ∧ (hasSpan i = true → is = []) ∧ SpansLastL is
end

/-- The text and variants of a run. -/
def runText : Run → List (Str × List SpanVariant)
  | .text s vs => [(s, vs)]
  | .brk => []

mutual
private theorem runsWith_vs (i : Inline) (vs : List SpanVariant) (h : hasSpan i = false) : (runsWith i vs).2 = vs := by
  cases i with
  | lit n v l => simp [runsWith]
  | span v f is m l o => simp [hasSpan] at h
  | brk l => simp [runsWith]
  | ref v t is m l => simp only [runsWith]; exact runsWithL_vs is vs (by simpa [hasSpan] using h)
private theorem runsWithL_vs (is : List Inline) (vs : List SpanVariant) (h : hasSpanL is = false) :
    (runsWithL is vs).2 = vs := by
  cases is with
  | nil => simp [runsWithL]
  | cons i is =>
    simp only [hasSpanL, Bool.or_eq_false_iff] at h
    simp only [runsWithL]
    rw [runsWith_vs i vs h.1, runsWithL_vs is vs h.2]
end

mutual
private theorem runsWith_texts (i : Inline) (vs : List SpanVariant) (h : SpansLast i) :
    (runsWith i vs).1.flatMap runText = textsIn vs i := by
  cases i with
  | lit n v l => simp [runsWith, runText, textsIn]
  | span v f is m l o => simp only [runsWith, textsIn]; exact runsWithL_texts is _ (by simpa [SpansLast] using h)
  | brk l => simp [runsWith, runText, textsIn]
  | ref v t is m l => simp only [runsWith, textsIn]; exact runsWithL_texts is vs (by simpa [SpansLast] using h)
private theorem runsWithL_texts (is : List Inline) (vs : List SpanVariant) (h : SpansLastL is) :
    (runsWithL is vs).1.flatMap runText = textsInL vs is := by
  cases is with
  | nil => simp [runsWithL, textsInL]
  | cons i is =>
    simp only [SpansLastL] at h
    simp only [runsWithL, textsInL, List.flatMap_append]
    rw [runsWith_texts i vs h.1]
    cases hs : hasSpan i with
    | false => rw [runsWith_vs i vs hs, runsWithL_texts is vs h.2.2]
    | true => have := h.2.1 hs; subst this; simp [runsWithL, textsInL]
end

/-- **C40**, partial: if inside a top-level inline no span is followed by anything, each text of a paragraph becomes
one run, in order, to which exactly the variants of its enclosing spans are applied. Missing: nested spans followed
by more content, where it is false (`C40_leak`). -/
theorem C40_runs_partial (is : List Inline) (h : ∀ i ∈ is, SpansLast i) :
    (runs is).flatMap runText = textsInL [] is := by
  induction is with
  | nil => simp [runs, textsInL]
  | cons i is ih =>
    have hr : (runsFrom i).flatMap runText = textsIn [] i := by
      have := h i (by simp)
      cases i with
      | lit n v l => simp [runsFrom, runText, textsIn]
      | span v f js m l o =>
        simp only [runsFrom, textsIn, List.nil_append]
        exact runsWithL_texts js _ (by simpa [SpansLast] using this)
      | brk l => simp [runsFrom, runText, textsIn]
      | ref v t js m l =>
        simp only [runsFrom, textsIn]
        exact runsWithL_texts js _ (by simpa [SpansLast] using this)
    simp only [textsInL]
    rw [← ih (fun j hj => h j (by simp [hj])), ← hr]
    simp [runs]

mutual
private theorem runsWith_mono (i : Inline) (vs : List SpanVariant) : vs <+: (runsWith i vs).2 := by
  cases i with
  | lit n v l => simp [runsWith]
  | span v f is m l o =>
    simp only [runsWith]
    exact List.IsPrefix.trans (List.prefix_append vs [v]) (runsWithL_mono is _)
  | brk l => simp [runsWith]
  | ref v t is m l => simp only [runsWith]; exact runsWithL_mono is vs
private theorem runsWithL_mono (is : List Inline) (vs : List SpanVariant) : vs <+: (runsWithL is vs).2 := by
  cases is with
  | nil => simp [runsWithL]
  | cons i is =>
    simp only [runsWithL]
    exact List.IsPrefix.trans (runsWith_mono i vs) (runsWithL_mono is _)
end

/-- Same texts in the same order, the second list with at least the variants of the first. -/
def Covers : List (Str × List SpanVariant) → List (Str × List SpanVariant) → Prop
  | [], [] => True
  | a :: as, b :: bs => a.1 = b.1 ∧ (∀ v ∈ a.2, v ∈ b.2) ∧ Covers as bs
  | _, _ => False

private theorem Covers.append {a b c d : List (Str × List SpanVariant)} (h1 : Covers a b) (h2 : Covers c d) :
    Covers (a ++ c) (b ++ d) := by
  induction a generalizing b with
  | nil => cases b with
    | nil => simpa using h2
    | cons y ys => simp [Covers] at h1
  | cons x xs ih => cases b with
    | nil => simp [Covers] at h1
    | cons y ys =>
      simp only [Covers] at h1
      simp only [List.cons_append, Covers]
      exact ⟨h1.1, h1.2.1, ih h1.2.2⟩

mutual
private theorem runsWith_covers (i : Inline) (ar vs : List SpanVariant) (h : ∀ v ∈ ar, v ∈ vs) :
    Covers (textsIn ar i) ((runsWith i vs).1.flatMap runText) := by
  cases i with
  | lit n v l => simpa [runsWith, runText, textsIn, Covers] using h
  | span v f is m l o =>
    simp only [runsWith, textsIn]
    refine runsWithL_covers is _ _ ?_
    intro w hw
    simp only [List.mem_append, List.mem_singleton] at hw ⊢
    exact hw.imp (h w) id
  | brk l => simp [runsWith, runText, textsIn, Covers]
  | ref v t is m l => simp only [runsWith, textsIn]; exact runsWithL_covers is ar vs h
private theorem runsWithL_covers (is : List Inline) (ar vs : List SpanVariant) (h : ∀ v ∈ ar, v ∈ vs) :
    Covers (textsInL ar is) ((runsWithL is vs).1.flatMap runText) := by
  cases is with
  | nil => simp [runsWithL, textsInL, Covers]
  | cons i is =>
    simp only [runsWithL, textsInL, List.flatMap_append]
    refine Covers.append (runsWith_covers i ar vs h) (runsWithL_covers is ar _ ?_)
    intro v hv
    exact (runsWith_mono i vs).subset (h v hv)
end

/-- **C40**, for every paragraph: no text is lost or reordered, and each run is given at least the variants of the
spans around its text. -/
theorem C40_covers (is : List Inline) : Covers (textsInL [] is) ((runs is).flatMap runText) := by
  induction is with
  | nil => simp [runs, textsInL, Covers]
  | cons i is ih =>
    have e : (runs (i :: is)).flatMap runText = (runsFrom i).flatMap runText ++ (runs is).flatMap runText := by
      simp [runs]
    rw [e]
    simp only [textsInL]
    refine Covers.append ?_ ih
    cases i with
    | lit n v l => simp [runsFrom, runText, textsIn, Covers]
    | span v f js m l o => simp only [runsFrom, textsIn, List.nil_append]; exact runsWithL_covers js _ _ (by simp)
    | brk l => simp [runsFrom, runText, textsIn, Covers]
    | ref v t js m l => simp only [runsFrom, textsIn]; exact runsWithL_covers js _ _ (by simp)

/-- **C40** is false: `*_a_ b*` gives "b" the emphasis of the span before it. -/
theorem C40_leak :
    let doc : List Inline := [.span .strong .constrained
      [.span .emphasis .constrained [.lit .text b!"a" []] none [] false, .lit .text b!" b" []] none [] false]
    textsInL [] doc = [(b!"a", [.strong, .emphasis]), (b!" b", [.strong])] ∧
    runs doc = [.text b!"a" [.strong, .emphasis], .text b!" b" [.strong, .emphasis]] := by decide

/-- The formatting a set of variants asks for. -/
def wanted (vs : List SpanVariant) (r : RunProps) : Prop :=
  (r.bold = true ↔ .strong ∈ vs) ∧ (r.italic = true ↔ .emphasis ∈ vs) ∧ (r.courier = true ↔ .code ∈ vs) ∧
  (r.highlight.isSome ↔ .mark ∈ vs ∨ .footnote ∈ vs) ∧ (r.vert.isSome ↔ .subscript ∈ vs ∨ .superscript ∈ vs)

private theorem wanted_fold (vs : List SpanVariant) (h : ∀ v ∈ vs, v ≠ .subscript ∧ v ≠ .superscript) :
    ∀ (us : List SpanVariant) (r : RunProps), wanted us r → wanted (us ++ vs) (vs.foldl RunProps.apply r) := by
  induction vs with
  | nil => intro us r hr; simpa using hr
  | cons v vs ih =>
    intro us r hr
    have := ih (fun w hw => h w (by simp [hw])) (us ++ [v]) (r.apply v) (by
      have hv := h v (by simp)
      unfold wanted at hr ⊢
      cases v <;> simp_all [RunProps.apply])
    simpa using this

/-- **C40**, partial: a run has exactly the formatting of the variants applied to it, unless a sub- or superscript
span is nested inside another span. -/
theorem C40_props_partial (s : Str) (v : SpanVariant) (vs : List SpanVariant)
    (h : ∀ w ∈ vs, w ≠ .subscript ∧ w ≠ .superscript) : wanted (v :: vs) (Run.props (.text s (v :: vs))) := by
  have := wanted_fold vs h [v] (RunProps.apply {} v) (by cases v <;> simp [wanted, RunProps.apply])
  simpa [Run.props] using this

/-- **C40** is false for a superscript inside strong text (`*a^2^*`): the superscript is not bold. -/
theorem C40_super_drops (s : Str) : ¬ wanted [.strong, .superscript] (Run.props (.text s [.strong, .superscript])) := by
  simp [wanted, Run.props, RunProps.apply]

example : ∀ i ∈ [Inline.span .strong .constrained [.lit .text b!"a" [],
    .span .emphasis .constrained [.lit .text b!"b" []] none [] false] none [] false, .lit .text b!"c" []],
    SpansLast i := by simp [SpansLast, SpansLastL, hasSpan]

end Adoc.Props

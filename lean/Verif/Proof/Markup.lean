import Verif.Model.Html
import Verif.Spec.Markup
/-!
# Lemmas on reading HTML texts
-/
namespace Adoc.Markup

theorem squash_append (s t : Str) : squash (s ++ t) = squash s ++ squash t := List.filter_append ..

theorem chars_append (a b : List Tok) : chars (a ++ b) = chars a ++ chars b := by
  induction a with
  | nil => rfl
  | cons t a ih => cases t <;> simp [chars, ih]

theorem idsOf_append (a b : List Tok) : idsOf (a ++ b) = idsOf a ++ idsOf b := by
  induction a with
  | nil => rfl
  | cons t a ih => cases t <;> simp [idsOf, ih]

/-- The piece `s` reads as whole tags and text, its elements are well nested, it has the `id`s `want`, and, if `w`, the
text `txt` up to white space. -/
def Good (w : Prop) (s txt : Str) (want : List Str) : Prop :=
  ∃ toks, (∀ rest, lex .text (s ++ rest) = toks ++ lex .text rest) ∧ (∀ st rest, nest st (toks ++ rest) = nest st rest) ∧
    (w → squash (chars toks) = squash txt) ∧ ∀ x ∈ want, x ∈ idsOf toks

theorem Good.mono {w w' : Prop} {s t t' : Str} {i i' : List Str} (h : Good w s t i) (hw : w' → w)
    (ht : w' → squash t = squash t') (hi : ∀ x ∈ i', x ∈ i) : Good w' s t' i' := by
  obtain ⟨toks, h1, h2, h3, h4⟩ := h
  exact ⟨toks, h1, h2, fun x => (h3 (hw x)).trans (ht x), fun x hx => h4 x (hi x hx)⟩

theorem Good.nil (w : Prop) : Good w [] [] [] := ⟨[], fun _ => rfl, fun _ _ => rfl, fun _ => rfl, nofun⟩

theorem Good.append {w : Prop} {s s' t t' : Str} {i i' : List Str} (h : Good w s t i) (h' : Good w s' t' i') :
    Good w (s ++ s') (t ++ t') (i ++ i') := by
  obtain ⟨a, a1, a2, a3, a4⟩ := h
  obtain ⟨b, b1, b2, b3, b4⟩ := h'
  refine ⟨a ++ b, fun rest => ?_, fun st rest => ?_, fun hw => ?_, fun x hx => ?_⟩
  · rw [List.append_assoc, a1, b1, List.append_assoc]
  · rw [List.append_assoc, a2, b2]
  · rw [chars_append, squash_append, a3 hw, b3 hw, squash_append]
  · rw [idsOf_append, List.mem_append]
    exact (List.mem_append.1 hx).imp (a4 x) (b4 x)

/-- White space. -/
theorem Good.space (w : Prop) (s : Str) (h : s.all (fun b => b = c!" " || b = c!"\n") = true) : Good w s [] [] := by
  induction s with
  | nil => exact .nil w
  | cons b s ih =>
    simp only [List.all_cons, Bool.and_eq_true] at h
    have hb := h.1
    have one : Good w [b] [] [] := by
      refine ⟨[.char b], fun rest => ?_, fun st rest => rfl, fun _ => ?_, nofun⟩
      · simp only [Bool.or_eq_true, decide_eq_true_eq] at hb
        rcases hb with rfl | rfl <;> rfl
      · simp only [Bool.or_eq_true, decide_eq_true_eq] at hb
        rcases hb with rfl | rfl <;> rfl
    simpa using one.append (ih h.2)

/-! ## Balanced texts -/

theorem nest_append (p st : List Str) (ts rest : List Tok) (h : nest p ts = true) :
    nest (p ++ st) (ts ++ rest) = nest st rest := by
  induction ts generalizing p with
  | nil =>
    simp only [nest, List.isEmpty_iff] at h
    subst h
    rfl
  | cons t ts ih =>
    cases t with
    | char b => exact ih p h
    | broken => cases h
    | tag c =>
      simp only [nest, List.cons_append] at h ⊢
      cases hk : kind c with
      | empty => rw [hk] at h; exact ih p h
      | opens n => rw [hk] at h; exact ih (n :: p) h
      | closes n =>
        rw [hk] at h
        cases p with
        | nil => cases h
        | cons top p =>
          simp only [Bool.and_eq_true, decide_eq_true_eq] at h
          simp only [List.cons_append, h.1, decide_true, Bool.true_and]
          exact ih p h.2

theorem nest_broken (st : List Str) (ts : List Tok) (h : .broken ∈ ts) : nest st ts = false := by
  induction ts generalizing st with
  | nil => cases h
  | cons t ts ih =>
    rcases List.mem_cons.1 h with rfl | h'
    · rfl
    · clear h
      cases t with
      | char b => exact ih st h'
      | broken => rfl
      | tag c =>
        simp only [nest]
        cases kind c with
        | empty => exact ih st h'
        | opens n => exact ih _ h'
        | closes n =>
          cases st with
          | nil => rfl
          | cons top st => simp only [ih st h', Bool.and_false]

theorem lex_append (m : Mode) (s rest : Str) (h : .broken ∉ lex m s) :
    lex m (s ++ rest) = lex m s ++ lex .text rest := by
  induction s generalizing m with
  | nil =>
    cases m with
    | text => rfl
    | tag c => exact absurd (List.mem_cons_self ..) h
    | quoted c => exact absurd (List.mem_cons_self ..) h
  | cons b s ih =>
    cases m with
    | text =>
      simp only [lex, List.cons_append] at h ⊢
      split
      · rename_i hb; rw [if_pos hb] at h; exact ih _ h
      · rename_i hb
        rw [if_neg hb] at h
        rw [ih _ fun hc => h (List.mem_cons_of_mem _ hc)]
        rfl
    | tag c =>
      simp only [lex, List.cons_append] at h ⊢
      split
      · rename_i hb
        rw [if_pos hb] at h
        rw [ih _ fun hc => h (List.mem_cons_of_mem _ hc)]
        rfl
      · rename_i hb
        rw [if_neg hb] at h
        split
        · rename_i hq; rw [if_pos hq] at h; exact ih _ h
        · rename_i hq; rw [if_neg hq] at h; exact ih _ h
    | quoted c =>
      simp only [lex, List.cons_append] at h ⊢
      split
      · rename_i hq; rw [if_pos hq] at h; exact ih _ h
      · rename_i hq; rw [if_neg hq] at h; exact ih _ h

theorem Good.text (w : Prop) (s : Str) (h : balanced s = true) : Good w s (seen s) [] := by
  have hb : .broken ∉ lex .text s := fun hc => by
    have := nest_broken [] _ hc
    rw [balanced, this] at h
    cases h
  exact ⟨lex .text s, fun rest => lex_append _ _ _ hb, fun st rest => nest_append [] st _ rest h, fun _ => rfl, nofun⟩

theorem Good.balanced {w : Prop} {s t : Str} {i : List Str} (h : Good w s t i) : balanced s = true := by
  obtain ⟨toks, h1, h2, -, -⟩ := h
  have := h1 []
  simp only [List.append_nil, lex] at this
  rw [Markup.balanced, this]
  have := h2 [] []
  rw [List.append_nil] at this
  rw [this]
  rfl

theorem Good.seen {w : Prop} {s t : Str} {i : List Str} (h : Good w s t i) (hw : w) :
    squash (seen s) = squash t := by
  obtain ⟨toks, h1, -, h3, -⟩ := h
  have := h1 []
  simp only [List.append_nil, lex] at this
  rw [Markup.seen, this]
  exact h3 hw

theorem Good.ids {w : Prop} {s t : Str} {i : List Str} (h : Good w s t i) : ∀ x ∈ i, x ∈ ids s := by
  obtain ⟨toks, h1, -, -, h4⟩ := h
  have := h1 []
  simp only [List.append_nil, lex] at this
  rw [Markup.ids, this]
  exact h4

/-! ## Tags -/

/-- Attributes as they are written in a tag, with the `id` they give. -/
structure Attrs (a : Str) (i : Option Str) : Prop where
  run : ∀ c rest, lex (.tag c) (a ++ rest) = lex (.tag (c ++ a)) rest
  shape : a = [] ∨ a.head? = some c!" " ∧ a.getLast? = some c!"\""
  id : ∀ rest, idAt false (a ++ rest) = match i with
    | some x => some x
    | none => idAt false rest

theorem Attrs.nil : Attrs [] none := ⟨fun c rest => by simp, .inl rfl, fun _ => rfl⟩

theorem Attrs.append {a b : Str} {i j : Option Str} (ha : Attrs a i) (hb : Attrs b j) : Attrs (a ++ b) (i.or j) := by
  refine ⟨fun c rest => ?_, ?_, fun rest => ?_⟩
  · rw [List.append_assoc, ha.run, hb.run, List.append_assoc]
  · rcases hb.shape with rfl | ⟨h1, h2⟩
    · simpa using ha.shape
    · rcases ha.shape with rfl | ⟨h3, h4⟩
      · exact .inr ⟨h1, h2⟩
      · refine .inr ⟨?_, ?_⟩
        · rw [List.head?_append, h3]; rfl
        · rw [List.getLast?_append, h2]; rfl
  · rw [List.append_assoc, ha.id]
    cases i with
    | some x => rfl
    | none => simpa using hb.id rest

theorem lex_quoted (v c rest : Str) (h : unquoted v = true) :
    lex (.quoted c) (v ++ c!"\"" :: rest) = lex (.tag (c ++ v ++ b!"\"")) rest := by
  induction v generalizing c with
  | nil => simp [lex]
  | cons b v ih =>
    simp only [unquoted, List.all_cons, Bool.and_eq_true, decide_eq_true_eq] at h
    simp only [List.cons_append, lex, if_neg h.1]
    rw [ih _ h.2]
    simp

theorem idAt_quoted (v rest : Str) (h : unquoted v = true) : idAt true (v ++ c!"\"" :: rest) = idAt false rest := by
  induction v with
  | nil => rfl
  | cons b v ih =>
    simp only [unquoted, List.all_cons, Bool.and_eq_true, decide_eq_true_eq] at h
    simp only [List.cons_append, idAt, ne_eq, h.1, not_false_eq_true, decide_true]
    exact ih h.2

theorem takeWhile_quoted (v rest : Str) (h : unquoted v = true) :
    (v ++ c!"\"" :: rest).takeWhile (· ≠ c!"\"") = v := by
  induction v with
  | nil => rfl
  | cons b v ih =>
    simp only [unquoted, List.all_cons, Bool.and_eq_true, decide_eq_true_eq] at h
    simp only [List.cons_append, List.takeWhile_cons, ne_eq, h.1, not_false_eq_true, decide_true, if_true]
    exact congrArg _ (ih h.2)

/-- The bytes of a name. -/
def nameByte (b : UInt8) : Bool := (c!"a" ≤ b && b ≤ c!"z") || (c!"A" ≤ b && b ≤ c!"Z") || (c!"0" ≤ b && b ≤ c!"9") || b = c!"-"

theorem nameByte_ne {b : UInt8} (h : nameByte b = true) :
    b ≠ c!"\"" ∧ b ≠ c!">" ∧ b ≠ c!" " ∧ b ≠ c!"/" ∧ b ≠ c!"!" ∧ b ≠ c!"<" := by
  refine ⟨?_, ?_, ?_, ?_, ?_, ?_⟩ <;> (rintro rfl; revert h; decide)

theorem lex_name (n c rest : Str) (h : n.all nameByte = true) : lex (.tag c) (n ++ rest) = lex (.tag (c ++ n)) rest := by
  induction n generalizing c with
  | nil => simp
  | cons b n ih =>
    simp only [List.all_cons, Bool.and_eq_true] at h
    obtain ⟨h1, h2, -⟩ := nameByte_ne h.1
    simp only [List.cons_append, lex, if_neg h2, if_neg h1]
    rw [ih _ h.2]
    simp

theorem idAt_name (n rest : Str) (h : n.all nameByte = true) : idAt false (n ++ rest) = idAt false rest := by
  induction n with
  | nil => rfl
  | cons b n ih =>
    simp only [List.all_cons, Bool.and_eq_true] at h
    obtain ⟨h1, -, h3, -⟩ := nameByte_ne h.1
    simp only [List.cons_append, idAt, h3, h1, false_and, if_false, decide_false]
    exact ih h.2

/-- ` key="value"`. -/
theorem Attrs.one (key v : Str) (hk : key.all nameByte = true) (hv : unquoted v = true) (hl : 4 ≤ key.length + 1)
    (hi : (key ++ b!"=").take 4 ≠ b!"id=\"") :
    Attrs (b!" " ++ key ++ b!"=\"" ++ v ++ b!"\"") none := by
  refine ⟨fun c rest => ?_, .inr ⟨rfl, by rw [List.getLast?_append]; rfl⟩, fun rest => ?_⟩
  · have e : b!" " ++ key ++ b!"=\"" ++ v ++ b!"\"" ++ rest = c!" " :: (key ++ (c!"=" :: c!"\"" :: (v ++ c!"\"" :: rest))) := by
      simp
    rw [e]
    have s1 : ∀ (c : Str) (r : Str), lex (.tag c) (c!" " :: r) = lex (.tag (c ++ [c!" "])) r := fun _ _ => rfl
    have s2 : ∀ (c : Str) (r : Str), lex (.tag c) (c!"=" :: c!"\"" :: r) = lex (.quoted (c ++ [c!"="] ++ [c!"\""])) r :=
      fun _ _ => rfl
    rw [s1, lex_name _ _ _ hk, s2, lex_quoted _ _ _ hv]
    simp
  · have e : b!" " ++ key ++ b!"=\"" ++ v ++ b!"\"" ++ rest = c!" " :: (key ++ (c!"=" :: c!"\"" :: (v ++ c!"\"" :: rest))) := by
      simp
    rw [e]
    have ht : (key ++ (c!"=" :: c!"\"" :: (v ++ c!"\"" :: rest))).take 4 = (key ++ b!"=").take 4 := by
      rw [show key ++ (c!"=" :: c!"\"" :: (v ++ c!"\"" :: rest)) = (key ++ b!"=") ++ (c!"\"" :: (v ++ c!"\"" :: rest)) by simp]
      rw [List.take_append_of_le_length (by simpa using hl)]
    simp only [idAt]
    rw [if_neg (fun hc => hi (ht ▸ hc.2))]
    show idAt false _ = _
    rw [idAt_name _ _ hk]
    show idAt true _ = _
    exact idAt_quoted _ _ hv

theorem Attrs.id_one (v : Str) (hv : unquoted v = true) : Attrs (b!" id=\"" ++ v ++ b!"\"") (some v) := by
  refine ⟨fun c rest => ?_, .inr ⟨rfl, by rw [List.getLast?_append]; rfl⟩, fun rest => ?_⟩
  · have e : b!" id=\"" ++ v ++ b!"\"" ++ rest = c!" " :: c!"i" :: c!"d" :: c!"=" :: c!"\"" :: (v ++ c!"\"" :: rest) := by
      simp
    rw [e]
    have s1 : ∀ (c : Str) (r : Str), lex (.tag c) (c!" " :: c!"i" :: c!"d" :: c!"=" :: c!"\"" :: r) =
      lex (.quoted (c ++ [c!" "] ++ [c!"i"] ++ [c!"d"] ++ [c!"="] ++ [c!"\""])) r := fun _ _ => rfl
    rw [s1, lex_quoted _ _ _ hv]
    simp
  · have e : b!" id=\"" ++ v ++ b!"\"" ++ rest = c!" " :: c!"i" :: c!"d" :: c!"=" :: c!"\"" :: (v ++ c!"\"" :: rest) := by
      simp
    rw [e]
    show some ((v ++ c!"\"" :: rest).takeWhile _) = some v
    rw [takeWhile_quoted _ _ hv]

/-- A name of an element with content. -/
def goodName (n : Str) : Bool := n ≠ [] && n.all nameByte && n ∉ voids

theorem takeWhile_name (n a : Str) (hn : n.all nameByte = true) (ha : a = [] ∨ a.head? = some c!" ") :
    (n ++ a).takeWhile (· ≠ c!" ") = n := by
  induction n with
  | nil =>
    rcases ha with rfl | ha
    · rfl
    · cases a with
      | nil => rfl
      | cons b a => cases ha; rfl
  | cons b n ih =>
    simp only [List.all_cons, Bool.and_eq_true] at hn
    obtain ⟨-, -, h3, -⟩ := nameByte_ne hn.1
    simp only [List.cons_append, List.takeWhile_cons, ne_eq, h3, not_false_eq_true, decide_true, if_true]
    exact congrArg _ (ih hn.2)

theorem kind_opens (n a : Str) {i : Option Str} (hn : goodName n = true) (ha : Attrs a i) : kind (n ++ a) = .opens n := by
  simp only [goodName, Bool.and_eq_true, decide_eq_true_eq] at hn
  obtain ⟨⟨h0, h1⟩, h2⟩ := hn
  cases n with
  | nil => exact absurd rfl h0
  | cons b n =>
    have hb := nameByte_ne (List.all_eq_true.1 h1 b (List.mem_cons_self ..))
    have hl : (b :: n ++ a).getLast? ≠ some c!"/" := by
      rcases ha.shape with rfl | ⟨-, h4⟩
      · rw [List.append_nil]
        intro hc
        have := List.mem_of_getLast? hc
        exact (nameByte_ne (List.all_eq_true.1 h1 _ this)).2.2.2.1 rfl
      · rw [List.getLast?_append, h4]
        exact fun hc => absurd (Option.some.inj hc) (by decide)
    have hw := takeWhile_name (b :: n) a h1 (ha.shape.imp id And.left)
    show kind (b :: (n ++ a)) = _
    unfold kind
    simp only [if_neg hb.2.2.2.2.1, if_neg hb.2.2.2.1]
    rw [if_neg (show (b :: (n ++ a)).getLast? ≠ some c!"/" from hl)]
    have hw' : (b :: (n ++ a)).takeWhile (· ≠ c!" ") = b :: n := hw
    rw [hw', if_neg h2]

theorem kind_closes (n : Str) : kind (c!"/" :: n) = .closes n := rfl

/-- An element with content. -/
theorem Good.elem {w : Prop} (n a : Str) {i : Option Str} (hn : goodName n = true) (ha : Attrs a i) {c t : Str}
    {want : List Str} (h : Good w c t want) :
    Good w (b!"<" ++ n ++ a ++ b!">" ++ c ++ b!"</" ++ n ++ b!">") t (i.toList ++ want) := by
  obtain ⟨toks, h1, h2, h3, h4⟩ := h
  have hall : n.all nameByte = true := by
    simp only [goodName, Bool.and_eq_true] at hn
    exact hn.1.2
  refine ⟨.tag (n ++ a) :: (toks ++ [.tag (c!"/" :: n)]), fun rest => ?_, fun st rest => ?_, fun hw => ?_, fun x hx => ?_⟩
  · have e : b!"<" ++ n ++ a ++ b!">" ++ c ++ b!"</" ++ n ++ b!">" ++ rest =
        c!"<" :: (n ++ (a ++ (c!">" :: (c ++ (c!"<" :: c!"/" :: (n ++ (c!">" :: rest))))))) := by simp
    rw [e]
    have s1 : ∀ r : Str, lex .text (c!"<" :: r) = lex (.tag []) r := fun _ => rfl
    have s2 : ∀ (d r : Str), lex (.tag d) (c!">" :: r) = .tag d :: lex .text r := fun _ _ => rfl
    have s3 : ∀ r : Str, lex .text (c!"<" :: c!"/" :: r) = lex (.tag [c!"/"]) r := fun _ => rfl
    rw [s1, lex_name _ _ _ hall, ha.run, s2, h1, s3, lex_name _ _ _ hall, s2]
    simp
  · simp only [List.cons_append, List.append_assoc, nest, kind_opens n a hn ha]
    rw [h2]
    simp [nest, kind_closes]
  · simp only [chars, chars_append, List.append_nil]
    exact h3 hw
  · simp only [idsOf, idsOf_append]
    have hid : idAt false (n ++ a) = i := by
      rw [idAt_name _ _ hall]
      have := ha.id []
      rw [List.append_nil] at this
      rw [this]
      cases i <;> rfl
    rw [hid, List.mem_append, List.mem_append]
    rcases List.mem_append.1 hx with hx | hx
    · exact .inl hx
    · exact .inr (.inl (h4 x hx))

/-- A tag without content. -/
theorem Good.void {w : Prop} (n a z : Str) {i : Option Str} (hn : n.all nameByte = true) (ha : Attrs a i)
    (hz : ∀ c rest, lex (.tag c) (z ++ b!">" ++ rest) = .tag (c ++ z) :: lex .text rest)
    (hk : kind (n ++ a ++ z) = .empty) :
    Good w (b!"<" ++ n ++ a ++ z ++ b!">") [] [] := by
  refine ⟨[.tag (n ++ a ++ z)], fun rest => ?_, fun st rest => ?_, fun _ => rfl, nofun⟩
  · have e : b!"<" ++ n ++ a ++ z ++ b!">" ++ rest = c!"<" :: (n ++ (a ++ (z ++ b!">" ++ rest))) := by simp
    rw [e]
    have s1 : ∀ r : Str, lex .text (c!"<" :: r) = lex (.tag []) r := fun _ => rfl
    rw [s1, lex_name _ _ _ hn, ha.run, hz]
    simp
  · simp only [List.singleton_append, nest, hk]

theorem kind_slash (c : Str) (b : UInt8) (hb : nameByte b = true) : kind (b :: (c ++ b!"/")) = .empty := by
  have h := nameByte_ne hb
  unfold kind
  simp only [if_neg h.2.2.2.2.1, if_neg h.2.2.2.1]
  rw [if_pos]
  rw [show b :: (c ++ b!"/") = (b :: c) ++ [c!"/"] by simp, List.getLast?_append]
  rfl

end Adoc.Markup

import Verif.Proof.Markers
/-!
# The tokens of documents made of plain lines and lines with a marker
-/
namespace Adoc.Scanner
open Spec Props

/-- A line: plain text, possibly none, or a marker and plain text. -/
inductive Ln where
  | text (l : Str)
  | marked (mrk : Str) (ty : TokenType) (l : Str)

namespace Ln

/-- The line as text. -/
def str : Ln → Str
  | text l => l
  | marked mrk _ l => mrk ++ l

/-- A line of the kind considered. -/
def Ok : Ln → Prop
  | text l => l = [] ∨ PlainLine l
  | marked mrk ty l => Marker mrk ty ∧ PlainLine l

/-- The tokens of a line. -/
def Toks (n : Nat) : Ln → List Token → Prop
  | text l, ts => Pieces n [] 1 l ts
  | marked mrk ty l, ts => ∃ us, ts = ⟨ty, mrk, none, n, 1, mrk.length, []⟩ :: us ∧ Pieces n [] (1 + mrk.length) l us

theorem Ok.starts {l : Ln} (h : l.Ok) (post : Str) (hp : Starts post) : Starts (l.str ++ post) := by
  cases l with
  | text l =>
    rcases h with rfl | h
    · exact hp
    · obtain ⟨b, bs, rfl, hb, _⟩ := h.first
      exact starts_ascii _ _ hb
  | marked mrk ty l =>
    obtain ⟨h1, _⟩ := h
    cases h1 <;> exact starts_ascii _ _ (by decide)

theorem trace {l : Ln} (h : l.Ok) (pre post : Str) (st n : Nat) (hs : AtStart pre) (hp : AfterLine post) :
    ∃ ts st', l.Toks n ts ∧ Trace (cut pre (l.str ++ post) st 1 n []) (ts.map .tok)
      (cut (pre ++ l.str) post st' (1 + l.str.length) n []) := by
  cases l with
  | text l =>
    rcases h with rfl | h
    · exact ⟨[], st, .nil _, by simpa [str] using Trace.nil _⟩
    · exact trace_text pre l post st 1 n [] (h.mid pre) hp
  | marked mrk ty l =>
    obtain ⟨h1, h2⟩ := h
    obtain ⟨b, bs, hl, hb, _⟩ := h2.first
    have h3 := next_marker pre mrk (l ++ post) st n [] ty h1 hs (by rw [hl]; exact starts_ascii _ _ hb)
    obtain ⟨us, st', h4, h5⟩ := trace_text (pre ++ mrk) l post pre.length (1 + mrk.length) n [] (h2.mid _) hp
    refine ⟨_, st', ⟨us, rfl, h4⟩, ?_⟩
    simp only [str, List.append_assoc, List.length_append] at h5 ⊢
    rw [← Nat.add_assoc]
    exact .cons h3 rfl h5

end Ln

/-- The tokens of some lines, each with the newline after it. -/
inductive AllToks : Nat → List Ln → List Token → Prop where
  | nil (n : Nat) : AllToks n [] []
  | cons (n : Nat) (l : Ln) (rest : List Ln) (ts us : List Token) (h : l.Toks n ts) (hr : AllToks (n + 1) rest us) :
      AllToks n (l :: rest) (ts ++ newline n (1 + l.str.length) [] :: us)

/-- The tokens of some lines, with newlines between them. -/
def DocToks (n : Nat) (lns : List Ln) (ts : List Token) : Prop :=
  ∃ init last t1 t2, lns = init ++ [last] ∧ ts = t1 ++ t2 ∧ AllToks n init t1 ∧ last.Toks (n + init.length) t2

/-- Lines with the newline after each. -/
def lnText : List Ln → Str
  | [] => []
  | l :: ls => l.str ++ 10 :: lnText ls

theorem joinB_lnText (init : List Ln) (last : Ln) :
    joinB 10 ((init ++ [last]).map Ln.str) = lnText init ++ last.str := by
  induction init with
  | nil => simp [joinB, lnText]
  | cons l init ih =>
    cases init with
    | nil => simp [joinB, lnText]
    | cons l' init =>
      simp only [List.map_append, List.map_cons, List.cons_append, joinB, lnText] at ih ⊢
      simp only [ih, List.append_assoc, List.cons_append]

theorem lnText_starts (lns : List Ln) (h : ∀ l ∈ lns, l.Ok) (post : Str) (hp : Starts post) :
    Starts (lnText lns ++ post) := by
  induction lns with
  | nil => exact hp
  | cons l lns ih =>
    simp only [lnText, List.append_assoc]
    exact (h l (by simp)).starts _ (starts_ascii _ _ (by decide))

theorem trace_all (lns : List Ln) (h : ∀ l ∈ lns, l.Ok) (pre post : Str) (st n : Nat) (hs : AtStart pre)
    (hp : Starts post) :
    ∃ ts st', AllToks n lns ts ∧ Trace (cut pre (lnText lns ++ post) st 1 n []) (ts.map .tok)
      (cut (pre ++ lnText lns) post st' 1 (n + lns.length) []) := by
  induction lns generalizing pre st n with
  | nil => exact ⟨[], st, .nil _, by simpa [lnText] using Trace.nil _⟩
  | cons l lns ih =>
    have hr : ∀ x ∈ lns, x.Ok := fun x hx => h x (by simp [hx])
    obtain ⟨ts, st1, h1, h2⟩ := Ln.trace (h l (by simp)) pre (10 :: (lnText lns ++ post)) st n hs (.inr ⟨_, rfl⟩)
    have h3 := next_newline (pre ++ l.str) (lnText lns ++ post) st1 (1 + l.str.length) n [] (lnText_starts lns hr post hp)
    obtain ⟨us, st2, h4, h5⟩ := ih hr (pre ++ l.str ++ [10]) (pre ++ l.str).length (n + 1) (.inr ⟨_, rfl⟩)
    refine ⟨_, st2, .cons n l lns ts us h1 h4, ?_⟩
    simp only [lnText, List.map_append, List.map_cons, List.append_assoc, List.cons_append, List.length_cons] at h2 h3 h5 ⊢
    have e : n + (lns.length + 1) = n + 1 + lns.length := by omega
    rw [e]
    exact h2.append (.cons h3 rfl (by simpa using h5))

/-- The scan of such a document. -/
theorem scan_doc (lns : List Ln) (hne : lns ≠ []) (h : ∀ l ∈ lns, l.Ok) :
    ∃ ts m, DocToks 1 lns ts ∧ scan (joinB 10 (lns.map Ln.str)) = ts.map .tok ++ [.tok (Token.final m [])] := by
  obtain ⟨init, last, rfl⟩ : ∃ init last, lns = init ++ [last] :=
    ⟨lns.dropLast, lns.getLast hne, (List.dropLast_concat_getLast hne).symm⟩
  have hlast : last.Ok := h last (by simp)
  have hl2 := hlast.starts [] (by intro b hb; simp at hb)
  rw [List.append_nil] at hl2
  obtain ⟨t1, st1, h1, h2⟩ := trace_all init (fun l hl => h l (by simp [hl])) [] last.str 0 1 (.inl rfl) hl2
  have hs : AtStart (lnText init) := by
    have : ∀ ls : List Ln, AtStart (lnText ls) := by
      intro ls
      induction ls with
      | nil => exact .inl rfl
      | cons l ls ih =>
        rcases ih with h | ⟨r, h⟩
        · exact .inr ⟨l.str, by simp [lnText, h]⟩
        · exact .inr ⟨l.str ++ 10 :: r, by simp [lnText, h]⟩
    exact this init
  obtain ⟨t2, st2, h3, h4⟩ := Ln.trace hlast (lnText init) [] st1 (1 + init.length) hs (.inl rfl)
  refine ⟨t1 ++ t2, 1 + init.length, ⟨init, last, t1, t2, rfl, rfl, h1, h3⟩, ?_⟩
  rw [joinB_lnText, List.map_append]
  apply scan_of_trace (pre := lnText init ++ last.str)
  rw [List.append_nil] at h4
  exact Trace.append h2 h4

theorem AllToks.append {n : Nat} {a b : List Ln} {ts : List Token} (h : AllToks n (a ++ b) ts) :
    ∃ t1 t2, ts = t1 ++ t2 ∧ AllToks n a t1 ∧ AllToks (n + a.length) b t2 := by
  induction a generalizing n ts with
  | nil => exact ⟨[], ts, rfl, .nil _, h⟩
  | cons l a ih =>
    cases h with
    | cons _ _ _ t u h1 h2 =>
      obtain ⟨t1, t2, rfl, h3, h4⟩ := ih h2
      refine ⟨_, t2, ?_, .cons n l a t t1 h1 h3, ?_⟩
      · simp
      · rw [List.length_cons]
        have e : n + (a.length + 1) = n + 1 + a.length := by omega
        rw [e]; exact h4

theorem DocToks.append {n : Nat} {a b : List Ln} {ts : List Token} (hb : b ≠ []) (h : DocToks n (a ++ b) ts) :
    ∃ t1 t2, ts = t1 ++ t2 ∧ AllToks n a t1 ∧ DocToks (n + a.length) b t2 := by
  obtain ⟨init, last, u1, u2, h1, rfl, h2, h3⟩ := h
  obtain ⟨b', x, rfl⟩ : ∃ b' x, b = b' ++ [x] := ⟨b.dropLast, b.getLast hb, (List.dropLast_concat_getLast hb).symm⟩
  rw [← List.append_assoc] at h1
  obtain ⟨h4, h5⟩ := List.append_inj' h1 rfl
  cases h5
  subst h4
  obtain ⟨t1, t2, rfl, h6, h7⟩ := h2.append
  refine ⟨t1, t2 ++ u2, by simp, h6, b', _, t2, u2, rfl, rfl, h7, ?_⟩
  rw [List.length_append, ← Nat.add_assoc] at h3
  exact h3

end Adoc.Scanner

import Verif.Proof.RichOut
import Verif.Spec.RichPage
/-!
# What there is to read in the graph of a document of the class
-/
namespace Adoc.Rich
open Spec Markup

theorem seen_noTag {s : Str} (h : noTag s = true) : seen s = s := by
  induction s with
  | nil => rfl
  | cons b s ih =>
    simp only [noTag, List.all_cons, Bool.and_eq_true, decide_eq_true_eq] at h
    have := ih h.2
    simp only [seen, lex, h.1, if_false, chars] at this ⊢
    rw [this]

theorem tidyIs_mem {ok : Str → Bool} {is : List Inline} (h : tidyIs ok is = true) : ∀ i ∈ is, tidyI ok i = true := by
  induction is with
  | nil => exact fun _ hi => nomatch hi
  | cons i is ih =>
    simp only [tidyIs, Bool.and_eq_true] at h
    intro j hj
    rcases List.mem_cons.1 hj with rfl | hj
    · exact h.1
    · exact ih h.2 j hj

theorem tidyL_mem {ok : Str → Bool} {bs : List Block} (h : tidyL ok bs = true) : ∀ b ∈ bs, tidy ok b = true := by
  induction bs with
  | nil => exact fun _ hi => nomatch hi
  | cons i is ih =>
    simp only [tidyL, Bool.and_eq_true] at h
    intro j hj
    rcases List.mem_cons.1 hj with rfl | hj
    · exact h.1
    · exact ih h.2 j hj

theorem readIs_flatMap (is : List Inline) : readIs is = is.flatMap readI := by
  induction is with
  | nil => rfl
  | cons i is ih => simp only [readIs, List.flatMap_cons, ih]

theorem readL_flatMap (bs : List Block) : readL bs = bs.flatMap Markup.read := by
  induction bs with
  | nil => rfl
  | cons i is ih => simp only [readL, List.flatMap_cons, ih]

theorem flatMap_of_map {α β : Type} {f : α → β} {g : β → Str} {h : α → Str} {xs : List α}
    (e : ∀ x ∈ xs, g (f x) = h x) : (xs.map f).flatMap g = xs.flatMap h := by
  rw [List.flatMap_map]
  induction xs with
  | nil => rfl
  | cons x xs ih =>
    rw [List.flatMap_cons, List.flatMap_cons, e x List.mem_cons_self, ih fun y hy => e y (List.mem_cons_of_mem _ hy)]

theorem read_part {p : Part} (h : tidyI noTag p.inline = true) : readI p.inline = p.words := by
  cases p with
  | text ls => exact seen_noTag h
  | span m ls =>
    simp only [Part.inline, tidyI, literal, tidyIs, Bool.and_true, Bool.and_eq_true] at h
    simp only [Part.inline, readI, literal, readIs, List.append_nil, Part.words]
    exact seen_noTag h.2

theorem read_parts {ps : List Part} (h : tidyIs noTag (ps.map Part.inline) = true) :
    readIs (ps.map Part.inline) = partsWords ps := by
  rw [readIs_flatMap]
  exact flatMap_of_map fun p hp => read_part (tidyIs_mem h _ (List.mem_map_of_mem hp))

theorem read_elem {e : Elem} (h : tidyI noTag e.inline = true) : readI e.inline = e.words hashed := by
  cases e with
  | text ls => exact seen_noTag h
  | span m ps =>
    simp only [Elem.inline, tidyI, Bool.and_eq_true] at h
    exact read_parts h.2
  | link url ps =>
    simp only [Elem.inline, tidyI, Bool.and_eq_true] at h
    simp only [Elem.inline, readI, Elem.words, List.isEmpty_map]
    rw [read_parts h.2, shownTarget, seen_noTag h.1.2] <;> simp
  | xref id =>
    simp only [Elem.inline, tidyI, Bool.and_eq_true] at h
    simp only [Elem.inline, readI, Elem.words, List.isEmpty_nil, if_true, shownTarget, hashed]
    refine seen_noTag ?_
    simp only [noTag, List.all_cons, Bool.and_eq_true]
    exact ⟨rfl, h.1.2⟩
  | symbol l => exact seen_noTag h
  | note ps =>
    simp only [Elem.inline, tidyI, Bool.and_eq_true] at h
    exact read_parts h.2
  | image t a => rfl
  | hard => rfl

theorem read_elems {es : List Elem} (h : tidyIs noTag (es.map Elem.inline) = true) :
    readIs (es.map Elem.inline) = wordsL hashed es := by
  rw [readIs_flatMap]
  exact flatMap_of_map fun p hp => read_elem (tidyIs_mem h _ (List.mem_map_of_mem hp))

/-- The ids that titles stand for. -/
def idsOfTitles (ts : Titles) : Ids := ts.map fun x => (x.1, x.2.map Elem.inline)

theorem lookup_titles (ts : Titles) (id : Str) :
    (idsOfTitles ts).lookup id = (ts.lookup id).map (List.map Elem.inline) := by
  induction ts with
  | nil => rfl
  | cons x ts ih =>
    obtain ⟨k, v⟩ := x
    simp only [idsOfTitles, List.map_cons, List.lookup_cons] at ih ⊢
    cases id == k
    · exact ih
    · rfl

theorem read_shown {ts : Titles} {e : Elem} (h : tidyI noTag (e.shown (idsOfTitles ts)) = true) :
    readI (e.shown (idsOfTitles ts)) = e.words ts.title := by
  cases e with
  | xref id =>
    simp only [Elem.shown, lookup_titles] at h ⊢
    simp only [Elem.words, Titles.title]
    cases hl : ts.lookup id with
    | none =>
      simp only [hl, Option.map_none, Option.getD_none] at h ⊢
      exact read_elem (e := .xref id) h
    | some es =>
      cases es with
      | nil =>
        simp only [hl, Option.map_some, Option.getD_some, List.map_nil] at h ⊢
        exact read_elem (e := .xref id) h
      | cons x es =>
        simp only [hl, Option.map_some, Option.getD_some] at h ⊢
        simp only [tidyI, Bool.and_eq_true] at h
        rw [← read_elems h.2]
        rfl
  | _ =>
    simp only [Elem.shown] at h ⊢
    exact read_elem h

theorem read_shownL {ts : Titles} {es : List Elem} (h : tidyIs noTag (shownL (idsOfTitles ts) es) = true) :
    readIs (shownL (idsOfTitles ts) es) = wordsL ts.title es := by
  rw [readIs_flatMap]
  exact flatMap_of_map fun p hp => read_shown (tidyIs_mem h _ (List.mem_map_of_mem hp))

theorem title_nil : Titles.title [] = hashed := rfl

theorem read_shownL_nil {es : List Elem} (h : tidyIs noTag (shownL [] es) = true) :
    readIs (shownL [] es) = wordsL hashed es := read_shownL (ts := []) h

theorem read_credit {m : Option Meta} (h : tidyMeta noTag m = true) : credit m = signature m := by
  simp only [tidyMeta, Bool.and_eq_true] at h
  rw [credit, signature, seen_noTag h.1.2, seen_noTag h.2]

theorem read_code (cur : Option Str) (parts : List CodePart) (h : tidyIs noTag (codeInlines cur parts) = true) :
    readIs (codeInlines cur parts) = cur.getD [] ++ parts.flatMap CodePart.words := by
  induction parts generalizing cur with
  | nil =>
    cases cur with
    | none => rfl
    | some c =>
      simp only [codeInlines, Option.toList, List.map_cons, List.map_nil, literal, tidyIs, tidyI, Bool.and_true] at h
      simp only [codeInlines, Option.toList, List.map_cons, List.map_nil, literal, readIs, readI, List.append_nil,
        Option.getD_some, List.flatMap_nil]
      exact seen_noTag h
  | cons x parts ih =>
    cases x with
    | text ss =>
      simp only [codeInlines] at h ⊢
      rw [ih _ h]
      simp only [Option.getD_some, List.flatMap_cons, CodePart.words, List.append_assoc]
    | callout n =>
      cases cur with
      | none =>
        simp only [codeInlines, Option.toList, List.map_nil, List.nil_append, conum, literal, tidyIs, tidyI, Bool.and_true,
          Bool.and_eq_true] at h
        simp only [codeInlines, Option.toList, List.map_nil, List.nil_append, conum, literal, readIs, readI, List.append_nil]
        rw [ih _ h.2, seen_noTag h.1.2]
        rfl
      | some c =>
        simp only [codeInlines, Option.toList, List.map_cons, List.map_nil, List.cons_append, List.nil_append, conum, literal,
          tidyIs, tidyI, Bool.and_true, Bool.and_eq_true] at h
        simp only [codeInlines, Option.toList, List.map_cons, List.map_nil, List.cons_append, List.nil_append, conum, literal,
          readIs, readI, List.append_nil]
        rw [ih _ h.2.2, seen_noTag h.1, seen_noTag h.2.1.2]
        rfl
    | file t source =>
      simp only [codeInlines, literal, tidyIs, tidyI, Bool.and_eq_true] at h
      simp only [codeInlines, literal, readIs, readI]
      rw [ih _ h.2, seen_noTag h.1]
      simp only [Option.getD_none, List.flatMap_cons, CodePart.words, List.append_assoc, List.nil_append]

theorem signature_none : signature none = [] := rfl

theorem read_piece {ts : Titles} {m : Option Meta} {p : Piece} (h : tidy noTag (p.block (idsOfTitles ts) m) = true) :
    Markup.read (p.block (idsOfTitles ts) m) = p.words ts m := by
  cases p with
  | para es =>
    simp only [Piece.block, tidy, Bool.and_eq_true] at h
    simp only [Piece.block, Markup.read, Piece.words]
    exact read_shownL h.1
  | list v items =>
    simp only [Piece.block, tidy, Bool.and_eq_true] at h
    simp only [Piece.block, Markup.read, Piece.words]
    rw [readL_flatMap, read_credit h.1, flatMap_of_map (h := wordsL ts.title)]
    intro es hes
    have := tidyL_mem h.2 _ (List.mem_map_of_mem hes)
    simp only [tidy, Bool.and_eq_true] at this
    simp only [Markup.read, readL, List.append_nil]
    rw [read_shownL this.1.1]
    exact List.append_nil _
  | verb n d body =>
    simp only [Piece.block, tidy, Bool.and_eq_true, tidyIs, literal, tidyI, Bool.and_true] at h
    simp only [Piece.block, Markup.read, Piece.words, readIs, literal, readI, List.append_nil]
    exact seen_noTag h.1

theorem read_blk {ts : Titles} {m : Option Meta} {c : Blk} (h : tidy noTag (c.block (idsOfTitles ts) m) = true) :
    Markup.read (c.block (idsOfTitles ts) m) = c.words ts m := by
  cases c with
  | piece p => exact read_piece h
  | head n es =>
    simp only [Blk.block, tidy, Bool.and_eq_true] at h
    simp only [Blk.block, Markup.read, Blk.words, readL, List.append_nil]
    rw [read_shownL h.1.1, read_credit h.1.2]
  | brk v => rfl
  | note v es =>
    simp only [Blk.block, tidy, tidyL, Bool.and_eq_true] at h
    simp only [Blk.block, Markup.read, Blk.words, readL, List.append_nil, readIs, List.nil_append]
    rw [read_shownL h.2.1.1]
    exact List.append_nil _
  | box n d title lead held =>
    simp only [Blk.block, tidy, Bool.and_eq_true] at h
    have e : Markup.read (Blk.block (idsOfTitles ts) m (.box n d title lead held))
        = readIs (shownL (idsOfTitles ts) (title.getD [])) ++ readL (held.map (Held.block (idsOfTitles ts))) ++ credit m := by
      cases n <;> simp only [Blk.block, Box.name, Markup.read]
    rw [e, read_shownL h.1.1, read_credit h.1.2, readL_flatMap,
      flatMap_of_map (h := fun x : Held => x.piece.words ts (tagsMeta x.tags))]
    · rfl
    · intro x hx
      exact read_piece (tidyL_mem h.2 _ (List.mem_map_of_mem hx))
  | image t args title =>
    simp only [Blk.block, tidy, Bool.and_eq_true] at h
    simp only [Blk.block, Markup.read, Blk.words]
    rw [read_elems h.1.2, read_credit h.2]
  | table title lead rows =>
    simp only [Blk.block, tidy, Bool.and_eq_true] at h
    simp only [Blk.block, Markup.read, Blk.words]
    rw [read_shownL h.1.1, readL_flatMap, flatMap_of_map (h := wordsL ts.title), List.flatMap_assoc]
    intro es hes
    have := tidyL_mem h.2 _ (List.mem_map_of_mem hes)
    simp only [tidy, Bool.and_eq_true] at this
    simp only [Markup.read]
    rw [read_shownL this.1]
    exact List.append_nil _
  | dlist entries =>
    simp only [Blk.block, tidy, Bool.and_eq_true] at h
    simp only [Blk.block, Markup.read, Blk.words]
    rw [readL_flatMap, read_credit h.1, flatMap_of_map (h := fun e : Described => wordsL hashed e.term ++ wordsL ts.title e.text)]
    intro x hx
    have := tidyL_mem h.2 _ (List.mem_map_of_mem hx)
    simp only [tidy, Bool.and_eq_true] at this
    simp only [Markup.read, readL, List.append_nil]
    rw [read_shownL this.1.1.2, read_shownL_nil this.1.1.1]
    exact List.append_nil _
  | colist items =>
    simp only [Blk.block, tidy, Bool.and_eq_true] at h
    simp only [Blk.block, Markup.read, Blk.words]
    rw [readL_flatMap, read_credit h.1, flatMap_of_map (h := fun x : Str × List Elem => wordsL ts.title x.2)]
    intro x hx
    have := tidyL_mem h.2 _ (List.mem_map_of_mem hx)
    simp only [tidy, Bool.and_eq_true] at this
    simp only [Markup.read, readL, List.append_nil]
    rw [read_shownL this.1.1]
    exact List.append_nil _
  | code d parts =>
    simp only [Blk.block, tidy, Bool.and_eq_true] at h
    simp only [Blk.block, Markup.read, Blk.words]
    exact read_code none parts h.1
  | attached v points =>
    simp only [Blk.block, tidy, Bool.and_eq_true] at h
    simp only [Blk.block, Markup.read, Blk.words]
    rw [readL_flatMap, read_credit h.1, flatMap_of_map (h := fun x : Point => wordsL ts.title x.text
      ++ x.boxes.flatMap fun a => a.held.flatMap fun h => h.piece.words ts (tagsMeta h.tags))]
    intro x hx
    have h := tidyL_mem h.2 _ (List.mem_map_of_mem hx)
    simp only [Point.block, tidy, Bool.and_eq_true] at h
    simp only [Point.block, Markup.read]
    rw [read_shownL h.1.1, readL_flatMap, flatMap_of_map (h := fun a : Annex => a.held.flatMap fun h => h.piece.words ts (tagsMeta h.tags))]
    · exact List.append_nil _
    · intro a ha
      have h := tidyL_mem h.2 _ (List.mem_map_of_mem ha)
      simp only [Annex.block, tidy, Bool.and_eq_true] at h
      have e : Markup.read (Annex.block (idsOfTitles ts) a) = readL (a.held.map (Held.block (idsOfTitles ts))) := by
        obtain ⟨n, d, lead, held⟩ := a
        cases n <;> simp only [Annex.block, Box.name, Markup.read, readIs, List.nil_append] <;> exact List.append_nil _
      rw [e, readL_flatMap, flatMap_of_map (h := fun x : Held => x.piece.words ts (tagsMeta x.tags))]
      intro x hx
      exact read_piece (tidyL_mem h.2 _ (List.mem_map_of_mem hx))

/-! ## The ids -/

theorem idWith_titles (m : Option Meta) (es : List Elem) :
    idWith m (es.map Elem.inline) = idsOfTitles ((idOf m).toList.map fun i => (i, es)) := by
  unfold idWith idOf
  cases m.bind fun m => m.attributes.get? b!"id" <;> rfl

theorem title_elems (c : Blk) : c.title = c.titleElems.map Elem.inline := by
  cases c <;> rfl

theorem ids_append (a b : Titles) : idsOfTitles (a ++ b) = idsOfTitles a ++ idsOfTitles b := List.map_append

theorem tagged_ids (e : Tagged) : e.ids = idsOfTitles e.titles := by
  rw [Tagged.ids, Tagged.titles, ids_append, title_elems, idWith_titles]
  congr 1
  cases e.blk with
  | box n d title lead held =>
    simp only [Blk.inner, idsOfTitles, List.map_flatMap]
    congr 1
    funext h
    exact idWith_titles _ []
  | attached v points =>
    simp only [Blk.inner, idsOfTitles, List.map_flatMap]
    congr 1
    funext p
    congr 1
    funext a
    congr 1
    funext h
    exact idWith_titles _ []
  | _ => rfl

theorem doc_ids (d : RichDoc) : d.ids = idsOfTitles d.titles := by
  simp only [RichDoc.ids, RichDoc.titles, idsOfTitles, List.map_flatMap]
  congr 1
  funext e
  exact tagged_ids e

/-! ## No inline images with texts -/

theorem plainIs_map {α : Type} {f : α → Inline} {xs : List α} (h : ∀ x ∈ xs, plainI (f x) = true) :
    plainIs (xs.map f) = true := by
  induction xs with
  | nil => rfl
  | cons x xs ih =>
    simp only [List.map_cons, plainIs, Bool.and_eq_true]
    exact ⟨h x List.mem_cons_self, ih fun y hy => h y (List.mem_cons_of_mem _ hy)⟩

theorem writtenL_map {α : Type} {f : α → Block} {xs : List α} (h : ∀ x ∈ xs, Markup.written (f x) = true) :
    writtenL (xs.map f) = true := by
  induction xs with
  | nil => rfl
  | cons x xs ih =>
    simp only [List.map_cons, writtenL, Bool.and_eq_true]
    exact ⟨h x List.mem_cons_self, ih fun y hy => h y (List.mem_cons_of_mem _ hy)⟩

theorem plain_part (p : Part) : plainI p.inline = true := by cases p <;> rfl

theorem plain_elem (e : Elem) : plainI e.inline = true := by
  cases e with
  | span m ps => exact plainIs_map fun p _ => plain_part p
  | link url ps => exact plainIs_map fun p _ => plain_part p
  | note ps => exact plainIs_map fun p _ => plain_part p
  | _ => rfl

theorem plain_shown (ts : Titles) (e : Elem) : plainI (e.shown (idsOfTitles ts)) = true := by
  cases e with
  | xref id =>
    simp only [Elem.shown, lookup_titles, plainI]
    cases ts.lookup id with
    | none => rfl
    | some es => exact plainIs_map fun p _ => plain_elem p
  | _ =>
    simp only [Elem.shown]
    exact plain_elem _

theorem plain_shownL (ts : Titles) (es : List Elem) : plainIs (shownL (idsOfTitles ts) es) = true :=
  plainIs_map fun p _ => plain_shown ts p

theorem plain_code (cur : Option Str) (parts : List CodePart) : plainIs (codeInlines cur parts) = true := by
  induction parts generalizing cur with
  | nil => cases cur <;> rfl
  | cons x parts ih =>
    cases x with
    | text ss => exact ih _
    | callout n => cases cur <;> simp [codeInlines, plainIs, plainI, conum, literal, ih]
    | file t source => simp [codeInlines, plainIs, plainI, literal, ih]

theorem written_piece (ts : Titles) (m : Option Meta) (p : Piece) :
    Markup.written (p.block (idsOfTitles ts) m) = true := by
  cases p with
  | para es => exact plain_shownL ts es
  | list v items =>
    refine writtenL_map fun es _ => ?_
    simp only [Markup.written, plain_shownL, writtenL, Bool.and_true]
  | verb n d body => rfl

theorem written_blk (ts : Titles) (m : Option Meta) (c : Blk) (h : c.plainTable = true) :
    Markup.written (c.block (idsOfTitles ts) m) = true := by
  cases c with
  | piece p => exact written_piece ts m p
  | head n es => simp only [Blk.block, Markup.written, plain_shownL, writtenL, Bool.and_true]
  | brk v => rfl
  | note v es => simp only [Blk.block, Markup.written, plain_shownL, writtenL, Bool.and_true, plainIs]
  | box n d title lead held =>
    have : writtenL (held.map (Held.block (idsOfTitles ts))) = true := writtenL_map fun x _ => written_piece ts _ _
    cases n <;> simp only [Blk.block, Box.name, Markup.written, plain_shownL, this, Bool.and_true]
  | image t args title => exact plainIs_map fun p _ => plain_elem p
  | table title lead rows =>
    simp only [Blk.plainTable] at h
    cases title with
    | some _ => cases h
    | none =>
      simp only [Blk.block, Markup.written, Option.getD_none, shownL, List.map_nil, List.isEmpty_nil, Bool.true_and,
        Bool.and_eq_true, List.all_map]
      refine ⟨List.all_eq_true.2 fun _ _ => rfl, writtenL_map fun es _ => plain_shownL ts es⟩
  | dlist entries =>
    refine writtenL_map fun es _ => ?_
    simp only [Markup.written, plain_shownL, writtenL, Bool.and_true]
    exact plain_shownL [] _
  | colist items =>
    refine writtenL_map fun es _ => ?_
    simp only [Markup.written, plain_shownL, writtenL, Bool.and_true]
  | code d parts => exact plain_code none parts
  | attached v points =>
    refine writtenL_map fun x _ => ?_
    simp only [Point.block, Markup.written, plain_shownL, Bool.true_and]
    refine writtenL_map fun a _ => ?_
    obtain ⟨n, d, lead, held⟩ := a
    have : writtenL (held.map (Held.block (idsOfTitles ts))) = true := writtenL_map fun x _ => written_piece ts _ _
    cases n <;> simp only [Annex.block, Box.name, Markup.written, plainIs, this, Bool.and_true]

/-! ## Listed blocks -/

theorem contents_blocks (ids : Ids) (hs : List Title) (es : List Tagged) :
    (contents ids hs es).map (·.2) = es.map (Tagged.block ids) := by
  induction es generalizing hs with
  | nil => rfl
  | cons e es ih => simp only [contents, List.map_cons, ih]

theorem flatMap_blocks {g : List Block} {ids : Ids} {es : List Tagged} (h : listedL [] g = contents ids [] es) (f : Block → Str) :
    (listedL [] g).flatMap (fun x => f x.2) = es.flatMap fun e => f (e.block ids) := by
  have := congrArg (List.map (·.2)) h
  rw [contents_blocks] at this
  rw [show (listedL [] g).flatMap (fun x => f x.2) = ((listedL [] g).map (·.2)).flatMap f from (List.flatMap_map ..).symm, this,
    List.flatMap_map]

theorem all_blocks {g : List Block} {ids : Ids} {es : List Tagged} (h : listedL [] g = contents ids [] es) {p : Block → Bool}
    (hp : ∀ e ∈ es, p (e.block ids) = true) : (listedL [] g).all (fun x => p x.2) = true := by
  have := congrArg (List.map (·.2)) h
  rw [contents_blocks] at this
  rw [show (listedL [] g).all (fun x => p x.2) = ((listedL [] g).map (·.2)).all p from by rw [List.all_map]; rfl, this, List.all_map]
  exact List.all_eq_true.2 fun e he => hp e he

theorem forall_blocks {g : List Block} {ids : Ids} {es : List Tagged} (h : listedL [] g = contents ids [] es) {p : Block → Prop}
    (hp : ∀ e ∈ es, p (e.block ids)) : ∀ x ∈ listedL [] g, p x.2 := by
  have := congrArg (List.map (·.2)) h
  rw [contents_blocks] at this
  intro x hx
  have hm : x.2 ∈ es.map (Tagged.block ids) := this ▸ List.mem_map_of_mem hx
  obtain ⟨e, he, h⟩ := List.mem_map.1 hm
  exact h ▸ hp e he

/-! ## Items stand in lists -/

theorem atHomeL_map {lax bare : Bool} {home : Home} {α : Type} {f : α → Block} {xs : List α}
    (h : ∀ x ∈ xs, atHome lax bare home (f x) = true) : atHomeL lax bare home (xs.map f) = true := by
  induction xs with
  | nil => rfl
  | cons x xs ih =>
    simp only [List.map_cons, atHomeL, Bool.and_eq_true]
    exact ⟨h x List.mem_cons_self, ih fun y hy => h y (List.mem_cons_of_mem _ hy)⟩

theorem home_piece (ids : Ids) (m : Option Meta) (p : Piece) : atHome true false .other (p.block ids m) = true := by
  cases p with
  | para es => rfl
  | list v items =>
    simp only [Piece.block, atHome, Bool.not_false, Bool.true_and]
    exact atHomeL_map fun _ _ => rfl
  | verb n d body => rfl

theorem home_blk (ids : Ids) (m : Option Meta) (c : Blk) : atHome true false .other (c.block ids m) = true := by
  cases c with
  | piece p => exact home_piece ids m p
  | box n d title lead held =>
    have : atHomeL true false .other (held.map (Held.block ids)) = true := atHomeL_map fun x _ => home_piece ids _ _
    cases n <;> exact this
  | dlist entries =>
    simp only [Blk.block, atHome, Bool.not_false, Bool.true_and]
    exact atHomeL_map fun _ _ => rfl
  | colist items =>
    simp only [Blk.block, atHome, Bool.not_false, Bool.true_and]
    exact atHomeL_map fun _ _ => rfl
  | attached v points =>
    simp only [Blk.block, atHome, Bool.not_false, Bool.true_and]
    refine atHomeL_map fun x _ => ?_
    simp only [Point.block, atHome, Bool.not_false, decide_true, Bool.true_and]
    refine atHomeL_map fun a _ => ?_
    obtain ⟨n, d, lead, held⟩ := a
    have : atHomeL true false .other (held.map (Held.block ids)) = true := atHomeL_map fun x _ => home_piece ids _ _
    cases n <;> exact this
  | _ => rfl

end Adoc.Rich

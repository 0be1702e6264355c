import Verif.Proof.RichDoc
import Verif.Proof.HtmlPlace
import Verif.Proof.HtmlTotal
import Verif.Spec.Word
/-!
# What is written of a graph depends on its blocks one by one and not on locations
-/
set_option linter.unusedSimpArgs false
namespace Adoc.Rich
open Spec Markup

theorem value_bare (m : Option Meta) (k : Str) : value (m.map bareM) k = value m k := by cases m <;> rfl
theorem credit_bare (m : Option Meta) : credit (m.map bareM) = credit m := by simp only [credit, value_bare]
theorem tidyMeta_bare (ok : Str → Bool) (m : Option Meta) : tidyMeta ok (m.map bareM) = tidyMeta ok m := by
  simp only [tidyMeta, value_bare]
  cases m <;> rfl
theorem source_bare (m : Option Meta) : Word.source (m.map bareM) = Word.source m := by cases m <;> rfl

theorem bareL_isEmpty (is : List Inline) : (bareL is).isEmpty = is.isEmpty := by cases is <;> rfl
theorem bareBs_length (bs : List Block) : (bareBs bs).length = bs.length := by
  induction bs with
  | nil => rfl
  | cons b bs ih => simp [bareBs, ih]

mutual
theorem readIsI_bare1 (i : Inline) : readI (bare i) = readI i := by
  match i with
  | .lit n v l => simp only [bare, readI]
  | .brk l => simp only [bare, readI]
  | .span v f is m l o => simp only [bare, readI, readIs_bare is]
  | .ref v t is m l => cases v <;> simp only [bare, readI, readIs_bare is, bareL_isEmpty]
theorem readIs_bare (is : List Inline) : readIs (bareL is) = readIs is := by
  match is with
  | [] => rfl
  | i :: is => simp only [bareL, readIs, readIsI_bare1 i, readIs_bare is]
end

mutual
theorem plainIsI_bare1 (i : Inline) : plainI (bare i) = plainI i := by
  match i with
  | .lit n v l => simp only [bare, plainI]
  | .brk l => simp only [bare, plainI]
  | .span v f is m l o => simp only [bare, plainI, plainIs_bare is]
  | .ref v t is m l => cases v <;> simp only [bare, plainI, plainIs_bare is, bareL_isEmpty]
theorem plainIs_bare (is : List Inline) : plainIs (bareL is) = plainIs is := by
  match is with
  | [] => rfl
  | i :: is => simp only [bareL, plainIs, plainIsI_bare1 i, plainIs_bare is]
end

mutual
theorem tidyIsI_bare1 (ok : Str → Bool) (i : Inline) : tidyI ok (bare i) = tidyI ok i := by
  match i with
  | .lit n v l => simp only [bare, tidyI]
  | .brk l => simp only [bare, tidyI]
  | .span v f is m l o => simp only [bare, tidyI, tidyIs_bare ok is]
  | .ref v t is m l => cases v <;> simp only [bare, tidyI, tidyIs_bare ok is, bareL_isEmpty]
theorem tidyIs_bare (ok : Str → Bool) (is : List Inline) : tidyIs ok (bareL is) = tidyIs ok is := by
  match is with
  | [] => rfl
  | i :: is => simp only [bareL, tidyIs, tidyIsI_bare1 ok i, tidyIs_bare ok is]
end

mutual
theorem shownLI_bare1 (i : Inline) : Word.shown (bare i) = Word.shown i := by
  match i with
  | .lit n v l => simp only [bare, Word.shown]
  | .brk l => simp only [bare, Word.shown]
  | .span v f is m l o => simp only [bare, Word.shown, shownL_bare is]
  | .ref v t is m l => cases v <;> simp only [bare, Word.shown, shownL_bare is, bareL_isEmpty]
theorem shownL_bare (is : List Inline) : Word.shownL (bareL is) = Word.shownL is := by
  match is with
  | [] => rfl
  | i :: is => simp only [bareL, Word.shownL, shownLI_bare1 i, shownL_bare is]
end

mutual
theorem readL_bare1 (b : Block) : Markup.read (bareB b) = Markup.read b := by
  match b with
  | .section t m v bs l => simp only [bareB, Markup.read, readIs_bare, credit_bare, readL_bare bs]
  | .list v bs m l => simp only [bareB, Markup.read, readIs_bare, credit_bare, readL_bare bs]
  | .listItem k p bs m l => simp only [bareB, Markup.read, readIs_bare, credit_bare, readL_bare bs]
  | .dlist bs m l => simp only [bareB, Markup.read, readIs_bare, credit_bare, readL_bare bs]
  | .dlistItem t p bs m l => simp only [bareB, Markup.read, readIs_bare, credit_bare, readL_bare bs]
  | .brk v l => cases v <;> simp only [bareB, Markup.read, readIs_bare, credit_bare]
  | .image t c m l => simp only [bareB, Markup.read, readIs_bare, credit_bare]
  | .leaf n f d is m l => simp only [bareB, Markup.read, readIs_bare, credit_bare]
  | .parent n v d bs t m l => cases n <;> simp only [bareB, Markup.read, readIs_bare, credit_bare, readL_bare bs]
  | .tableCell is m l => simp only [bareB, Markup.read, readIs_bare, credit_bare]
theorem readL_bare (bs : List Block) : readL (bareBs bs) = readL bs := by
  match bs with
  | [] => rfl
  | b :: bs => simp only [bareBs, readL, readL_bare1 b, readL_bare bs]
end

theorem isCell_bare (b : Block) : isCell (bareB b) = isCell b := by
  match b with
  | .tableCell is none l => rfl
  | .tableCell is (some m) l => rfl
  | .section .. | .list .. | .listItem .. | .dlist .. | .dlistItem .. | .brk .. | .image .. | .leaf .. | .parent .. => rfl
theorem cells_bare (bs : List Block) : (bareBs bs).all isCell = bs.all isCell := by
  induction bs with
  | nil => rfl
  | cons b bs ih => simp only [bareBs, List.all_cons, isCell_bare, ih]

mutual
theorem writtenL_bare1 (b : Block) : Markup.written (bareB b) = Markup.written b := by
  match b with
  | .section t m v bs l => simp only [bareB, Markup.written, plainIs_bare, bareL_isEmpty, cells_bare, writtenL_bare bs]
  | .list v bs m l => simp only [bareB, Markup.written, plainIs_bare, bareL_isEmpty, cells_bare, writtenL_bare bs]
  | .listItem k p bs m l => simp only [bareB, Markup.written, plainIs_bare, bareL_isEmpty, cells_bare, writtenL_bare bs]
  | .dlist bs m l => simp only [bareB, Markup.written, plainIs_bare, bareL_isEmpty, cells_bare, writtenL_bare bs]
  | .dlistItem t p bs m l => simp only [bareB, Markup.written, plainIs_bare, bareL_isEmpty, cells_bare, writtenL_bare bs]
  | .brk v l => cases v <;> simp only [bareB, Markup.written, plainIs_bare, bareL_isEmpty, cells_bare]
  | .image t c m l => simp only [bareB, Markup.written, plainIs_bare, bareL_isEmpty, cells_bare]
  | .leaf n f d is m l => simp only [bareB, Markup.written, plainIs_bare, bareL_isEmpty, cells_bare]
  | .parent n v d bs t m l => cases n <;> simp only [bareB, Markup.written, plainIs_bare, bareL_isEmpty, cells_bare, writtenL_bare bs]
  | .tableCell is m l => simp only [bareB, Markup.written, plainIs_bare, bareL_isEmpty, cells_bare]
theorem writtenL_bare (bs : List Block) : writtenL (bareBs bs) = writtenL bs := by
  match bs with
  | [] => rfl
  | b :: bs => simp only [bareBs, writtenL, writtenL_bare1 b, writtenL_bare bs]
end

mutual
theorem tidyL_bare1 (ok : Str → Bool) (b : Block) : tidy ok (bareB b) = tidy ok b := by
  match b with
  | .section t m v bs l => simp only [bareB, tidy, tidyIs_bare, tidyMeta_bare, tidyL_bare ok bs]
  | .list v bs m l => simp only [bareB, tidy, tidyIs_bare, tidyMeta_bare, tidyL_bare ok bs]
  | .listItem k p bs m l => simp only [bareB, tidy, tidyIs_bare, tidyMeta_bare, tidyL_bare ok bs]
  | .dlist bs m l => simp only [bareB, tidy, tidyIs_bare, tidyMeta_bare, tidyL_bare ok bs]
  | .dlistItem t p bs m l => simp only [bareB, tidy, tidyIs_bare, tidyMeta_bare, tidyL_bare ok bs]
  | .brk v l => cases v <;> simp only [bareB, tidy, tidyIs_bare, tidyMeta_bare]
  | .image t c m l => simp only [bareB, tidy, tidyIs_bare, tidyMeta_bare]
  | .leaf n f d is m l => simp only [bareB, tidy, tidyIs_bare, tidyMeta_bare]
  | .parent n v d bs t m l => cases n <;> simp only [bareB, tidy, tidyIs_bare, tidyMeta_bare, tidyL_bare ok bs]
  | .tableCell is m l => simp only [bareB, tidy, tidyIs_bare, tidyMeta_bare]
theorem tidyL_bare (ok : Str → Bool) (bs : List Block) : tidyL ok (bareBs bs) = tidyL ok bs := by
  match bs with
  | [] => rfl
  | b :: bs => simp only [bareBs, tidyL, tidyL_bare1 ok b, tidyL_bare ok bs]
end

mutual
theorem griddedL_bare1 (b : Block) : gridded (bareB b) = gridded b := by
  match b with
  | .section t m v bs l => simp only [bareB, bareM, gridded, bareBs_length, Option.map, griddedL_bare bs]
  | .list v bs m l => simp only [bareB, bareM, gridded, bareBs_length, Option.map, griddedL_bare bs]
  | .listItem k p bs m l => simp only [bareB, bareM, gridded, bareBs_length, Option.map, griddedL_bare bs]
  | .dlist bs m l => simp only [bareB, bareM, gridded, bareBs_length, Option.map, griddedL_bare bs]
  | .dlistItem t p bs m l => simp only [bareB, bareM, gridded, bareBs_length, Option.map, griddedL_bare bs]
  | .brk v l => cases v <;> simp only [bareB, bareM, gridded, bareBs_length, Option.map]
  | .image t c m l => simp only [bareB, bareM, gridded, bareBs_length, Option.map]
  | .leaf n f d is m l => simp only [bareB, bareM, gridded, bareBs_length, Option.map]
  | .parent n v d bs t m l => cases n <;> cases m <;> simp only [bareB, bareM, gridded, bareBs_length, Option.map, griddedL_bare bs]
  | .tableCell is m l => simp only [bareB, bareM, gridded, bareBs_length, Option.map]
theorem griddedL_bare (bs : List Block) : griddedL (bareBs bs) = griddedL bs := by
  match bs with
  | [] => rfl
  | b :: bs => simp only [bareBs, griddedL, griddedL_bare1 b, griddedL_bare bs]
end

mutual
theorem fitsItemL_bare1 (b : Block) : Word.fitsItem (bareB b) = Word.fitsItem b := by
  match b with
  | .section t m v bs l => simp only [bareB, Word.fitsItem, source_bare, bareL_isEmpty, fitsItemL_bare bs]
  | .list v bs m l => simp only [bareB, Word.fitsItem, source_bare, bareL_isEmpty, fitsItemL_bare bs]
  | .listItem k p bs m l => simp only [bareB, Word.fitsItem, source_bare, bareL_isEmpty, fitsItemL_bare bs]
  | .dlist bs m l => simp only [bareB, Word.fitsItem, source_bare, bareL_isEmpty, fitsItemL_bare bs]
  | .dlistItem t p bs m l => simp only [bareB, Word.fitsItem, source_bare, bareL_isEmpty, fitsItemL_bare bs]
  | .brk v l => cases v <;> simp only [bareB, Word.fitsItem, source_bare, bareL_isEmpty]
  | .image t c m l => simp only [bareB, Word.fitsItem, source_bare, bareL_isEmpty]
  | .leaf n f d is m l => simp only [bareB, Word.fitsItem, source_bare, bareL_isEmpty]
  | .parent n v d bs t m l => cases n <;> simp only [bareB, Word.fitsItem, source_bare, bareL_isEmpty, fitsItemL_bare bs]
  | .tableCell is m l => simp only [bareB, Word.fitsItem, source_bare, bareL_isEmpty]
theorem fitsItemL_bare (bs : List Block) : Word.fitsItemL (bareBs bs) = Word.fitsItemL bs := by
  match bs with
  | [] => rfl
  | b :: bs => simp only [bareBs, Word.fitsItemL, fitsItemL_bare1 b, fitsItemL_bare bs]
end

mutual
theorem keptL_bare1 (b : Block) : Word.kept (bareB b) = Word.kept b := by
  match b with
  | .section t m v bs l => simp only [bareB, Word.kept, fitsItemL_bare, source_bare, bareL_isEmpty, keptL_bare bs]
  | .list v bs m l => simp only [bareB, Word.kept, fitsItemL_bare, source_bare, bareL_isEmpty, keptL_bare bs]
  | .listItem k p bs m l => simp only [bareB, Word.kept, fitsItemL_bare, source_bare, bareL_isEmpty, keptL_bare bs]
  | .dlist bs m l => simp only [bareB, Word.kept, fitsItemL_bare, source_bare, bareL_isEmpty, keptL_bare bs]
  | .dlistItem t p bs m l => simp only [bareB, Word.kept, fitsItemL_bare, source_bare, bareL_isEmpty, keptL_bare bs]
  | .brk v l => cases v <;> simp only [bareB, Word.kept, fitsItemL_bare, source_bare, bareL_isEmpty]
  | .image t c m l => simp only [bareB, Word.kept, fitsItemL_bare, source_bare, bareL_isEmpty]
  | .leaf n f d is m l => simp only [bareB, Word.kept, fitsItemL_bare, source_bare, bareL_isEmpty]
  | .parent n v d bs t m l => cases n <;> simp only [bareB, Word.kept, fitsItemL_bare, source_bare, bareL_isEmpty, keptL_bare bs]
  | .tableCell is m l => simp only [bareB, Word.kept, fitsItemL_bare, source_bare, bareL_isEmpty]
theorem keptL_bare (bs : List Block) : Word.keptL (bareBs bs) = Word.keptL bs := by
  match bs with
  | [] => rfl
  | b :: bs => simp only [bareBs, Word.keptL, keptL_bare1 b, keptL_bare bs]
end

mutual
theorem contentL_bare1 (b : Block) : Word.content (bareB b) = Word.content b := by
  match b with
  | .section t m v bs l => simp only [bareB, Word.content, shownL_bare, source_bare, contentL_bare bs]
  | .list v bs m l => simp only [bareB, Word.content, shownL_bare, source_bare, contentL_bare bs]
  | .listItem k p bs m l => simp only [bareB, Word.content, shownL_bare, source_bare, contentL_bare bs]
  | .dlist bs m l => simp only [bareB, Word.content, shownL_bare, source_bare, contentL_bare bs]
  | .dlistItem t p bs m l => simp only [bareB, Word.content, shownL_bare, source_bare, contentL_bare bs]
  | .brk v l => cases v <;> simp only [bareB, Word.content, shownL_bare, source_bare]
  | .image t c m l => simp only [bareB, Word.content, shownL_bare, source_bare]
  | .leaf n f d is m l => simp only [bareB, Word.content, shownL_bare, source_bare]
  | .parent n v d bs t m l => cases n <;> simp only [bareB, Word.content, shownL_bare, source_bare, contentL_bare bs]
  | .tableCell is m l => simp only [bareB, Word.content, shownL_bare, source_bare]
theorem contentL_bare (bs : List Block) : Word.contentL (bareBs bs) = Word.contentL bs := by
  match bs with
  | [] => rfl
  | b :: bs => simp only [bareBs, Word.contentL, contentL_bare1 b, contentL_bare bs]
end

mutual
theorem readL_listed1 (b : Block) (path : List Title) : (listed path b).flatMap (fun x => Markup.read x.2) = Markup.read b := by
  match b with
  | .section t m v bs l => simp only [listed, List.flatMap_cons, Markup.read, readL, readL_listed bs, readIs_bare, credit_bare, shownL_bare, List.append_nil, List.append_assoc]
  | .list v bs m l => simp only [listed, List.flatMap_cons, List.flatMap_nil, List.append_nil, readL_bare1]
  | .listItem k p bs m l => simp only [listed, List.flatMap_cons, List.flatMap_nil, List.append_nil, readL_bare1]
  | .dlist bs m l => simp only [listed, List.flatMap_cons, List.flatMap_nil, List.append_nil, readL_bare1]
  | .dlistItem t p bs m l => simp only [listed, List.flatMap_cons, List.flatMap_nil, List.append_nil, readL_bare1]
  | .brk v l => simp only [listed, List.flatMap_cons, List.flatMap_nil, List.append_nil, readL_bare1]
  | .image t c m l => simp only [listed, List.flatMap_cons, List.flatMap_nil, List.append_nil, readL_bare1]
  | .leaf n f d is m l => simp only [listed, List.flatMap_cons, List.flatMap_nil, List.append_nil, readL_bare1]
  | .parent n v d bs t m l => simp only [listed, List.flatMap_cons, List.flatMap_nil, List.append_nil, readL_bare1]
  | .tableCell is m l => simp only [listed, List.flatMap_cons, List.flatMap_nil, List.append_nil, readL_bare1]
theorem readL_listed (bs : List Block) (path : List Title) : (listedL path bs).flatMap (fun x => Markup.read x.2) = readL bs := by
  match bs with
  | [] => rfl
  | b :: bs => simp only [listedL, List.flatMap_append, readL, readL_listed1 b, readL_listed bs]
end

mutual
theorem contentL_listed1 (b : Block) (path : List Title) : (listed path b).flatMap (fun x => Word.content x.2) = Word.content b := by
  match b with
  | .section t m v bs l => simp only [listed, List.flatMap_cons, Word.content, Word.contentL, contentL_listed bs, readIs_bare, credit_bare, shownL_bare, List.append_nil, List.append_assoc]
  | .list v bs m l => simp only [listed, List.flatMap_cons, List.flatMap_nil, List.append_nil, contentL_bare1]
  | .listItem k p bs m l => simp only [listed, List.flatMap_cons, List.flatMap_nil, List.append_nil, contentL_bare1]
  | .dlist bs m l => simp only [listed, List.flatMap_cons, List.flatMap_nil, List.append_nil, contentL_bare1]
  | .dlistItem t p bs m l => simp only [listed, List.flatMap_cons, List.flatMap_nil, List.append_nil, contentL_bare1]
  | .brk v l => simp only [listed, List.flatMap_cons, List.flatMap_nil, List.append_nil, contentL_bare1]
  | .image t c m l => simp only [listed, List.flatMap_cons, List.flatMap_nil, List.append_nil, contentL_bare1]
  | .leaf n f d is m l => simp only [listed, List.flatMap_cons, List.flatMap_nil, List.append_nil, contentL_bare1]
  | .parent n v d bs t m l => simp only [listed, List.flatMap_cons, List.flatMap_nil, List.append_nil, contentL_bare1]
  | .tableCell is m l => simp only [listed, List.flatMap_cons, List.flatMap_nil, List.append_nil, contentL_bare1]
theorem contentL_listed (bs : List Block) (path : List Title) : (listedL path bs).flatMap (fun x => Word.content x.2) = Word.contentL bs := by
  match bs with
  | [] => rfl
  | b :: bs => simp only [listedL, List.flatMap_append, Word.contentL, contentL_listed1 b, contentL_listed bs]
end

mutual
theorem writtenL_listed1 (b : Block) (path : List Title) : (listed path b).all (fun x => Markup.written x.2) = Markup.written b := by
  match b with
  | .section t m v bs l => simp only [listed, List.all_cons, Markup.written, writtenL, writtenL_listed bs, plainIs_bare, Bool.and_true, Bool.true_and, Bool.and_assoc]
  | .list v bs m l => simp only [listed, List.all_cons, List.all_nil, Bool.and_true, writtenL_bare1]
  | .listItem k p bs m l => simp only [listed, List.all_cons, List.all_nil, Bool.and_true, writtenL_bare1]
  | .dlist bs m l => simp only [listed, List.all_cons, List.all_nil, Bool.and_true, writtenL_bare1]
  | .dlistItem t p bs m l => simp only [listed, List.all_cons, List.all_nil, Bool.and_true, writtenL_bare1]
  | .brk v l => simp only [listed, List.all_cons, List.all_nil, Bool.and_true, writtenL_bare1]
  | .image t c m l => simp only [listed, List.all_cons, List.all_nil, Bool.and_true, writtenL_bare1]
  | .leaf n f d is m l => simp only [listed, List.all_cons, List.all_nil, Bool.and_true, writtenL_bare1]
  | .parent n v d bs t m l => simp only [listed, List.all_cons, List.all_nil, Bool.and_true, writtenL_bare1]
  | .tableCell is m l => simp only [listed, List.all_cons, List.all_nil, Bool.and_true, writtenL_bare1]
theorem writtenL_listed (bs : List Block) (path : List Title) : (listedL path bs).all (fun x => Markup.written x.2) = writtenL bs := by
  match bs with
  | [] => rfl
  | b :: bs => simp only [listedL, List.all_append, writtenL, writtenL_listed1 b, writtenL_listed bs]
end

mutual
theorem tidyL_listed1 (ok : Str → Bool) (b : Block) (path : List Title) : (listed path b).all (fun x => tidy ok x.2) = tidy ok b := by
  match b with
  | .section t m v bs l => simp only [listed, List.all_cons, tidy, tidyL, tidyL_listed ok bs, tidyIs_bare, tidyMeta_bare, Bool.and_true, Bool.true_and, Bool.and_assoc]
  | .list v bs m l => simp only [listed, List.all_cons, List.all_nil, Bool.and_true, tidyL_bare1]
  | .listItem k p bs m l => simp only [listed, List.all_cons, List.all_nil, Bool.and_true, tidyL_bare1]
  | .dlist bs m l => simp only [listed, List.all_cons, List.all_nil, Bool.and_true, tidyL_bare1]
  | .dlistItem t p bs m l => simp only [listed, List.all_cons, List.all_nil, Bool.and_true, tidyL_bare1]
  | .brk v l => simp only [listed, List.all_cons, List.all_nil, Bool.and_true, tidyL_bare1]
  | .image t c m l => simp only [listed, List.all_cons, List.all_nil, Bool.and_true, tidyL_bare1]
  | .leaf n f d is m l => simp only [listed, List.all_cons, List.all_nil, Bool.and_true, tidyL_bare1]
  | .parent n v d bs t m l => simp only [listed, List.all_cons, List.all_nil, Bool.and_true, tidyL_bare1]
  | .tableCell is m l => simp only [listed, List.all_cons, List.all_nil, Bool.and_true, tidyL_bare1]
theorem tidyL_listed (ok : Str → Bool) (bs : List Block) (path : List Title) : (listedL path bs).all (fun x => tidy ok x.2) = tidyL ok bs := by
  match bs with
  | [] => rfl
  | b :: bs => simp only [listedL, List.all_append, tidyL, tidyL_listed1 ok b, tidyL_listed ok bs]
end

mutual
theorem griddedL_listed1 (b : Block) (path : List Title) : (listed path b).all (fun x => gridded x.2) = gridded b := by
  match b with
  | .section t m v bs l => simp only [listed, List.all_cons, gridded, griddedL, griddedL_listed bs, Bool.and_true, Bool.true_and, Bool.and_assoc]
  | .list v bs m l => simp only [listed, List.all_cons, List.all_nil, Bool.and_true, griddedL_bare1]
  | .listItem k p bs m l => simp only [listed, List.all_cons, List.all_nil, Bool.and_true, griddedL_bare1]
  | .dlist bs m l => simp only [listed, List.all_cons, List.all_nil, Bool.and_true, griddedL_bare1]
  | .dlistItem t p bs m l => simp only [listed, List.all_cons, List.all_nil, Bool.and_true, griddedL_bare1]
  | .brk v l => simp only [listed, List.all_cons, List.all_nil, Bool.and_true, griddedL_bare1]
  | .image t c m l => simp only [listed, List.all_cons, List.all_nil, Bool.and_true, griddedL_bare1]
  | .leaf n f d is m l => simp only [listed, List.all_cons, List.all_nil, Bool.and_true, griddedL_bare1]
  | .parent n v d bs t m l => simp only [listed, List.all_cons, List.all_nil, Bool.and_true, griddedL_bare1]
  | .tableCell is m l => simp only [listed, List.all_cons, List.all_nil, Bool.and_true, griddedL_bare1]
theorem griddedL_listed (bs : List Block) (path : List Title) : (listedL path bs).all (fun x => gridded x.2) = griddedL bs := by
  match bs with
  | [] => rfl
  | b :: bs => simp only [listedL, List.all_append, griddedL, griddedL_listed1 b, griddedL_listed bs]
end

mutual
theorem keptL_listed1 (b : Block) (path : List Title) : (listed path b).all (fun x => Word.kept x.2) = Word.kept b := by
  match b with
  | .section t m v bs l => simp only [listed, List.all_cons, Word.kept, Word.keptL, keptL_listed bs, Bool.and_true, Bool.true_and, Bool.and_assoc]
  | .list v bs m l => simp only [listed, List.all_cons, List.all_nil, Bool.and_true, keptL_bare1]
  | .listItem k p bs m l => simp only [listed, List.all_cons, List.all_nil, Bool.and_true, keptL_bare1]
  | .dlist bs m l => simp only [listed, List.all_cons, List.all_nil, Bool.and_true, keptL_bare1]
  | .dlistItem t p bs m l => simp only [listed, List.all_cons, List.all_nil, Bool.and_true, keptL_bare1]
  | .brk v l => simp only [listed, List.all_cons, List.all_nil, Bool.and_true, keptL_bare1]
  | .image t c m l => simp only [listed, List.all_cons, List.all_nil, Bool.and_true, keptL_bare1]
  | .leaf n f d is m l => simp only [listed, List.all_cons, List.all_nil, Bool.and_true, keptL_bare1]
  | .parent n v d bs t m l => simp only [listed, List.all_cons, List.all_nil, Bool.and_true, keptL_bare1]
  | .tableCell is m l => simp only [listed, List.all_cons, List.all_nil, Bool.and_true, keptL_bare1]
theorem keptL_listed (bs : List Block) (path : List Title) : (listedL path bs).all (fun x => Word.kept x.2) = Word.keptL bs := by
  match bs with
  | [] => rfl
  | b :: bs => simp only [listedL, List.all_append, Word.keptL, keptL_listed1 b, keptL_listed bs]
end

theorem tableFine_bare (bs : List Block) (m : Option Meta) : Word.tableFine (bareBs bs) (m.map bareM) = Word.tableFine bs m := by
  cases m <;> simp only [Word.tableFine, bareBs_length, Option.map, bareM] <;> rfl

mutual
theorem fineL_bare1 (io : Str → Option Unit) (b : Block) : Word.fine io (bareB b) = Word.fine io b := by
  match b with
  | .section t m v bs l => simp only [bareB, Word.fine, tableFine_bare, fineL_bare io bs]
  | .list v bs m l => simp only [bareB, Word.fine, tableFine_bare, fineL_bare io bs]
  | .listItem k p bs m l => simp only [bareB, Word.fine, tableFine_bare, fineL_bare io bs]
  | .dlist bs m l => simp only [bareB, Word.fine, tableFine_bare, fineL_bare io bs]
  | .dlistItem t p bs m l => simp only [bareB, Word.fine, tableFine_bare, fineL_bare io bs]
  | .brk v l => cases v <;> simp only [bareB, Word.fine, tableFine_bare]
  | .image t c m l => simp only [bareB, Word.fine, tableFine_bare]
  | .leaf n f d is m l => simp only [bareB, Word.fine, tableFine_bare]
  | .parent n v d bs t m l => cases n <;> simp only [bareB, Word.fine, tableFine_bare, fineL_bare io bs]
  | .tableCell is m l => simp only [bareB, Word.fine, tableFine_bare]
theorem fineL_bare (io : Str → Option Unit) (bs : List Block) : Word.fineL io (bareBs bs) = Word.fineL io bs := by
  match bs with
  | [] => rfl
  | b :: bs => simp only [bareBs, Word.fineL, fineL_bare1 io b, fineL_bare io bs]
end

mutual
theorem fineL_listed1 (io : Str → Option Unit) (b : Block) (path : List Title) : (∀ x ∈ listed path b, Word.fine io x.2) ↔ Word.fine io b := by
  match b with
  | .section t m v bs l => simp only [listed, List.forall_mem_cons, Word.fine, Word.fineL, fineL_listed io bs, true_and]
  | .list v bs m l => simp only [listed, List.forall_mem_singleton, fineL_bare1]
  | .listItem k p bs m l => simp only [listed, List.forall_mem_singleton, fineL_bare1]
  | .dlist bs m l => simp only [listed, List.forall_mem_singleton, fineL_bare1]
  | .dlistItem t p bs m l => simp only [listed, List.forall_mem_singleton, fineL_bare1]
  | .brk v l => simp only [listed, List.forall_mem_singleton, fineL_bare1]
  | .image t c m l => simp only [listed, List.forall_mem_singleton, fineL_bare1]
  | .leaf n f d is m l => simp only [listed, List.forall_mem_singleton, fineL_bare1]
  | .parent n v d bs t m l => simp only [listed, List.forall_mem_singleton, fineL_bare1]
  | .tableCell is m l => simp only [listed, List.forall_mem_singleton, fineL_bare1]
theorem fineL_listed (io : Str → Option Unit) (bs : List Block) (path : List Title) : (∀ x ∈ listedL path bs, Word.fine io x.2) ↔ Word.fineL io bs := by
  match bs with
  | [] => simp [listedL, Word.fineL]
  | b :: bs => simp only [listedL, List.forall_mem_append, Word.fineL, fineL_listed1 io b, fineL_listed io bs]
end

theorem given_bare (m : Option Meta) : given (m.map bareM) = given m := by simp only [given, value_bare]

mutual
theorem anchorsL_bare1 (b : Block) (bare : Bool) : anchors bare (bareB b) = anchors bare b := by
  match b with
  | .section t m v bs l => simp only [bareB, anchors, given_bare, anchorsL_bare bs]
  | .list v bs m l => simp only [bareB, anchors, given_bare, anchorsL_bare bs]
  | .listItem k p bs m l => simp only [bareB, anchors, given_bare, anchorsL_bare bs]
  | .dlist bs m l => simp only [bareB, anchors, given_bare, anchorsL_bare bs]
  | .dlistItem t p bs m l => simp only [bareB, anchors, given_bare, anchorsL_bare bs]
  | .brk v l => simp only [bareB, anchors, given_bare]
  | .image t c m l => simp only [bareB, anchors, given_bare]
  | .leaf n f d is m l => simp only [bareB, anchors, given_bare]
  | .parent n v d bs t m l => cases n <;> cases m <;> simp only [bareB, anchors, given_bare, anchorsL_bare bs, Option.map, bareM]
  | .tableCell is m l => simp only [bareB, anchors, given_bare]
theorem anchorsL_bare (bs : List Block) (bare : Bool) : anchorsL bare (bareBs bs) = anchorsL bare bs := by
  match bs with
  | [] => rfl
  | b :: bs => simp only [bareBs, anchorsL, anchorsL_bare1 b, anchorsL_bare bs]
end

mutual
theorem atHomeL_bare1 (b : Block) (lax bare : Bool) (home : Home) : atHome lax bare home (bareB b) = atHome lax bare home b := by
  match b with
  | .section t m v bs l => simp only [bareB, atHome, bareM, atHomeL_bare bs]
  | .list v bs m l => simp only [bareB, atHome, bareM, atHomeL_bare bs]
  | .listItem k p bs m l => simp only [bareB, atHome, bareM, atHomeL_bare bs]
  | .dlist bs m l => simp only [bareB, atHome, bareM, atHomeL_bare bs]
  | .dlistItem t p bs m l => simp only [bareB, atHome, bareM, atHomeL_bare bs]
  | .brk v l => simp only [bareB, atHome, bareM]
  | .image t c m l => simp only [bareB, atHome, bareM]
  | .leaf n f d is m l => simp only [bareB, atHome, bareM]
  | .parent n v d bs t m l => cases n <;> cases m <;> simp only [bareB, atHome, bareM, atHomeL_bare bs, Option.map, bareM]
  | .tableCell is m l => simp only [bareB, atHome, bareM]
theorem atHomeL_bare (bs : List Block) (lax bare : Bool) (home : Home) : atHomeL lax bare home (bareBs bs) = atHomeL lax bare home bs := by
  match bs with
  | [] => rfl
  | b :: bs => simp only [bareBs, atHomeL, atHomeL_bare1 b, atHomeL_bare bs]
end

mutual
theorem anchorsL_listed1 (b : Block) (path : List Title) : (listed path b).flatMap (fun x => anchors false x.2) = anchors false b := by
  match b with
  | .section t m v bs l => simp only [listed, List.flatMap_cons, anchors, anchorsL, anchorsL_listed bs, given_bare, List.append_nil, List.append_assoc]
  | .list v bs m l => simp only [listed, List.flatMap_cons, List.flatMap_nil, List.append_nil, anchorsL_bare1]
  | .listItem k p bs m l => simp only [listed, List.flatMap_cons, List.flatMap_nil, List.append_nil, anchorsL_bare1]
  | .dlist bs m l => simp only [listed, List.flatMap_cons, List.flatMap_nil, List.append_nil, anchorsL_bare1]
  | .dlistItem t p bs m l => simp only [listed, List.flatMap_cons, List.flatMap_nil, List.append_nil, anchorsL_bare1]
  | .brk v l => simp only [listed, List.flatMap_cons, List.flatMap_nil, List.append_nil, anchorsL_bare1]
  | .image t c m l => simp only [listed, List.flatMap_cons, List.flatMap_nil, List.append_nil, anchorsL_bare1]
  | .leaf n f d is m l => simp only [listed, List.flatMap_cons, List.flatMap_nil, List.append_nil, anchorsL_bare1]
  | .parent n v d bs t m l => simp only [listed, List.flatMap_cons, List.flatMap_nil, List.append_nil, anchorsL_bare1]
  | .tableCell is m l => simp only [listed, List.flatMap_cons, List.flatMap_nil, List.append_nil, anchorsL_bare1]
theorem anchorsL_listed (bs : List Block) (path : List Title) : (listedL path bs).flatMap (fun x => anchors false x.2) = anchorsL false bs := by
  match bs with
  | [] => rfl
  | b :: bs => simp only [listedL, List.flatMap_append, anchorsL, anchorsL_listed1 b, anchorsL_listed bs]
end

mutual
theorem atHomeL_listed1 (lax : Bool) (b : Block) (path : List Title) : (listed path b).all (fun x => atHome lax false .other x.2) = atHome lax false .other b := by
  match b with
  | .section t m v bs l => simp only [listed, List.all_cons, atHome, atHomeL, atHomeL_listed lax bs, Bool.and_true, Bool.true_and, Bool.and_assoc]
  | .list v bs m l => simp only [listed, List.all_cons, List.all_nil, Bool.and_true, atHomeL_bare1]
  | .listItem k p bs m l => simp only [listed, List.all_cons, List.all_nil, Bool.and_true, atHomeL_bare1]
  | .dlist bs m l => simp only [listed, List.all_cons, List.all_nil, Bool.and_true, atHomeL_bare1]
  | .dlistItem t p bs m l => simp only [listed, List.all_cons, List.all_nil, Bool.and_true, atHomeL_bare1]
  | .brk v l => simp only [listed, List.all_cons, List.all_nil, Bool.and_true, atHomeL_bare1]
  | .image t c m l => simp only [listed, List.all_cons, List.all_nil, Bool.and_true, atHomeL_bare1]
  | .leaf n f d is m l => simp only [listed, List.all_cons, List.all_nil, Bool.and_true, atHomeL_bare1]
  | .parent n v d bs t m l => simp only [listed, List.all_cons, List.all_nil, Bool.and_true, atHomeL_bare1]
  | .tableCell is m l => simp only [listed, List.all_cons, List.all_nil, Bool.and_true, atHomeL_bare1]
theorem atHomeL_listed (lax : Bool) (bs : List Block) (path : List Title) : (listedL path bs).all (fun x => atHome lax false .other x.2) = atHomeL lax false .other bs := by
  match bs with
  | [] => rfl
  | b :: bs => simp only [listedL, List.all_append, atHomeL, atHomeL_listed1 lax b, atHomeL_listed lax bs]
end

end Adoc.Rich

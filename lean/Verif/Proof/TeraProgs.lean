import Verif.Model.Templates
/-!
# The templates as programs

What reading the texts of the templates gives, cut into pieces that the proofs use one by one.
-/
namespace Adoc.Tera

/-- One program after another. -/
def seq : Prog → Prog → Prog
  | .done, q => q
  | .text s k, q => .text s (seq k q)
  | .out e k, q => .out e (seq k q)
  | .call f args k, q => .call f args (seq k q)
  | .set x e k, q => .set x e (seq k q)
  | .cond e a b k, q => .cond e a b (seq k q)
  | .loop x e body k, q => .loop x e body (seq k q)

/-! ## Shorthands -/

/-- `x.name == "n"` -/
def nameIs (x n : Str) : Ex := .op b!"==" (.path x [b!"name"]) (.str n)
/-- `x.variant == "v"` -/
def variantIs (x v : Str) : Ex := .op b!"==" (.path x [b!"variant"]) (.str v)
/-- `x.metadata.roles` -/
def rolesOf (x : Str) : Ex := .path x [b!"metadata", b!"roles"]
/-- `x.metadata.attributes.k` -/
def attrPath (x k : Str) : Ex := .path x [b!"metadata", b!"attributes", k]

/-- `{% if e %}t{{ e }}"{% endif %}` -/
def attrIf (t : Str) (e : Ex) (k : Prog) : Prog := .cond e (.text t (.out e (.text b!"\"" .done))) .done k
/-- `{% if c %} class="{{ x.metadata.roles | join(sep=" ") }}"{% endif %}` -/
def rolesIf (c : Ex) (x : Str) (k : Prog) : Prog :=
  .cond c (.text b!" class=\"" (.out (.filter1 (rolesOf x) b!"join" b!"sep" (.str b!" ")) (.text b!"\"" .done))) .done k
/-- The loop over inlines. -/
def inlineLoop (e : Ex) (k : Prog) : Prog :=
  .loop b!"inline" e (.call b!"inline_macros::process_inline" [(b!"inline", .path b!"inline" [])] .done) k
/-- The loop over blocks. -/
def blockLoop (x : Str) (e : Ex) (k : Prog) : Prog :=
  .loop x e (.call b!"self::process_block"
    [(b!"block", .path x []), (b!"skip_tag", .path b!"local_skip_tag" [])] .done) k

/-! ## `inline.html.tera` -/

/-- The tag of a span. -/
def spanPart : Prog :=
  .cond (variantIs b!"inline" b!"emphasis") (.set b!"inline_tag" (.str b!"em") .done)
  (.cond (variantIs b!"inline" b!"mark") (.set b!"inline_tag" (.str b!"span") .done)
  (.cond (variantIs b!"inline" b!"superscript") (.set b!"inline_tag" (.str b!"sup") .done)
  (.cond (variantIs b!"inline" b!"subscript") (.set b!"inline_tag" (.str b!"sub") .done)
  (.cond (variantIs b!"inline" b!"footnote")
    (.set b!"inline_tag" (.str b!"span") (.set b!"data_type" (.str b!"footnote") .done))
  (.set b!"inline_tag" (.path b!"inline" [b!"variant"]) .done) .done) .done) .done) .done) .done

/-- The tag and target of a reference. -/
def refPart : Prog :=
  .set b!"inline_tag" (.str b!"a")
  (.cond (variantIs b!"inline" b!"link")
    (.set b!"ref" (.path b!"inline" [b!"target"]) (.set b!"target_attr" (.str b!"href") .done))
  (.cond (variantIs b!"inline" b!"xref")
    (.set b!"ref" (.op b!"~" (.str b!"#") (.path b!"inline" [b!"target"])) (.set b!"target_attr" (.str b!"href") .done))
  (.cond (variantIs b!"inline" b!"image")
    (.set b!"inline_tag" (.str b!"img") (.set b!"ref" (.path b!"inline" [b!"target"])
      (.set b!"self_close" (.bool true) (.set b!"target_attr" (.str b!"src") .done))))
    .done .done) .done)
  (.set b!"target" (.op b!"~" (.path b!"target_attr" []) (.op b!"~" (.str b!"=\"") (.op b!"~" (.path b!"ref" []) (.str b!"\""))))
    .done))

/-- The opening tag. -/
def inlineOpen : Prog :=
  .cond (.path b!"inline_tag" [])
    (.text b!"<" (.out (.path b!"inline_tag" []) (rolesIf (rolesOf b!"inline") b!"inline"
      (attrIf b!" data-type=\"" (.path b!"data_type" [])
      (.cond (.path b!"target" []) (.text b!" " (.out (.path b!"target" []) .done)) .done
      (.cond (.path b!"self_close" []) (.text b!" /" .done) .done (.text b!">" .done)))))))
    .done .done

/-- What is inside. -/
def inlineInside : Prog :=
  .cond (.path b!"inline" [b!"inlines"])
    (.loop b!"child" (.path b!"inline" [b!"inlines"])
      (.call b!"self::process_inline" [(b!"inline", .path b!"child" [])] .done) .done)
  (.cond (.path b!"inline" [b!"variant"])
    (.cond (.op b!"or" (variantIs b!"inline" b!"xref") (variantIs b!"inline" b!"link"))
      (.out (.path b!"ref" []) .done) .done .done)
  (.cond (.path b!"inline" [b!"value"]) (.out (.path b!"inline" [b!"value"]) .done) .done .done) .done) .done

/-- The closing tag. -/
def inlineClose : Prog :=
  .cond (.path b!"inline_tag" []) (.text b!"</" (.out (.path b!"inline_tag" []) (.text b!">" .done))) .done .done

/-- `process_inline` -/
def inlineBody : Prog :=
  .cond (nameIs b!"inline" b!"linebreak") (.text b!"<br />" .done)
    (.cond (nameIs b!"inline" b!"span") spanPart (.cond (nameIs b!"inline" b!"ref") refPart .done .done)
      (seq inlineOpen (.cond (.not (.path b!"self_close" [])) (seq inlineInside inlineClose) .done .done))) .done

/-- `inline.html.tera` -/
def inlineT : Template := ⟨[], [⟨b!"process_inline", [b!"inline"], inlineBody⟩], .done⟩

/-! ## `leafblocks.html.tera` -/

/-- The tag of a leaf block. -/
def leafPart : Prog :=
  .cond (nameIs b!"block" b!"paragraph") (.set b!"tag" (.str b!"p") .done)
  (.cond (nameIs b!"block" b!"listing")
    (.set b!"tag" (.str b!"pre")
      (.cond (attrPath b!"block" b!"language") (.set b!"code_language" (attrPath b!"block" b!"language") .done) .done .done))
  (.cond (nameIs b!"block" b!"verse") (.set b!"tag" (.str b!"pre") (.set b!"data_type" (.str b!"verse") .done))
  (.cond (nameIs b!"block" b!"literal") (.set b!"tag" (.str b!"pre") .done)
  (.cond (nameIs b!"block" b!"pass") .done .done .done) .done) .done) .done) .done

/-- The opening tag. -/
def leafOpen : Prog :=
  .cond (.path b!"tag" [])
    (.text b!"<" (.out (.path b!"tag" []) (rolesIf (rolesOf b!"block") b!"block"
      (attrIf b!" data-code-language=\"" (.path b!"code_language" [])
      (attrIf b!" id=\"" (.path b!"id" [])
      (attrIf b!" data-type=\"" (.path b!"data_type" []) (.text b!">" .done)))))))
    .done .done

/-- The text. -/
def textPart (e : Ex) : Prog := .cond e (inlineLoop e .done) .done .done

/-- The closing tag. -/
def leafClose : Prog :=
  .cond (.path b!"tag" []) (.text b!"</" (.out (.path b!"tag" []) (.text b!">" .done))) .done .done

/-- `process_leaf_block` -/
def leafBody : Prog := seq leafPart (seq leafOpen (seq (textPart (.path b!"block" [b!"inlines"])) leafClose))

/-- `leafblocks.html.tera` -/
def leafT : Template :=
  ⟨[(b!"inline_macros", b!"inline.html.tera")], [⟨b!"process_leaf_block", [b!"block"], leafBody⟩], .done⟩

/-! ## `tables.html.tera` -/

/-- The columns and the first cell of the body. -/
def tableStart : Prog :=
  .set b!"cols" (.filter (attrPath b!"block" b!"cols") b!"int")
  (.set b!"body_start" (.int 0)
  (.cond (.op b!"in" (.str b!"header") (.path b!"block" [b!"metadata", b!"options"]))
    (.set b!"header" (.bool true) (.set b!"body_start" (.path b!"cols" []) .done)) .done .done))

/-- The cell at an index. -/
def cellAt (tag : Str) (k : Prog) : Prog :=
  .set b!"cell" (.filter1 (.path b!"block" [b!"blocks"]) b!"nth" b!"n" (.path b!"idx" []))
  (.call b!"self::process_table_cell" [(b!"cell", .path b!"cell" []), (b!"tag", .str tag)] k)

/-- The header. -/
def tableHead : Prog :=
  .text b!"<table>"
  (.cond (.path b!"header" [])
    (.text b!"\n    <thead>\n        "
      (.loop b!"idx" (.fn2 b!"range" b!"start" (.int 0) b!"end" (.path b!"body_start" []))
        (cellAt b!"th" (.text b!"\n    " .done))
      (.text b!"</thead>\n    <tbody>\n        <tr>" .done)))
    (.text b!"<tr>" .done) .done)

/-- The condition for a new row. -/
def newRow : Ex :=
  .op b!"and" (.op b!">" (.path b!"idx" []) (.int 0))
    (.op b!"and" (.op b!"==" (.op b!"%" (.op b!"+" (.path b!"idx" []) (.int 1)) (.path b!"cols" [])) (.int 0))
      (.op b!"!=" (.op b!"+" (.path b!"idx" []) (.int 1)) (.path b!"num_cells" [])))

/-- The cells of the body. -/
def tableRows : Prog :=
  .text b!"\n        "
  (.set b!"num_cells" (.filter (.path b!"block" [b!"blocks"]) b!"length")
  (.loop b!"idx" (.fn2 b!"range" b!"start" (.path b!"body_start" []) b!"end" (.path b!"num_cells" []))
    (cellAt b!"td" (.cond newRow (.text b!"\n        </tr>\n        <tr>" .done) .done (.text b!"\n        " .done)))
    .done))

/-- The end. -/
def tableEnd : Prog :=
  .text b!"</tr>"
  (.cond (.path b!"header" []) (.text b!"\n    </tbody>" .done) .done (.text b!"\n    </table>" .done))

/-- `process_table` -/
def tableBody : Prog := seq tableStart (seq tableHead (seq tableRows tableEnd))

/-- `process_table_cell` -/
def cellBody : Prog :=
  .text b!"<" (.out (.path b!"tag" []) (.text b!">"
    (seq (textPart (.path b!"cell" [b!"inlines"]))
      (.text b!"</" (.out (.path b!"tag" []) (.text b!">" .done))))))

/-- `tables.html.tera` -/
def tableT : Template :=
  ⟨[(b!"inline_macros", b!"inline.html.tera")],
    [⟨b!"process_table", [b!"block"], tableBody⟩, ⟨b!"process_table_cell", [b!"cell", b!"tag"], cellBody⟩], .done⟩

/-! ## `block.html.tera` -/

/-- A break. -/
def breakPart : Prog :=
  .cond (variantIs b!"block" b!"page") (.text b!"\n    <div style=\"page-break-after: always;\"></div>\n    " .done)
  (.cond (variantIs b!"block" b!"thematic") (.text b!"\n    <hr />" .done) .done .done) .done

/-- The beginning of a section. -/
def sectionOpen : Prog :=
  .text b!"<section data-type=\"sect" (.out (.path b!"block" [b!"level"]) (.text b!"\""
    (rolesIf (rolesOf b!"block") b!"block" (attrIf b!" id=\"" (attrPath b!"block" b!"id") (.text b!">" .done)))))

/-- The tag of a block and what comes before it. -/
def tagPart : Prog :=
  .cond (nameIs b!"block" b!"section") sectionOpen
  (.cond (nameIs b!"block" b!"dlist") (.set b!"tag" (.str b!"dl") .done)
  (.cond (nameIs b!"block" b!"list")
    (.cond (variantIs b!"block" b!"ordered") (.set b!"tag" (.str b!"ol") .done)
    (.cond (variantIs b!"block" b!"unordered") (.set b!"tag" (.str b!"ul") .done) .done .done) .done)
  (.cond (nameIs b!"block" b!"open") (.set b!"tag" (.str b!"div") .done)
  (.cond (nameIs b!"block" b!"listItem") (.set b!"tag" (.str b!"li") .done)
  (.cond (nameIs b!"block" b!"dlistItem")
    (.cond (.path b!"block" [b!"terms"])
      (.text b!"\n        <dt>" (inlineLoop (.path b!"block" [b!"terms"]) (.text b!"</dt>\n        " .done))) .done
      (.set b!"tag" (.str b!"dd") .done))
  (.cond (nameIs b!"block" b!"admonition")
    (.set b!"tag" (.str b!"div") (.set b!"data_type" (.path b!"block" [b!"variant"])
      (.set b!"local_skip_tag" (.bool true) .done)))
  (.cond (nameIs b!"block" b!"example") (.set b!"tag" (.str b!"div") .done)
  (.cond (nameIs b!"block" b!"quote") (.set b!"tag" (.str b!"blockquote") .done)
  (.cond (nameIs b!"block" b!"image")
    (.set b!"tag" (.str b!"figure")
      (.cond (attrPath b!"block" b!"positional_1") (.set b!"alt_text" (attrPath b!"block" b!"positional_1") .done) .done
      (.cond (attrPath b!"block" b!"id") (.set b!"id" (attrPath b!"block" b!"id") .done) .done .done)))
  (.cond (nameIs b!"block" b!"sidebar") (.set b!"tag" (.str b!"aside") (.set b!"data_type" (.str b!"sidebar") .done))
  (.set b!"tag" (.str b!"UNHANDLED") .done)
  .done) .done) .done) .done) .done) .done) .done) .done) .done) .done) .done

/-- The tag is written. -/
def tagged : Ex := .op b!"and" (.path b!"tag" []) (.not (.path b!"skip_tag" []))

/-- The opening tag. -/
def openPart : Prog :=
  .cond tagged
    (.text b!"<" (.out (.path b!"tag" [])
      (rolesIf (.op b!"and" (rolesOf b!"block") (.not (nameIs b!"block" b!"section"))) b!"block"
      (attrIf b!" data-code-language=\"" (.path b!"code_language" [])
      (attrIf b!" id=\"" (.path b!"id" [])
      (attrIf b!" data-type=\"" (.path b!"data_type" []) (.text b!">" .done)))))))
    .done .done

/-- The title. -/
def titlePart : Prog :=
  .cond (.path b!"block" [b!"title"])
    (.cond (.op b!"in" (.path b!"block" [b!"name"]) (.strs [b!"example", b!"sidebar"]))
      (.set b!"title_heading_level" (.int 5) .done) (.set b!"title_heading_level" (.int 1) .done)
      (.text b!"\n        <h" (.out (.path b!"title_heading_level" []) (.text b!">"
        (inlineLoop (.path b!"block" [b!"title"])
        (.text b!"</h" (.out (.path b!"title_heading_level" []) (.text b!">\n        " .done))))))))
    .done .done

/-- The image. -/
def imagePart : Prog :=
  .cond (nameIs b!"block" b!"image")
    (.text b!"\n        <img src=\"" (.out (.path b!"block" [b!"target"]) (.text b!"\""
      (attrIf b!" alt=\"" (.path b!"alt_text" []) (.text b!"/>"
      (.cond (.path b!"block" [b!"caption"])
        (.text b!"\n        <figcaption>" (inlineLoop (.path b!"block" [b!"caption"]) (.text b!"</figcaption>" .done))) .done
      (.text b!"\n    " .done)))))))
    .done .done

/-- The items or the text. -/
def itemsPart : Prog :=
  .cond (.op b!"or" (nameIs b!"block" b!"list") (nameIs b!"block" b!"dlist"))
    (blockLoop b!"item" (.path b!"block" [b!"items"]) .done)
  (.cond (.path b!"block" [b!"principal"])
    (.text b!"<p>" (inlineLoop (.path b!"block" [b!"principal"]) (.text b!"</p>" .done)))
  (textPart (.path b!"block" [b!"inlines"])) .done) .done

/-- The blocks inside. -/
def blocksPart : Prog :=
  .cond (.op b!"and" (.path b!"block" [b!"blocks"]) (.op b!"!=" (.path b!"block" [b!"name"]) (.str b!"section")))
    (blockLoop b!"child_block" (.path b!"block" [b!"blocks"]) .done) .done .done

/-- The attribution. -/
def creditPart : Prog :=
  .cond (attrPath b!"block" b!"attribution")
    (.text b!"<p data-type=\"attribution\">" (.out (attrPath b!"block" b!"attribution")
      (.cond (attrPath b!"block" b!"citation") (.text b!", " (.out (attrPath b!"block" b!"citation") .done)) .done
      (.text b!"</p>" .done))))
    .done .done

/-- The closing tag. -/
def closePart : Prog :=
  .cond tagged (.text b!"</" (.out (.path b!"tag" []) (.text b!">" .done))) .done .done

/-- The blocks of a section. -/
def sectionPart : Prog :=
  .cond (nameIs b!"block" b!"section")
    (.text b!"\n    " (.cond (.path b!"block" [b!"blocks"])
      (blockLoop b!"child_block" (.path b!"block" [b!"blocks"]) .done) .done (.text b!"</section>" .done)))
    .done .done

/-- What comes after the opening tag. -/
def restParts : Prog :=
  seq openPart (seq titlePart (seq imagePart (seq itemsPart (seq blocksPart (seq creditPart (seq closePart sectionPart))))))

/-- `process_block` -/
def blockBody : Prog :=
  .set b!"local_skip_tag" (.bool false)
  (.cond (.op b!"in" (.path b!"block" [b!"name"]) (.strs [b!"paragraph", b!"listing", b!"verse", b!"pass", b!"literal"]))
    (.text b!"\n    " (.call b!"leaf_block_macros::process_leaf_block" [(b!"block", .path b!"block" [])] .done))
  (.cond (nameIs b!"block" b!"table") (.call b!"table_macros::process_table" [(b!"block", .path b!"block" [])] .done)
  (.cond (nameIs b!"block" b!"break") breakPart (seq tagPart restParts) .done) .done) .done)

/-- `block.html.tera` -/
def blockT : Template :=
  ⟨[(b!"inline_macros", b!"inline.html.tera"), (b!"leaf_block_macros", b!"leafblocks.html.tera"),
    (b!"table_macros", b!"tables.html.tera")], [⟨b!"process_block", [b!"block", b!"skip_tag"], blockBody⟩], .done⟩

/-! ## `htmlbook.html.tera` -/

/-- The page. -/
def pageBody : Prog :=
  .text b!"\n" (.text b!"\n<!DOCTYPE html>\n<html lang=\"en\">\n\n<head>\n    <meta charset=\"UTF-8\">\n    <meta name=\"viewport\" content=\"width=device-width, initial-scale=1\">\n    <title>"
  (.cond (.path b!"header" []) (inlineLoop (.path b!"header" [b!"title"]) .done) .done
  (.text b!"</title>\n</head>\n\n<body>"
  (.loop b!"block" (.path b!"blocks" [])
    (.text b!"\n    " (.call b!"block_macros::process_block"
      [(b!"block", .path b!"block" []), (b!"skip_tag", .bool false)] .done))
  (.text b!"\n</body>\n\n</html>\n" .done)))))

/-- `htmlbook.html.tera` -/
def pageT : Template :=
  ⟨[(b!"inline_macros", b!"inline.html.tera"), (b!"block_macros", b!"block.html.tera")], [], pageBody⟩

/-! ## The texts are these programs -/

theorem read_inline : readTemplate inlineText = some inlineT := by decide +kernel
theorem read_leaf : readTemplate leafblocksText = some leafT := by decide +kernel
theorem read_table : readTemplate tablesText = some tableT := by decide +kernel
theorem read_block : readTemplate blockText = some blockT := by decide +kernel
theorem read_page : readTemplate htmlbookText = some pageT := by decide +kernel

/-- All templates. -/
def allFiles : Files :=
  [(b!"htmlbook.html.tera", pageT), (b!"block.html.tera", blockT), (b!"leafblocks.html.tera", leafT),
   (b!"tables.html.tera", tableT), (b!"inline.html.tera", inlineT)]

theorem gathered_eq : gathered = some allFiles := by
  simp only [gathered, read_inline, read_leaf, read_table, read_block, read_page, Option.bind_eq_bind, Option.bind_some]
  rfl

end Adoc.Tera

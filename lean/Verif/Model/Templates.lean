import Verif.Model.Tera
import Verif.Model.Html
/-!
# The templates (`templates/htmlbook`)

The texts of the five files, byte by byte; `tools/validate.py` compares them with the files.
-/
namespace Adoc.Tera

/-- `htmlbook.html.tera`. -/
def htmlbookText : Str :=
  b!"{% import \"inline.html.tera\" as inline_macros %}\n" ++
  b!"{% import \"block.html.tera\" as block_macros %}\n" ++
  b!"<!DOCTYPE html>\n" ++
  b!"<html lang=\"en\">\n" ++
  b!"\n" ++
  b!"<head>\n" ++
  b!"    <meta charset=\"UTF-8\">\n" ++
  b!"    <meta name=\"viewport\" content=\"width=device-width, initial-scale=1\">\n" ++
  b!"    <title>{%- if header %}\n" ++
  b!"        {%- for inline in header.title %}\n" ++
  b!"        {{- inline_macros::process_inline(inline=inline) -}}\n" ++
  b!"        {% endfor -%}\n" ++
  b!"        {% endif -%}</title>\n" ++
  b!"</head>\n" ++
  b!"\n" ++
  b!"<body>{% for block in blocks %}\n" ++
  b!"    {{ block_macros::process_block(block=block,skip_tag=false) -}}\n" ++
  b!"{% endfor %}\n" ++
  b!"</body>\n" ++
  b!"\n" ++
  b!"</html>\n"

/-- `block.html.tera`. -/
def blockText : Str :=
  b!"{#-\n" ++
  b!"\n" ++
  b!"Tera doesn't seem to support calling back and forth macros in recursion, so\n" ++
  b!"unfortunately our block (and inline, for that matter) processing all has to be\n" ++
  b!"done on a kind of `match`-like check, though as it also doesn't support a\n" ++
  b!"`match` (to be fair: I don't know of many templating languages that do), we get\n" ++
  b!"a long if-else chain. Perhaps there is a smarter way to do this, but for now,\n" ++
  b!"this should work.\n" ++
  b!"\n" ++
  b!"-#}\n" ++
  b!"{%- import \"inline.html.tera\" as inline_macros -%}\n" ++
  b!"{%- import \"leafblocks.html.tera\" as leaf_block_macros -%}\n" ++
  b!"{%- import \"tables.html.tera\" as table_macros -%}\n" ++
  b!"{%- macro process_block(block, skip_tag) -%}\n" ++
  b!"{%- set local_skip_tag = false -%}\n" ++
  b!"{#- Handle breaks separately; makes the logic easier -#}\n" ++
  b!"{%- if block.name in [\"paragraph\", \"listing\", \"verse\", \"pass\", \"literal\"] %}\n" ++
  b!"    {{ leaf_block_macros::process_leaf_block(block=block) }}\n" ++
  b!"{%- elif block.name == \"table\" -%}\n" ++
  b!"    {{ table_macros::process_table(block=block) }}\n" ++
  b!"{%- else -%}\n" ++
  b!"{%- if block.name == \"break\"-%}\n" ++
  b!"    {% if block.variant == \"page\" %}\n" ++
  b!"    <div style=\"page-break-after: always;\"></div>\n" ++
  b!"    {% elif block.variant == \"thematic\" %}\n" ++
  b!"    <hr />\n" ++
  b!"    {%- endif -%}\n" ++
  b!"{%- else -%}\n" ++
  b!"{%- if block.name == \"section\" -%}\n" ++
  b!"<section data-type=\"sect{{block.level}}\"\n" ++
  b!"        {%- if block.metadata.roles %} class=\"{{ block.metadata.roles | join(sep=\" \")}}\" {%- endif -%}\n" ++
  b!"        {%- if block.metadata.attributes.id %} id=\"{{ block.metadata.attributes.id }}\" {%- endif -%}>\n" ++
  b!"    {%- elif block.name == \"dlist\" -%}\n" ++
  b!"    {%- set tag = \"dl\" -%}\n" ++
  b!"    {%- elif block.name == \"list\" -%}\n" ++
  b!"    {%- if block.variant == \"ordered\" -%}\n" ++
  b!"    {%- set tag = \"ol\" -%}\n" ++
  b!"    {%- elif block.variant == \"unordered\" -%}\n" ++
  b!"    {%- set tag = \"ul\" -%}\n" ++
  b!"    {%- endif -%}\n" ++
  b!"    {%- elif block.name == \"open\" -%}\n" ++
  b!"    {%- set tag = \"div\" -%}\n" ++
  b!"    {%- elif block.name == \"listItem\" -%}\n" ++
  b!"    {%- set tag = \"li\" -%}\n" ++
  b!"    {%- elif block.name == \"dlistItem\" -%}\n" ++
  b!"        {#- just handle the terms here-#}\n" ++
  b!"        {%- if block.terms %}\n" ++
  b!"        <dt>{%- for inline in block.terms -%}\n" ++
  b!"            {{- inline_macros::process_inline(inline=inline) -}}\n" ++
  b!"        {%- endfor -%}</dt>\n" ++
  b!"        {% endif -%}\n" ++
  b!"    {%- set tag = \"dd\" -%}\n" ++
  b!"    {% elif block.name == \"admonition\" -%}\n" ++
  b!"    {%- set tag = \"div\" -%}\n" ++
  b!"    {%- set data_type = block.variant -%}\n" ++
  b!"    {%- set local_skip_tag = true -%}\n" ++
  b!"    {% elif block.name == \"example\" -%}\n" ++
  b!"    {%- set tag = \"div\" -%}\n" ++
  b!"    {% elif block.name == \"quote\" -%}\n" ++
  b!"    {%- set tag = \"blockquote\" -%}\n" ++
  b!"    {% elif block.name == \"image\" -%}\n" ++
  b!"    {%- set tag = \"figure\" -%}\n" ++
  b!"        {%- if block.metadata.attributes.positional_1 -%}\n" ++
  b!"        {%- set alt_text = block.metadata.attributes.positional_1 -%}\n" ++
  b!"        {%- endif -%}\n" ++
  b!"        {%- if block.metadata.attributes.id -%}\n" ++
  b!"        {%- set id = block.metadata.attributes.id -%}\n" ++
  b!"        {%- endif -%}\n" ++
  b!"    {% elif block.name == \"sidebar\" -%}\n" ++
  b!"        {%- set tag = \"aside\" -%}\n" ++
  b!"        {%- set data_type = \"sidebar\" -%}\n" ++
  b!"    {% else %}\n" ++
  b!"    {%- set tag = \"UNHANDLED\" -%}\n" ++
  b!"    {%- endif %}\n" ++
  b!"        {%- if tag and not skip_tag -%}<{{tag}}\n" ++
  b!"    {%- if block.metadata.roles and not block.name==\"section\" %} class=\"{{ block.metadata.roles | join(sep=\" \")}}\" {%- endif -%}\n" ++
  b!"    {%- if code_language %} data-code-language=\"{{ code_language }}\" {%- endif -%}\n" ++
  b!"    {%- if id %} id=\"{{ id }}\" {%- endif -%}\n" ++
  b!"    {%- if data_type %} data-type=\"{{ data_type }}\"{%- endif -%}>{%- endif -%}\n" ++
  b!"        {%- if block.title -%}\n" ++
  b!"            {%- if block.name in [\"example\", \"sidebar\"]-%}\n" ++
  b!"                {%- set title_heading_level = 5 -%}\n" ++
  b!"            {%- else -%}\n" ++
  b!"                {%- set title_heading_level = 1 -%}\n" ++
  b!"            {%- endif %}\n" ++
  b!"        <h{{title_heading_level}}>{%- for inline in block.title -%}{{- inline_macros::process_inline(inline=inline) -}}\n" ++
  b!"        {%- endfor -%}</h{{title_heading_level}}>\n" ++
  b!"        {% endif -%}\n" ++
  b!"        {%- if block.name == \"image\" %}\n" ++
  b!"        <img src=\"{{block.target}}\"{%- if alt_text %} alt=\"{{alt_text}}\"{%- endif -%} />\n" ++
  b!"        {%- if block.caption %}\n" ++
  b!"        <figcaption>{%- for inline in block.caption -%}\n" ++
  b!"            {{- inline_macros::process_inline(inline=inline) -}}\n" ++
  b!"            {%- endfor -%}</figcaption>\n" ++
  b!"        {%- endif %}\n" ++
  b!"    {% endif -%}\n" ++
  b!"        {%- if block.name == \"list\" or block.name == \"dlist\" -%}\n" ++
  b!"        {% for item in block.items -%}\n" ++
  b!"        {{ self::process_block(block=item, skip_tag=local_skip_tag) }}\n" ++
  b!"        {%- endfor -%}\n" ++
  b!"        {% elif block.principal -%}\n" ++
  b!"        <p>{%- for inline in block.principal -%}\n" ++
  b!"            {{- inline_macros::process_inline(inline=inline) -}}\n" ++
  b!"            {%- endfor -%}</p>\n" ++
  b!"        {%- else -%}\n" ++
  b!"        {% if block.inlines %}\n" ++
  b!"        {%- for inline in block.inlines -%}\n" ++
  b!"        {{- inline_macros::process_inline(inline=inline) -}}\n" ++
  b!"        {%- endfor -%}\n" ++
  b!"        {%- endif -%}\n" ++
  b!"        {%- endif -%}\n" ++
  b!"        {%- if block.blocks and block.name != \"section\" %}\n" ++
  b!"        {%- for child_block in block.blocks %}\n" ++
  b!"        {{- self::process_block(block=child_block, skip_tag=local_skip_tag )-}}\n" ++
  b!"        {%- endfor -%}\n" ++
  b!"        {% endif -%}\n" ++
  b!"    {%- if block.metadata.attributes.attribution -%}\n" ++
  b!"    <p data-type=\"attribution\">{{block.metadata.attributes.attribution}}\n" ++
  b!"        {%- if block.metadata.attributes.citation -%}, {{block.metadata.attributes.citation}}\n" ++
  b!"        {%- endif -%}\n" ++
  b!"    </p>\n" ++
  b!"    {%- endif -%}\n" ++
  b!"    {%- if tag and not skip_tag -%}</{{tag}}>{%- endif -%}\n" ++
  b!"    {% if block.name == \"section\" %}\n" ++
  b!"    {% if block.blocks -%}\n" ++
  b!"    {% for child_block in block.blocks %}\n" ++
  b!"    {{- self::process_block(block=child_block, skip_tag=local_skip_tag) -}}\n" ++
  b!"    {%- endfor -%}\n" ++
  b!"    {%- endif -%}\n" ++
  b!"</section>\n" ++
  b!"{%- endif -%}\n" ++
  b!"{%- endif -%}\n" ++
  b!"{%- endif -%}\n" ++
  b!"{%- endmacro process_block -%}\n"

/-- `leafblocks.html.tera`. -/
def leafblocksText : Str :=
  b!"{#- Leaf blocks, which never have child blocks, include:\n" ++
  b!"    Listing,\n" ++
  b!"    Literal, // TK not handling now\n" ++
  b!"    Paragraph,\n" ++
  b!"    Pass,\n" ++
  b!"    Stem, // TK not handling now\n" ++
  b!"    Verse,\n" ++
  b!"    Comment, // Gets thrown away, but convenient\n" ++
  b!"-#}\n" ++
  b!"{%- import \"inline.html.tera\" as inline_macros -%}\n" ++
  b!"{%- macro process_leaf_block(block) -%}\n" ++
  b!"    {% if block.name == \"paragraph\" -%}\n" ++
  b!"    {%- set tag = \"p\" -%}\n" ++
  b!"    {% elif block.name == \"listing\" -%}\n" ++
  b!"    {%- set tag = \"pre\" -%}\n" ++
  b!"        {%- if block.metadata.attributes.language -%}\n" ++
  b!"        {%- set code_language = block.metadata.attributes.language -%}\n" ++
  b!"        {%- endif -%}\n" ++
  b!"    {% elif block.name == \"verse\" -%}\n" ++
  b!"        {%- set tag = \"pre\" -%}\n" ++
  b!"        {%- set data_type = \"verse\" -%}\n" ++
  b!"    {% elif block.name == \"literal\" -%}\n" ++
  b!"        {%- set tag = \"pre\" -%}\n" ++
  b!"    {% elif block.name == \"pass\" -%}\n" ++
  b!"    {%- endif -%}\n" ++
  b!"{%- if tag -%}<{{tag}}\n" ++
  b!"{%- if block.metadata.roles %} class=\"{{ block.metadata.roles | join(sep=\" \")}}\" {%- endif -%}\n" ++
  b!"{%- if code_language %} data-code-language=\"{{ code_language }}\" {%- endif -%}\n" ++
  b!"{%- if id %} id=\"{{ id }}\" {%- endif -%}\n" ++
  b!"{%- if data_type %} data-type=\"{{ data_type }}\"{%- endif -%}>{%- endif -%}\n" ++
  b!"    {% if block.inlines %}\n" ++
  b!"    {%- for inline in block.inlines -%}\n" ++
  b!"    {{- inline_macros::process_inline(inline=inline) -}}\n" ++
  b!"    {%- endfor -%}\n" ++
  b!"    {%- endif -%}\n" ++
  b!"{%- if tag -%}</{{tag}}>{%- endif -%}\n" ++
  b!"{%- endmacro process_leaf_block -%}\n"

/-- `tables.html.tera`. -/
def tablesText : Str :=
  b!"{%- import \"inline.html.tera\" as inline_macros -%}\n" ++
  b!"{%- macro process_table(block) -%}\n" ++
  b!"{#- Collect Cells into rows; should be save to assume that all tables have a cols attr -#}\n" ++
  b!"{% set cols = block.metadata.attributes.cols | int %}\n" ++
  b!"{%- set body_start = 0 -%}\n" ++
  b!"{%- if \"header\" in block.metadata.options -%}\n" ++
  b!"{%- set header = true -%}\n" ++
  b!"{%- set body_start = cols -%}\n" ++
  b!"{%- endif -%}\n" ++
  b!"    <table>{% if header %}\n" ++
  b!"    <thead>\n" ++
  b!"        {% for idx in range(start=0, end=body_start) -%}\n" ++
  b!"            {%- set cell = block.blocks | nth(n=idx) -%}\n" ++
  b!"                {{ self::process_table_cell(cell=cell, tag=\"th\") }}\n" ++
  b!"    {% endfor %}</thead>\n" ++
  b!"    <tbody>\n" ++
  b!"        <tr>\n" ++
  b!"        {%- else -%}\n" ++
  b!"        <tr>\n" ++
  b!"        {%- endif %}\n" ++
  b!"        {% set num_cells = block.blocks | length -%}\n" ++
  b!"        {% for idx in range(start=body_start, end=num_cells) -%}\n" ++
  b!"            {%- set cell = block.blocks | nth(n=idx) -%}\n" ++
  b!"                {{ self::process_table_cell(cell=cell, tag=\"td\") -}}\n" ++
  b!"        {% if idx > 0 and (idx + 1) % cols == 0 and idx+1 != num_cells %}\n" ++
  b!"        </tr>\n" ++
  b!"        <tr>{%- endif %}\n" ++
  b!"        {% endfor %}</tr>\n" ++
  b!"    {%- if header %}\n" ++
  b!"    </tbody>{%- endif %}\n" ++
  b!"    </table>\n" ++
  b!"{%- endmacro process_table -%}\n" ++
  b!"\n" ++
  b!"{%- macro process_table_cell(cell, tag) -%}\n" ++
  b!"            <{{tag}}>\n" ++
  b!"            {%- if cell.inlines -%}\n" ++
  b!"            {%- for inline in cell.inlines -%}\n" ++
  b!"            {{- inline_macros::process_inline(inline=inline) -}}\n" ++
  b!"            {%- endfor -%}\n" ++
  b!"            {%- endif -%}\n" ++
  b!"            </{{tag}}>\n" ++
  b!"{%- endmacro process_table_cell -%}\n"

/-- `inline.html.tera`. -/
def inlineText : Str :=
  b!"{%- macro process_inline(inline) -%}\n" ++
  b!"{%- if inline.name == \"linebreak\" -%}\n" ++
  b!"    <br />\n" ++
  b!"{%- else -%}\n" ++
  b!"    {%- if inline.name == \"span\" -%}\n" ++
  b!"        {%- if inline.variant == \"emphasis\" -%}\n" ++
  b!"            {%- set inline_tag = \"em\" -%}\n" ++
  b!"        {%- elif inline.variant == \"mark\" -%}\n" ++
  b!"            {%- set inline_tag = \"span\" -%}\n" ++
  b!"        {%- elif inline.variant == \"superscript\" -%}\n" ++
  b!"            {%- set inline_tag = \"sup\" -%}\n" ++
  b!"        {%- elif inline.variant == \"subscript\" -%}\n" ++
  b!"            {%- set inline_tag = \"sub\" -%}\n" ++
  b!"        {%- elif inline.variant == \"footnote\" -%}\n" ++
  b!"            {%- set inline_tag = \"span\" -%}\n" ++
  b!"            {%- set data_type = \"footnote\" -%}\n" ++
  b!"        {%- else -%}\n" ++
  b!"            {%- set inline_tag = inline.variant -%}\n" ++
  b!"        {%- endif -%}\n" ++
  b!"\n" ++
  b!"    {%- elif inline.name == \"ref\" -%}\n" ++
  b!"        {%- set inline_tag = \"a\" -%}\n" ++
  b!"        {%- if inline.variant == \"link\" -%}\n" ++
  b!"            {%- set ref = inline.target -%}\n" ++
  b!"            {%- set target_attr = \"href\" -%}\n" ++
  b!"        {%- elif inline.variant == \"xref\" -%}\n" ++
  b!"            {%- set ref = \"#\" ~ inline.target -%}\n" ++
  b!"            {%- set target_attr = \"href\" -%}\n" ++
  b!"        {%- elif inline.variant == \"image\" -%}\n" ++
  b!"            {%- set inline_tag = \"img\" -%}\n" ++
  b!"            {%- set ref = inline.target -%}\n" ++
  b!"            {%- set self_close = True -%}\n" ++
  b!"            {%- set target_attr = \"src\" -%}\n" ++
  b!"        {%- endif -%}\n" ++
  b!"        {%- set target = target_attr ~ '=\"' ~ ref ~ '\"' -%}\n" ++
  b!"    {%- endif -%}\n" ++
  b!"{%- if inline_tag -%}<{{inline_tag}}\n" ++
  b!"    {%- if inline.metadata.roles %} class=\"{{inline.metadata.roles | join(sep=\" \")}}\"\n" ++
  b!"    {%- endif -%}\n" ++
  b!"    {%- if data_type %} data-type=\"{{data_type}}\"\n" ++
  b!"    {%- endif -%}\n" ++
  b!"    {%- if target %} {{target}}\n" ++
  b!"    {%- endif -%}{%-if self_close%} /{%-endif-%}>\n" ++
  b!"{%- endif -%}\n" ++
  b!"    {%- if not self_close -%}\n" ++
  b!"        {#- Handle recursion -#}\n" ++
  b!"            {%- if inline.inlines -%}\n" ++
  b!"                {%- for child in inline.inlines -%}\n" ++
  b!"                    {{- self::process_inline(inline=child) -}}\n" ++
  b!"                {%- endfor -%}\n" ++
  b!"    {%- elif inline.variant -%}\n" ++
  b!"        {%- if inline.variant == \"xref\" or inline.variant == \"link\" -%}\n" ++
  b!"                {{ref}} {#- putting the ref in as text for now-#}\n" ++
  b!"            {%- endif -%}\n" ++
  b!"            {%- elif inline.value -%}\n" ++
  b!"                {{- inline.value -}}\n" ++
  b!"            {%- endif -%}\n" ++
  b!"    {%- if inline_tag -%}</{{inline_tag}}>{%- endif -%}\n" ++
  b!"    {%- endif -%}\n" ++
  b!"{%- endif -%}\n" ++
  b!"{%- endmacro process_inline -%}\n"

/-- `htmls.rs:30-38`, `gather_htmlbook_templates`, and `add_raw_templates` (`htmls.rs:24`): the templates with their names. -/
def gathered : Option Files := do
  let a ← readTemplate htmlbookText
  let b ← readTemplate blockText
  let c ← readTemplate leafblocksText
  let d ← readTemplate tablesText
  let e ← readTemplate inlineText
  return [(b!"htmlbook.html.tera", a), (b!"block.html.tera", b), (b!"leafblocks.html.tera", c), (b!"tables.html.tera", d),
    (b!"inline.html.tera", e)]

/-- `Context::from_serialize` (`htmls.rs:26`): the members of the JSON form of the graph as variables. -/
def context (ord : SMap Str → SMap Str) (g : Asg) : Env :=
  match Json.ofAsg ord g with
  | .obj ms => ms.map fun m => (m.1, .data m.2)
  | _ => []

/-- `htmls.rs:14-28`, `render_htmlbook` and `render_from_templates`. `fuel` bounds the depth of calls of macros. -/
def render (frac : Str → Int) (sees : Bool) (fuel : Nat) (ord : SMap Str → SMap Str) (g : Asg) : M Str :=
  match gathered with
  | some files => run frac files sees fuel b!"htmlbook.html.tera" (context ord g)
  | none => stop

end Adoc.Tera

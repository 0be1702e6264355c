"""Compare the Lean model with the expected graphs in /repo/tests/data (see lean/Verif/Tools/Validate.lean).

Mirrors the cases of tests/{block,inline,document,offset}_tests.rs. The Rust code is not run.
"""
import json, os, re, subprocess, sys, tempfile

DATA = "/repo/tests/data"
tmp = tempfile.mkdtemp()
jobs = []  # (name, origin, source, expected json)

def text(p):
    return open(os.path.join(DATA, p), encoding="utf-8", newline="").read()

def add_str(name, adoc, js):
    p = os.path.join(tmp, f"{len(jobs)}.adoc")
    open(p, "w", encoding="utf-8", newline="").write(adoc)
    jobs.append((name, p, p, json.loads(js)))

TEMPLATES = {
    "blocks/headings-sections", "blocks/delimited-block", "blocks/delimited-block-spaced",
    "blocks/admonition-inline", "inlines/span-single-word", "inlines/span-chars-between",
    "inlines/span-many-words", "inlines/span-across-newline",
}
for d in ["blocks", "inlines", "documents"]:
    for f in sorted(os.listdir(os.path.join(DATA, d))):
        stem = f"{d}/{f[:-5]}"
        if f.endswith(".adoc") and os.path.exists(os.path.join(DATA, stem + ".json")) and stem not in TEMPLATES:
            p = os.path.join(DATA, stem + ".adoc")
            jobs.append((stem, p, p, json.loads(text(stem + ".json"))))

for i, m in enumerate(["== ", "=== ", "==== ", "===== "]):
    add_str("headings " + m, text("blocks/headings-sections.adoc").replace("MARKUP", m),
            text("blocks/headings-sections.json").replace("91", str(len(m) + 1))
            .replace("92", str(len(m) + len("Section Title"))).replace("93", str(i + 1)))
for delim, name in [("****", "sidebar"), ("====", "example"), ("____", "quote"), ("--", "open")]:
    js = text("blocks/delimited-block.json").replace("sidebar", name).replace("****", delim)
    if name == "open":
        js = js.replace('5, "col": 4', '5, "col": 2')
    add_str("delimited " + name, text("blocks/delimited-block.adoc").replace("****", delim), js)
add_str("delimited spaced", text("blocks/delimited-block-spaced.adoc"), text("blocks/delimited-block-spaced.json"))
for a in ["NOTE", "TIP", "IMPORTANT", "CAUTION", "WARNING"]:
    s = len(a) + 3
    add_str("admonition " + a, text("blocks/admonition-inline.adoc").replace("NOTE", a),
            text("blocks/admonition-inline.json").replace("TEXT_START", str(s)).replace("TEXT_END", str(s + 9))
            .replace("DELIMITER", a + ": ").replace("ADMONITION", a.lower()))
for c, v in [("_", "emphasis"), ("*", "strong"), ("`", "code"), ("#", "mark")]:
    for t in ["span-single-word", "span-chars-between", "span-many-words", "span-across-newline"]:
        add_str(f"{t} {v}", text(f"inlines/{t}.adoc").replace("0", c),
                text(f"inlines/{t}.json").replace("VARIANT", v))
    for adoc in [c + "cat", "cat" + c]:
        add_str("dangling " + adoc, adoc, text("inlines/span-dangling.json").replace("TEXT", adoc))

inp = "".join(f"{o}\t{s}\n" for _, o, s, _ in jobs)
r = subprocess.run(["lake", "env", "lean", "--run", "Verif/Tools/Validate.lean", DATA], input=inp, text=True,
                   capture_output=True, cwd=os.path.join(os.path.dirname(os.path.abspath(__file__)), "../lean"))
if r.returncode:
    sys.exit(r.stdout[-2000:] + r.stderr[-4000:])
lines = r.stdout.rstrip("\n").split("\n")
assert len(lines) == len(jobs), (len(lines), len(jobs))

def diff(a, b, path=""):
    if type(a) != type(b):
        return f"{path}: model {json.dumps(a)[:200]} / expected {json.dumps(b)[:200]}"
    if isinstance(a, dict):
        for k in sorted(set(a) | set(b)):
            if k not in a or k not in b:
                return f"{path}.{k}: only in {'model' if k in a else 'expected'}"
            d = diff(a[k], b[k], f"{path}.{k}")
            if d:
                return d
    elif isinstance(a, list):
        for i, (x, y) in enumerate(zip(a, b)):
            d = diff(x, y, f"{path}[{i}]")
            if d:
                return d
        if len(a) != len(b):
            return f"{path}: length {len(a)} / {len(b)}"
    elif a != b:
        return f"{path}: model {a!r} / expected {b!r}"

bad = 0
for (name, _, _, exp), line in zip(jobs, lines):
    got = json.loads(line)
    d = f"{got['fail']}" if "fail" in got else diff(got, exp)
    if d:
        bad += 1
        print("DIFF", name, d)
print(f"{len(jobs) - bad} of {len(jobs)} cases agree")

# tests/htmlbook_tests.rs: the HTML output, without white space, by the translation of the templates and by running them
pages = [os.path.join(DATA, "htmlbook", f[:-5]) for f in sorted(os.listdir(os.path.join(DATA, "htmlbook")))
         if f.endswith(".html")]
for mode in ["html", "tera"]:
    r = subprocess.run(["lake", "env", "lean", "--run", "Verif/Tools/Validate.lean", DATA, mode],
                       input="".join(f"{p}.adoc\t{p}.adoc\n" for p in pages), text=True,
                       capture_output=True, cwd=os.path.join(os.path.dirname(os.path.abspath(__file__)), "../lean"))
    if r.returncode:
        sys.exit(r.stdout[-2000:] + r.stderr[-4000:])
    lines = r.stdout.rstrip("\n").split("\n")
    assert len(lines) == len(pages), (len(lines), len(pages))
    bad = 0
    for p, line in zip(pages, lines):
        got = json.loads(line)
        if isinstance(got, str):
            got = "".join(got.split())
        exp = "".join(open(p + ".html", encoding="utf-8").read().split())
        if got != exp:
            bad += 1
            i = next((i for i, (a, b) in enumerate(zip(got, exp)) if a != b), 0) if isinstance(got, str) else 0
            print("DIFF", p, "model", got[max(0, i - 40):i + 80] if isinstance(got, str) else got, "expected", exp[max(0, i - 40):i + 80])
    print(f"{len(pages) - bad} of {len(pages)} pages agree ({mode})")

# templates/htmlbook: the texts in lean/Verif/Model/Templates.lean, byte by byte
src = open(os.path.join(os.path.dirname(os.path.abspath(__file__)), "../lean/Verif/Model/Templates.lean"), encoding="utf-8").read()
bad = 0
names = ["htmlbook", "block", "leafblocks", "tables", "inline"]
for n in names:
    body = re.search(r"def " + n + r"Text : Str :=\n(.*?)\n\n", src, re.S).group(1)
    got = "".join(json.loads(x) for x in re.findall(r'b!("(?:[^"\\]|\\.)*")', body))
    if got != open(f"/repo/templates/htmlbook/{n}.html.tera", encoding="utf-8", newline="").read():
        bad += 1
        print("DIFF template", n)
print(f"{len(names) - bad} of {len(names)} templates agree")

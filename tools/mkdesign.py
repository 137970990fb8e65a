#!/usr/bin/env python3
"""Write DESIGN.md from tools/design_head.md, properties.jsonl, tools/plan.json, MANIFEST.json and
tools/axioms.json."""
import glob, json, os, re
root = os.path.dirname(os.path.dirname(os.path.abspath(__file__)))
props = [json.loads(l) for l in open(f"{root}/properties.jsonl")]
plan = json.load(open(f"{root}/tools/plan.json"))
claims = {c["property"]: c for c in json.load(open(f"{root}/MANIFEST.json"))["claims"]}
axioms = json.load(open(f"{root}/tools/axioms.json"))
out = [open(f"{root}/tools/design_head.md").read().rstrip() + "\n"]

def docs(f):
    """(name, doc comment) of each definition of a model file."""
    lines = open(f).read().split("\n")
    for i, l in enumerate(lines):
        m = re.match(r"(?:@\[.*?\] )?(def|abbrev|structure|inductive)\s+([\w.']+)", l)
        if not m:
            continue
        j = i - 1
        while lines[j].startswith("@["):
            j -= 1
        if not lines[j].rstrip().endswith("-/"):
            continue
        k = j
        while not lines[k].lstrip().startswith("/-"):
            k -= 1
        yield m.group(2), " ".join(lines[k:j + 1]).replace("/--", "").replace("-/", "").strip()

out.append("## Modelled code\n\nWhich definition of the model stands for which lines of /repo, from the comments of the\n"
           "definitions, which also say where one is simplified.\n")
for f in sorted(glob.glob(f"{root}/lean/Verif/Model/*.lean")):
    by = {}
    for n, d in docs(f):
        for p, ls in re.findall(r"(src/[\w/]+\.rs):(\d+(?:-\d+)?(?:, \d+(?:-\d+)?)*)", d):
            by.setdefault(p, []).append(f"`{n}` ({ls})")
    out.append(f"`{os.path.relpath(f, root + '/lean')}`\n")
    for p in sorted(by):
        out.append(f"* {p}: " + ", ".join(dict.fromkeys(by[p])))
    out.append("")
out.append("## Properties\n")
for p in props:
    i = p["id"]
    out.append(f"### {i} {p['title']}\n\n{p['statement']}\n")
    if i in plan:
        out.append(f"Model and proof: {plan[i]}\n")
    c = claims.get(i)
    if c:
        out.append(f"Result ({c['status']}): {c['note'] or 'proved in full.'}\n")
        out.append("Theorems: " + ", ".join(f"`{t.split('.', 1)[1]}`" for t in c["theorems"]) + ".\n")
    else:
        out.append("Result: not yet proved.\n")
out.append("## Axioms per theorem\n\nAs printed by `#print axioms` (tools/axioms.py). No other axioms occur.\n")
groups = {}
for t, a in axioms.items():
    groups.setdefault(tuple(a), []).append(t.split(".", 1)[1])
for a in sorted(groups):
    out.append(f"* {', '.join(a) or 'none'}: " + ", ".join(f"`{t}`" for t in groups[a]))
open(f"{root}/DESIGN.md", "w").write("\n".join(out) + "\n")
missing = [t for c in claims.values() for t in c["theorems"] if t not in axioms]
print("DESIGN.md written; theorems without axiom entry:", missing[:5])

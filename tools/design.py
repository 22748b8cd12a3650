"""Rewrite section 4 of DESIGN.md (between the markers) from tools/notes.json and the theorem names in MANIFEST.json."""
import json, os, re
root = os.path.dirname(os.path.dirname(os.path.abspath(__file__)))
man = {c["property"]: c for c in json.load(open(os.path.join(root, "MANIFEST.json")))["claims"]}
props = {}
for l in open(os.path.join(root, "properties.jsonl")):
    d = json.loads(l); props[d["id"]] = d
lines = []
for i, c in man.items():
    fails = [t.split(".")[-1] for t in c["theorems"] if "_fails" in t]
    if not fails and c["status"] == "proved": continue
    lines.append(f"* **{i}** ({c['status']}) {props[i]['title']}. {c['note']}" + (f" Theorems: {', '.join('`%s`' % t for t in fails)}." if fails else ""))
p = os.path.join(root, "DESIGN.md")
s = open(p).read()
s = re.sub(r"(<!-- disagreements -->\n).*?(<!-- end -->)", lambda m: m.group(1) + "\n".join(lines) + "\n" + m.group(2), s, flags=re.S)
open(p, "w").write(s)

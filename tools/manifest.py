"""Regenerate MANIFEST.json: collect theorems named C<nn>_* from lean/Verif/Props and attach status/notes."""
import glob, json, os, re, collections
root = os.path.dirname(os.path.dirname(os.path.abspath(__file__)))
notes = json.load(open(os.path.join(root, "tools", "notes.json")))
thms = collections.defaultdict(list)
for f in sorted(glob.glob(os.path.join(root, "lean/Verif/Props/*.lean"))):
    ns = []
    for line in open(f):
        m = re.match(r"^namespace\s+(\S+)", line)
        if m: ns.append(m.group(1))
        m = re.match(r"^end\s+(\S+)", line)
        if m and ns and ns[-1] == m.group(1): ns.pop()
        m = re.match(r"^theorem\s+((C\d\d+)_\w*)", line)
        if m: thms[m.group(2)].append(".".join(ns + [m.group(1)]))
        m2 = re.match(r"^theorem\s+C(\d\d+)_C(\d\d+)_", line)
        if m2: thms["C" + m2.group(2)].append(".".join(ns + [re.match(r"^theorem\s+(\S+)", line).group(1)]))
props = [json.loads(l) for l in open(os.path.join(root, "properties.jsonl"))]
claims = []
for p in props:
    i = p["id"]
    n = notes.get(i, {})
    t = thms.get(i, [])
    status = n.get("status") or ("proved" if t else None)
    if status is None:
        continue
    claims.append({"property": i, "status": status, "theorems": t, "note": n.get("note", "")})
json.dump({"claims": claims}, open(os.path.join(root, "MANIFEST.json"), "w"), indent=1)
print(len(claims), "claims", sum(len(c["theorems"]) for c in claims), "theorems;", "missing:", [p["id"] for p in props if p["id"] not in {c["property"] for c in claims}])

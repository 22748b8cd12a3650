"""Print the axioms of every theorem in MANIFEST.json into AXIOMS.txt (run after `lake build`)."""
import json, os, re, subprocess, tempfile
root = os.path.dirname(os.path.dirname(os.path.abspath(__file__)))
names = sorted({t for c in json.load(open(os.path.join(root, "MANIFEST.json")))["claims"] for t in c["theorems"]})
src = "import Verif\n" + "".join(f"#print axioms {n}\n" for n in names)
with tempfile.NamedTemporaryFile("w", suffix=".lean", delete=False) as f:
    f.write(src)
out = subprocess.run(["lake", "env", "lean", f.name], cwd=os.path.join(root, "lean"), capture_output=True, text=True).stdout
out = re.sub(r"\n\s+", " ", out)
open(os.path.join(root, "AXIOMS.txt"), "w").write("".join(sorted(l + "\n" for l in out.splitlines() if l.strip())))
allowed = {"propext", "Classical.choice", "Quot.sound"}
bad = [l for l in out.splitlines() if "depends on axioms" in l and not set(re.search(r"\[(.*)\]", l).group(1).split(", ")) <= allowed]
print(len(names), "theorems;", "outside the three standard axioms:", bad or "none")

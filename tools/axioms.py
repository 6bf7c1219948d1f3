"""Write AXIOMS.txt: the axioms of every theorem of MANIFEST.json (run after `lake build`)."""
import json
import pathlib
import re
import subprocess
import tempfile

root = pathlib.Path(__file__).resolve().parent.parent
names = [t for c in json.loads((root / "MANIFEST.json").read_text())["claims"] for t in c["theorems"]]
src = "import Verif\n" + "".join(f"#print axioms {n}\n" for n in names)
with tempfile.NamedTemporaryFile("w", suffix=".lean", delete=False) as f:
    f.write(src)
out = subprocess.run(["lake", "env", "lean", f.name], cwd=root / "lean", capture_output=True, text=True).stdout
out = re.sub(r"\n\s+", " ", out)
lines = [l for l in out.split("\n") if l.startswith("'")]
assert len(lines) == len(names), (len(lines), len(names))
(root / "AXIOMS.txt").write_text("\n".join(lines) + "\n")
allowed = {"propext", "Classical.choice", "Quot.sound"}
for l in lines:
    m = re.search(r"\[(.*)\]", l)
    if m and not set(m.group(1).split(", ")) <= allowed:
        print("unexpected:", l)
print(len(lines), "theorems")

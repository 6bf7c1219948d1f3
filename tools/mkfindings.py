"""Write FINDINGS.md: the doc comment of every theorem named *_violated."""
import pathlib
import re

root = pathlib.Path(__file__).resolve().parent.parent
lean = root / "lean" / "Verif"
pat = re.compile(r"/--((?:(?!-/).)*?)-/\s*(?:open Classical in\s*)?theorem (C\d+_\w*violated\w*)", re.S)
entries = []
names = set()
for path in sorted(lean.glob("*/*.lean")):
    text = path.read_text()
    names |= set(re.findall(r"theorem (C\d+_\w*violated\w*)", text))
    for doc, name in pat.findall(text):
        doc = " ".join(doc.split())
        entries.append((name, path.relative_to(root), doc))
missing = names - {e[0] for e in entries}
if missing:
    print("no doc comment:", sorted(missing))
entries.sort()
out = [
    "# Findings",
    "",
    "Statements a user would expect, which are false of the code as it is. Each one is the negation",
    "of the natural property, proved with a concrete witness; the strongest version found to be true",
    "is proved beside it. This file is generated by `tools/mkfindings.py` from the comments of the",
    "theorems.",
    "",
]
for name, path, doc in entries:
    out.append(f"* `{name}` (`{path}`): {doc}")
(root / "FINDINGS.md").write_text("\n".join(out) + "\n")
print(len(entries), "findings")

"""Print which files of /repo are cited by which topic."""
import collections
import pathlib
import re

root = pathlib.Path(__file__).resolve().parent.parent
repo = pathlib.Path("/repo")
files = [
    p.relative_to(repo).as_posix()
    for d in ("fluidsim", "lib")
    for p in (repo / d).rglob("*.py")
    if "/test" not in p.as_posix()
]
cited = collections.defaultdict(set)
for path in (root / "lean" / "Verif").glob("*/*.lean"):
    for name in set(re.findall(r"[\w/]*\w+\.py", path.read_text())):
        cand = [f for f in files if f == name or f.endswith("/" + name)]
        if len(cand) == 1:
            cited[cand[0]].add(path.parent.name)
for f in sorted(files):
    print(f, ":", ", ".join(sorted(cited[f])) or "-")

"""Function-level coverage: functions of /repo whose lines are cited by no definition of the model."""
import ast, pathlib, re, sys
root = pathlib.Path('/repo')
files = {}
for base in ('fluidsim', 'lib/fluidsim_core'):
    for p in (root / base).rglob('*.py'):
        rel = str(p.relative_to(root))
        if '/test' in rel or 'test_' in p.name or '_old_' in p.name: continue
        files[rel] = set()
cite = re.compile(r'([\w./]+\.py)((?:[\s,(]|and|lines?)*\d[\d\s,and\-–]*)')
for m in pathlib.Path('/verif/lean/Verif').rglob('*.lean'):
    t = re.sub(r'\s+', ' ', m.read_text())
    for name, nums in cite.findall(t):
        name = name.lstrip('./')
        name = name.replace('repo/', '')
        c = [f for f in files if f == name or f.endswith('/' + name)]
        for a, b in re.findall(r'(\d+)(?:\s*[-–]\s*(\d+))?', nums):
            a = int(a); b = int(b) if b else a
            if b < a: continue
            for f in c: files[f].update(range(a, b + 1))
tot = cov = 0
out = []
for f, lines in sorted(files.items()):
    tree = ast.parse((root / f).read_text())
    for n in ast.walk(tree):
        if isinstance(n, (ast.FunctionDef,)):
            body = n.body
            if body and isinstance(body[0], ast.Expr) and isinstance(body[0].value, ast.Constant): body = body[1:]
            if not body: continue
            s = set(range(body[0].lineno, n.end_lineno + 1))
            tot += len(s); hit = len(s & lines); cov += hit
            if hit / len(s) < 0.3: out.append((len(s) - hit, f, n.name, n.lineno, n.end_lineno))
print(f'{cov}/{tot} lines of function bodies cited')
for x in sorted(out, reverse=True)[:int(sys.argv[1]) if len(sys.argv) > 1 else 120]: print(*x)

#!/usr/bin/env python3
"""Writes DESIGN.md: hand-written parts, and tables generated from properties.jsonl, MANIFEST.json, the citations in the Lean files and
tools/axioms.txt (made by tools/axioms.sh from the compiled project)."""
import json, re, glob, ast, os, collections
V = '/verif'
L = V + '/lean/Verif'
props = [json.loads(l) for l in open(V + '/properties.jsonl')]
man = {c['property']: c for c in json.load(open(V + '/MANIFEST.json'))['claims']}
exec(open(V + '/tools/plan.py').read())          # PLAN: id -> (what is modelled, how it is proved)

where = {}
for f in glob.glob(L + '/Props/*.lean'):
    for t in re.findall(r'^theorem\s+(C\d\d+\w*)', open(f).read(), re.M):
        where[t] = os.path.basename(f)[:-5]
deps = {}
for f in glob.glob(L + '/Props/*.lean'):
    deps[os.path.basename(f)[:-5]] = re.findall(r'^import Verif\.((?:Model|Spec)\.\w+)', open(f).read(), re.M)

cites = {}
for f in glob.glob(L + '/Model/*.lean') + glob.glob(L + '/Spec/*.lean'):
    cur = None
    for m in re.finditer(r'([a-zA-Z_0-9]+\.py)|(?<![\w.])(\d{1,4})(?:-(\d{1,4}))?(?![\w.])', open(f).read()):
        if m.group(1): cur = m.group(1)
        elif cur:
            a = int(m.group(2)); b = int(m.group(3) or a)
            if b >= a and b - a < 600: cites.setdefault(cur, []).append((a, b))

out = [open(V + '/tools/design_head.md').read()]
out.append('\n## Properties: what is modelled and how it is proved\n\n| id | property | modelled | proof | modules |\n|---|---|---|---|---|\n')
for p in props:
    i = p['id']
    files = sorted({where[t.split('.')[-1]] for t in man.get(i, {}).get('theorems', []) if t.split('.')[-1] in where})
    what, how = PLAN.get(i, ('', ''))
    out.append(f"| {i} | {p['title']} | {what} | {how} | {', '.join('Props.' + f for f in files)} |\n")
out.append('\nThe note of each claim in MANIFEST.json says what is assumed and what is left out.\n')

out.append('\n## Functions of the code and whether the model covers them\n\nGenerated from the citations in the model: a function counts as modelled when at least half of its lines are cited. '
           'Functions of fewer than four lines are left out.\n\n| file | modelled | not modelled |\n|---|---|---|\n')
for path in sorted(glob.glob('/repo/spicelib/**/*.py', recursive=True)):
    name = os.path.basename(path)
    if 'test' in path or 'examples' in path: continue
    c = cites.get(name, [])
    yes, no = [], []
    for n in ast.walk(ast.parse(open(path).read())):
        if isinstance(n, ast.FunctionDef):
            b = n.body; s = b[0].lineno
            if isinstance(b[0], ast.Expr) and isinstance(b[0].value, ast.Constant): s = b[1].lineno if len(b) > 1 else b[0].end_lineno
            e = n.end_lineno; k = e - s + 1
            if k < 4: continue
            cov = sum(1 for l in range(s, e + 1) if any(a <= l <= b for a, b in c))
            (yes if cov * 2 >= k else no).append(n.name)
    if yes or no:
        out.append(f"| {path[len('/repo/spicelib/'):]} | {', '.join(yes)} | {', '.join(no)} |\n")

if os.path.exists(V + '/tools/axioms.txt'):
    g = collections.defaultdict(list)
    for l in open(V + '/tools/axioms.txt'):
        t, _, a = l.strip().partition(' : ')
        g[a or 'none'].append(t)
    out.append('\n## Axioms of every theorem\n\nCollected from the compiled project (tools/axioms.sh); no theorem depends on any other axiom.\n\n')
    for a, ts in sorted(g.items(), key=lambda x: len(x[1])):
        out.append(f"* **{a}** ({len(ts)} theorems): {', '.join(sorted(ts))}\n")
open(V + '/DESIGN.md', 'w').write(''.join(out))

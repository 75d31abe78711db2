#!/usr/bin/env python3
"""Regenerates AXIOMS.md and COVERAGE.md.  Run from anywhere after `lake build` in lean/."""
import collections, json, os, re, subprocess, tempfile
ROOT = os.path.dirname(os.path.dirname(os.path.abspath(__file__)))
LEAN = os.path.join(ROOT, 'lean')

def axioms():
    claims = json.load(open(os.path.join(ROOT, 'MANIFEST.json')))['claims']
    names = [t for c in claims for t in c['theorems']]
    with tempfile.NamedTemporaryFile('w', suffix='.lean', delete=False) as f:
        f.write('import Verif\n' + ''.join(f'#print axioms {n}\n' for n in names))
    out = subprocess.run(['lake', 'env', 'lean', f.name], cwd=LEAN, capture_output=True, text=True).stdout
    out = re.sub(r'\n\s+', ' ', out)
    ax = {}
    for m in re.finditer(r"'([^']+)' (?:depends on axioms: \[([^\]]*)\]|does not depend on any axioms)", out):
        ax[m.group(1)] = m.group(2) or 'none'
    L = ['# Axioms each theorem of the manifest depends on', '',
         'Output of `#print axioms`, one line per theorem (made by tools/tables.py).', '',
         '| property | theorem | axioms |', '|---|---|---|']
    for c in claims:
        for t in c['theorems']:
            L.append(f"| {c['property']} | `{t}` | {ax[t]} |")
    open(os.path.join(ROOT, 'AXIOMS.md'), 'w').write('\n'.join(L) + '\n')

def coverage():
    rows = collections.defaultdict(list)
    for f in sorted(os.listdir(os.path.join(LEAN, 'Verif/Model'))):
        s = open(os.path.join(LEAN, 'Verif/Model', f)).read()
        head = re.search(r'/-(?!-)(.*?)-/', s, re.S)
        srcs = re.findall(r'[\w./-]+\.(?:cpp|hpp|h\.in|h)\b', head.group(1)) if head else []
        for m in re.finditer(r'/--(.*?)-/\s*(?:@\[[^\]]*\]\s*)?(?:private |partial |noncomputable )?(?:mutual\s+)?(def|structure|inductive|abbrev)\s+(\S+)', s, re.S):
            doc, _, name = m.groups()
            if len(doc) > 3000: continue
            for c in re.finditer(r'([\w.-]+\.(?:cpp|hpp|h\.in|h)):\s*(\d[\d,\s-]*\d|\d+)', doc):
                rows[c.group(1)].append((int(re.match(r'\d+', c.group(2)).group()), re.sub(r'\s+', ' ', c.group(2)).rstrip(', '), f, name))
    L = ['# Code that is modelled', '',
         'Source lines (in /repo) cited by the definitions of lean/Verif/Model (made by tools/tables.py).',
         'Code that is not listed is not modelled; see "Trusted base" in DESIGN.md for what that means.', '']
    for src in sorted(rows):
        L += [f'## {src}', '', '| lines | Lean definition | file |', '|---|---|---|']
        seen = set()
        for _, lines, f, name in sorted(rows[src]):
            if (lines, name) in seen: continue
            seen.add((lines, name))
            L.append(f'| {lines} | `{name}` | Model/{f} |')
        L.append('')
    open(os.path.join(ROOT, 'COVERAGE.md'), 'w').write('\n'.join(L))

axioms()
coverage()

"""Write /verif/AXIOMS.md: the axioms each theorem in MANIFEST.json depends on. Run from /verif after `lake build`."""
import json, os, re, subprocess, tempfile
root = os.path.join(os.path.dirname(os.path.abspath(__file__)), '..')
names = [t for c in json.load(open(os.path.join(root, 'MANIFEST.json')))['claims'] for t in c['theorems']]
src = 'import Verif\n' + ''.join(f'#print axioms {t if t.startswith("Verif") else "Verif.Props." + t}\n' for t in names)
with tempfile.NamedTemporaryFile('w', suffix='.lean', delete=False) as f: f.write(src)
out = subprocess.run(['lake', 'env', 'lean', f.name], cwd=os.path.join(root, 'lean'), capture_output=True, text=True).stdout
out = re.sub(r'\n\s+', ' ', out)
groups = {}
for line in out.splitlines():
    m = re.match(r"'([^']+)' (?:depends on axioms: \[(.*)\]|does not depend on any axioms)", line)
    if m: groups.setdefault(m.group(2) or 'none', []).append(m.group(1).removeprefix('Verif.Props.'))
    else: print('?', line)
with open(os.path.join(root, 'AXIOMS.md'), 'w') as f:
    f.write('# Axioms each theorem depends on\n\nGenerated by tools/axioms.py from `#print axioms`.\n')
    for k, v in sorted(groups.items()):
        f.write(f'\n## {k} ({len(v)} theorems)\n\n' + ''.join(f'* {t}\n' for t in sorted(v)))
print({k: len(v) for k, v in groups.items()}, len(names))

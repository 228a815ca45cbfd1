"""Register a property: python3 tools/add.py < spec, a Python literal dict with id,title,statement,quantifier,why,anchors,row,modules,modrow,finding,status,note."""
import sys, subprocess
d = eval(sys.stdin.read())
g = open('tools/gen_properties.py').read()
i = g.index("out = os.path.join(os.path")
an = "[" + ", ".join(d['anchors']) + "]"
line = 'p(%r, %r,\n  %r,\n  %r, %s, %s)\n' % (d['id'], d['title'], d['statement'], d['quantifier'], d['why'], an)
open('tools/gen_properties.py', 'w').write(g[:i] + line + g[i:])
v = open('lean/Verif.lean').read()
for m in d['modules']:
    if 'import ' + m + '\n' not in v: v += 'import ' + m + '\n'
open('lean/Verif.lean', 'w').write(v)
D = open('DESIGN.md').read().split('\n')
k = max(i for i, l in enumerate(D) if l.startswith('| C'))
D.insert(k + 1, '| %s | %s |' % (d['id'], d['row']))
if d.get('modrow'):
    k = max(i for i, l in enumerate(D) if l.startswith('| `Model/'))
    D.insert(k + 1, d['modrow'])
if d.get('finding'):
    k = [i for i, l in enumerate(D) if l.startswith('## 7. Wrong programs')][0]
    while D[k - 1].strip() == '': k -= 1
    D[k:k] = ['* **%s** %s' % (d['id'], d['finding'])]
open('DESIGN.md', 'w').write('\n'.join(D))
subprocess.check_call(['python3', 'tools/note.py', d['id'], d['status'], d['note']])
subprocess.check_call(['python3', 'tools/gen_properties.py'])
subprocess.check_call(['python3', 'tools/gen_manifest.py'])

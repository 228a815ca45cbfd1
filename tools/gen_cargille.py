#!/usr/bin/env python3
"""Generate lean/Verif/Model/CargilleData.lean from the coefficient tables in
/repo/structcol/refractive_index.py (parsed as text with ast; nothing is imported or run)."""
import ast, os
from decimal import Decimal
src = open('/repo/structcol/refractive_index.py').read()
lines = src.split('\n')
tree = ast.parse(src)
fn = [f for f in tree.body if isinstance(f, ast.FunctionDef) and f.name == 'n_cargille'][0]
tabs = {}
for st in fn.body:
    if isinstance(st, ast.Assign) and isinstance(st.targets[0], ast.Subscript):
        name = st.targets[0].value.id
        series = st.targets[0].slice.value
        v = st.value
        scale = None
        if isinstance(v, ast.BinOp):
            scale = ast.unparse(v.right); v = v.left
        elts = v.args[0].elts
        vals = [Decimal(ast.get_source_segment(src, e).replace(' ', '')) for e in elts]
        tabs[(name, series)] = (vals, scale, st.lineno, st.end_lineno)
out = ['''/-!
# Cargille oil coefficients

GENERATED by tools/gen_cargille.py from the tables in /repo/structcol/refractive_index.py:263-418.
Every table is a list of integers: `c` in units of 10^-7, `d` in units of 10^-1 (to be multiplied by 10^-8 as in the
source), `e` in units of 1 (to be multiplied by 10^-16 as in the source).
-/

namespace Verif.Index
''']
unit = {'cs': 7, 'ds': 1, 'es': 0}
for (name, series), (vals, scale, a, b) in tabs.items():
    ints = []
    for v in vals:
        x = v.scaleb(unit[name])
        assert x == x.to_integral_value(), (name, series, v)
        ints.append(int(x))
    out.append(f"/-- `{name}['{series}']`, scale in the source: {scale}. /repo/structcol/refractive_index.py:{a}-{b} -/")
    out.append(f"def {name[0]}Tab{series.capitalize() if series=='acrylic' else series} : List ℤ :=")
    row = "  ["
    for k, x in enumerate(ints):
        t = str(x) + (", " if k + 1 < len(ints) else "]")
        if len(row) + len(t) > 118:
            out.append(row.rstrip()); row = "   "
        row += t
    out.append(row); out.append('')
out.append('end Verif.Index')
s = '\n'.join(out) + '\n'
s = 'import Mathlib.Data.Int.Notation\n\n' + s
open(os.path.join(os.path.dirname(__file__), '..', 'lean/Verif/Model/CargilleData.lean'), 'w').write(s)
for k, v in tabs.items(): print(k, len(v[0]), v[1], v[2], v[3])

"""Writes lean/Verif/Mat/Tables.lean from the tables of spins/material/material.py (read as text)."""
import ast
import re
import sys

SRC = sys.argv[1] if len(sys.argv) > 1 else "/repo/spins/material/material.py"
OUT = sys.argv[2] if len(sys.argv) > 2 else "/verif/lean/Verif/Mat/Tables.lean"
text = open(SRC).read()
lines = text.split("\n")
tree = ast.parse(text)


def literals(node):
    """The numbers as they are written in the source."""
    return [ast.get_source_segment(text, e) for e in node.elts]


def number(s):
    """Mantissa and (not positive) decimal exponent."""
    m = re.fullmatch(r"(\d+)(?:\.(\d*))?(?:e(-?\d+))?", s)
    assert m, s
    exp = int(m.group(3) or 0) - len(m.group(2) or "")
    num = int(m.group(1) + (m.group(2) or ""))
    return (num, exp) if exp <= 0 else (num * 10**exp, 0)


tables = []
for c in tree.body:
    if not isinstance(c, ast.ClassDef):
        continue
    for s in ast.walk(c):
        if isinstance(s, ast.Assign) and isinstance(s.value, ast.List) and isinstance(s.targets[0], ast.Name):
            name = {"SiO2": "sio2", "Si": "si", "Si3N4": "sin"}[c.name] + s.targets[0].id[0].upper() + s.targets[0].id[1:]
            tables.append((name, c.name, s.targets[0].id, s.lineno, s.end_lineno, [number(x) for x in literals(s.value)]))
# The columns of one of the csv files of the package.
CSV = "/repo/spins/material/csv_files/Si_Aspnes.csv"
rows = [r.strip().split(",") for r in open(CSV) if r.strip()]
for j, col in enumerate(rows[0]):
    tables.append(("aspnes" + col[0].upper() + col[1:], "Si_Aspnes.csv", col, 2, len(rows), [number(r[j]) for r in rows[1:]]))


def cite(cls, a, b):
    if cls.endswith(".csv"):
        return "(`spins/material/csv_files/%s` %d-%d)" % (cls, a, b)
    return "of `%s` (`material.py` %d-%d)" % (cls, a, b)


with open(OUT, "w") as f:
    f.write("import Mathlib.Data.Rat.Defs\n")
    f.write("/-\nThe tables of `spins/material/material.py`, and of one of its csv files, copied number by number by\n"
            "`tools/material_tables.py`. The numbers of a table are written in units of a power of ten, so that they are whole.\n-/\n")
    f.write("namespace Verif.Mat\n\n")
    f.write("set_option maxRecDepth 10000\n\n")
    for name, cls, var, a, b, vals in sorted(tables, key=lambda t: (t[1].endswith(".csv"), t[3])):
        scale = -min(e for _, e in vals)
        ints = [m * 10**(scale + e) for m, e in vals]
        f.write("/-- `%s` %s, in units of `10^-%d`. -/\n" % (var, cite(cls, a, b), scale))
        f.write("def %sInt : List Nat := [\n" % name)
        line = "  "
        for i, v in enumerate(ints):
            w = str(v) + (", " if i + 1 < len(ints) else "")
            if len(line) + len(w) > 110:
                f.write(line.rstrip() + "\n")
                line = "  "
            line += w
        f.write(line + "]\n\n")
        f.write("/-- `%s` %s. -/\n" % (var, cite(cls, a, b)))
        f.write("def %s : List Rat := %sInt.map fun (i : Nat) => (i : Rat) / 10 ^ %d\n\n" % (name, name, scale))
    f.write("end Verif.Mat\n")

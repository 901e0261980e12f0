"""Check that the lines of /repo cited in the model's comments are those of the functions they name.

usage: citations.py [REPO]

For every `file.py:a-b` in lean/Verif/Model, followed in the same comment by function names in backticks, prints the citations that lie
outside the file, or that do not overlap any definition of the first such name.
"""
import ast
import glob
import os
import re
import sys

repo = sys.argv[1] if len(sys.argv) > 1 else "/repo"
here = os.path.join(os.path.dirname(os.path.abspath(__file__)), "..", "lean", "Verif")
spans, lengths = {}, {}
for path in glob.glob(repo + "/paragami/*.py"):
    src = open(path).read()
    f = os.path.basename(path)
    lengths[f] = src.count("\n") + 1
    for node in ast.walk(ast.parse(src)):
        if isinstance(node, (ast.FunctionDef, ast.ClassDef)):
            start = min([node.lineno] + [d.lineno for d in node.decorator_list])
            spans.setdefault((f, node.name), []).append((start, node.end_lineno))
n = 0
for path in sorted(glob.glob(here + "/Model/*.lean")):
    text = open(path).read()
    for c in re.finditer(r"/-.*?-/", text, re.S):
        com = c.group(0)
        cites = list(re.finditer(r"(\w+\.py):(\d+)(?:-(\d+))?((?:, ?\d+(?:-\d+)?)*)", com))
        for k, m in enumerate(cites):
            end = cites[k + 1].start() if k + 1 < len(cites) else len(com)
            f = m.group(1)
            line = text[:c.start() + m.start()].count("\n") + 1
            rs = [(int(m.group(2)), int(m.group(3) or m.group(2)))]
            for x in re.findall(r"(\d+)(?:-(\d+))?", m.group(4)):
                rs.append((int(x[0]), int(x[1] or x[0])))
            n += 1
            if f not in lengths:
                print("%s:%d: no file %s" % (os.path.basename(path), line, f))
                continue
            bad = [r for r in rs if r[1] > lengths[f] or r[0] > r[1]]
            names = [x.split(".")[-1].split("(")[0] for x in re.findall(r"`([\w.]+)(?:\(.*?\))?`", com[m.end():end])]
            names = [x for x in names if (f, x) in spans]
            tag = "%s:%d: %s" % (os.path.basename(path), line, m.group(0))
            if bad:
                print(tag, "outside the file")
            elif names:
                sp = spans[(f, names[0])]
                for r in rs[:1]:
                    if not any(a - 1 <= r[0] <= b and r[1] <= b + 1 for a, b in sp):
                        print(tag, names[0], "is at", sp)
            else:
                inside = [k[1] for k, v in spans.items() if k[0] == f and any(a <= rs[0][0] and rs[0][1] <= b for a, b in v)]
                if not inside and "-v" in sys.argv:
                    print(tag, "names nothing and is in no function")
print(n, "citations")

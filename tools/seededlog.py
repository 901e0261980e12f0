"""Write seeded/LOG.jsonl from seeded/mutants.json and the results of tools/mutate.py.

usage: seededlog.py RESULTS.jsonl DEPS.tsv

One line per wrong program: the definition edited, the edit, the claim it breaks, the declarations whose proof failed, the property
theorems that depend on one of those (so they are no longer proved), and the theorems added or tightened because of it
(seeded/tightened.json).  DEPS.tsv is what tools/Deps.lean.txt prints.
"""
import json
import os
import re
import sys

root = os.path.join(os.path.dirname(os.path.abspath(__file__)), "..", "seeded")
muts = {m["id"]: m for m in json.load(open(os.path.join(root, "mutants.json")))}
tight = json.load(open(os.path.join(root, "tightened.json")))
users = {}
for line in open(sys.argv[2]):
    thm, const, mod = line.rstrip("\n").split("\t")
    users.setdefault((mod.replace("Verif.", "").replace(".", "/"), const.split(".")[-1]), set()).add(thm)
# a theorem of a mutual block stands for all of them: only one may be named by the theorems that use the block
lean = os.path.join(root, "..", "lean", "Verif")
for d in ("Proofs", "Props"):
    for f in sorted(os.listdir(os.path.join(lean, d))):
        mod = d + "/" + f[:-5]
        for block in re.findall(r"^mutual\n(.*?)^end\n", open(os.path.join(lean, d, f)).read(), re.S | re.M):
            names = [n.split(".")[-1] for n in re.findall(r"^(?:private )?theorem (\S+)", block, re.M)]
            together = set().union(*[users.get((mod, n), set()) for n in names])
            for n in names:
                users[(mod, n)] = together
out = []
for line in open(sys.argv[1]):
    r = json.loads(line)
    m = muts.get(r["id"])
    if m is None or "bad" in r:
        continue
    lost = set()
    fails = []
    for mod, names in r["failed"].items():
        for n in names:
            fails.append(n if n != "example" else "example in " + mod)
            lost |= users.get((mod, n.split(".")[-1]), set())
    t = tight.get(r["id"], {})
    # "C12" asks for any theorem of that property
    miss = [b for b in m["breaks"] if not any(n == b or n.startswith(b + "_") for n in lost)]
    if miss and not t:
        print("CHECK", r["id"], "expected to fail but not:", miss, "failed:", fails, "lost:", sorted(lost)[:8])
    out.append({"id": r["id"], "definition": "lean/Verif/Model/%s: %s" % (m["file"], m["definition"]), "edit": m["edit"],
                "replaced": m["old"], "by": m["new"], "claim_broken": m["claim"], "failed": fails,
                "property_theorems_no_longer_proved": sorted(lost),
                "tightened": t.get("tightened", []), "note": t.get("note", "")})
with open(os.path.join(root, "LOG.jsonl"), "w") as f:
    for o in out:
        f.write(json.dumps(o) + "\n")
print(len(out), "lines")

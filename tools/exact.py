"""Which property theorems still hold of a wrong program?

usage: exact.py MUTANTS.json RESULTS.jsonl id ...

Like mutate.py, but failed proofs are replaced by `sorryAx` and everything that depends on the edited file is checked; afterwards every
property theorem either `holds` of the wrong program, or is `lost` (it depends on a failed proof), or is `missing` (its statement fails).
"""
import json
import os
import re
import subprocess
import sys
import time

SRC = "/tmp/mut/pristine"
DST = "/tmp/mut/exact"
TOOLS = os.path.dirname(os.path.abspath(__file__))
JOBS = int(os.environ.get("JOBS", "3"))


def names(mods):
    out = set()
    for m in mods:
        p = DST + "/" + m.replace(".", "/") + ".lean"
        out |= set(re.findall(r"^theorem (C\d+_\w+)", open(p).read(), re.M))
    return out


def run(mut):
    subprocess.run(["rm", "-rf", DST], check=True)
    subprocess.run(["cp", "-a", SRC, DST], check=True)
    path = DST + "/Verif/Model/" + mut["file"]
    text = open(path).read()
    n = text.count(mut["old"])
    nth = mut.get("nth")
    if n == 0 or (n > 1 and nth is None):
        return {"id": mut["id"], "bad": "%d occurrences" % n}
    if nth is None or nth == "all":
        new = text.replace(mut["old"], mut["new"])
    else:
        parts = text.split(mut["old"])
        new = mut["old"].join(parts[:nth + 1]) + mut["new"] + mut["old"].join(parts[nth + 1:])
    open(path, "w").write(new)
    imports = {"Verif": re.findall(r"^import (Verif\.\S+)", open(DST + "/Verif.lean").read(), re.M)}
    for root, _, files in os.walk(DST + "/Verif"):
        for f in files:
            if f.endswith(".lean"):
                mod = os.path.relpath(os.path.join(root, f), DST)[:-5].replace("/", ".")
                imports[mod] = re.findall(r"^import (Verif\.\S+)", open(os.path.join(root, f)).read(), re.M)
    todo = {"Verif.Model." + mut["file"][:-5].replace("/", ".")}
    change = True
    while change:
        change = False
        for m, imps in imports.items():
            if m not in todo and any(i in todo for i in imps):
                todo.add(m)
                change = True
    every = names(m for m in imports if m != "Verif")
    lib = DST + "/.lake/build/lib/lean/"
    for m in todo:
        for ext in (".olean", ".ilean", ".olean.private", ".olean.server", ".ir", ".trace", ".olean.hash", ".ilean.hash"):
            p = lib + m.replace(".", "/") + ext
            if os.path.exists(p):
                os.remove(p)
    env = dict(os.environ)
    env["LEAN_PATH"] = subprocess.run(["lake", "env", "printenv", "LEAN_PATH"], cwd=DST, capture_output=True, text=True).stdout.strip()
    running, done, errors = {}, set(), []
    while len(done) < len(todo):
        for m in sorted(todo):
            if len(running) >= JOBS:
                break
            if m in done or m in running or any(i in todo and i not in done for i in imports[m]):
                continue
            src = DST + "/" + m.replace(".", "/") + ".lean"
            running[m] = subprocess.Popen(["lean", "--run", TOOLS + "/Keep.lean.txt", src, m, lib + m.replace(".", "/") + ".olean"],
                                          cwd=DST, env=env, stdout=subprocess.PIPE, stderr=subprocess.STDOUT, text=True)
        time.sleep(0.3)
        for m, p in list(running.items()):
            if p.poll() is not None:
                out = p.stdout.read()
                if p.returncode:
                    errors += out.strip().split("\n")
                done.add(m)
                del running[m]
    r = subprocess.run(["lean", TOOLS + "/Sorries.lean.txt"], cwd=DST, env=env, capture_output=True, text=True)
    res = dict(l.split("\t") for l in r.stdout.split("\n") if "\t" in l)
    return {"id": mut["id"], "lost": sorted(t for t in every if res.get(t) == "lost"), "missing": sorted(every - set(res)),
            "holds": sorted(t for t in every if res.get(t) == "holds"), "errors": errors[:60], "checked": len(todo),
            "tail": "" if res else (r.stdout + r.stderr)[-800:]}


def main():
    muts = json.load(open(sys.argv[1]))
    for i in sys.argv[3:]:
        m = [m for m in muts if m["id"] == i][0]
        t = time.time()
        r = run(m)
        r["seconds"] = int(time.time() - t)
        with open(sys.argv[2], "a") as f:
            f.write(json.dumps(r) + "\n")
        if "bad" in r:
            print(i, r["bad"], flush=True)
            continue
        print(i, "lost", len(r["lost"]), "missing", len(r["missing"]), "holds", len(r["holds"]), "seconds", r["seconds"],
              "STILL HOLD:", [b for b in m["breaks"] if b in r["holds"]], flush=True)


main()

"""Test the theorems against wrong programs.

usage: mutate.py MUTATIONS.json RESULTS.jsonl [id ...]

MUTATIONS.json is a list of {"id", "file", "old", "new", "definition", "edit", "claim"}; `file` is relative to
lean/Verif/Model, and `old` must occur exactly once in it (or give "nth").  For every mutation the scratch copy
/tmp/mut/work is reset to /tmp/mut/pristine (a built copy of /verif/lean), the edit is applied, and `lake build` runs there.  One JSON line per
mutation says which declarations failed to check (the build is stopped 40 seconds after the first failure) and which
modules could not be built because of that.
"""
import json
import os
import re
import signal
import subprocess
import sys
import time

SRC = "/tmp/mut/pristine"
DST = "/tmp/mut/work"


def sync():
    subprocess.run(["rm", "-rf", DST], check=True)
    subprocess.run(["cp", "-a", SRC, DST], check=True)


def enclosing(path, line):
    lines = open(path).read().split("\n")
    for i in range(min(line, len(lines)) - 1, -1, -1):
        m = re.match(r"(?:@\[[^\]]*\]\s*)?(?:private |protected |noncomputable |open .* in\s*)*"
                     r"(theorem|lemma|def|example|instance|structure|inductive|abbrev)\s*(\S*)", lines[i])
        if m:
            return m.group(1) if m.group(1) == "example" else m.group(2)
    return "?"


def prop_theorems(module):
    path = DST + "/" + module.replace(".", "/") + ".lean"
    return re.findall(r"^theorem (C\d+_\w+)", open(path).read(), re.M) if os.path.exists(path) else []


def run(mut):
    sync()
    path = DST + "/Verif/Model/" + mut["file"]
    text = open(path).read()
    n = text.count(mut["old"])
    nth = mut.get("nth")
    if n == 0 or (n > 1 and nth is None):
        return {"id": mut["id"], "bad": "%d occurrences" % n}
    if nth is None:
        new = text.replace(mut["old"], mut["new"])
    elif nth == "all":
        new = text.replace(mut["old"], mut["new"])
    else:
        parts = text.split(mut["old"])
        new = mut["old"].join(parts[:nth + 1]) + mut["new"] + mut["old"].join(parts[nth + 1:])
    open(path, "w").write(new)
    t = time.time()
    log = open(DST + ".log", "w")
    p = subprocess.Popen(["lake", "build"], cwd=DST, stdout=log, stderr=log, start_new_session=True)
    first = None
    while p.poll() is None:
        time.sleep(2)
        if first is None and "error: Verif/" in open(DST + ".log").read():
            first = time.time()
        if (first and time.time() - first > 40) or time.time() - t > 3000:
            os.killpg(p.pid, signal.SIGKILL)
            p.wait()
    out = open(DST + ".log").read()
    failed = {}
    for m in re.finditer(r"^error: (Verif/\S+\.lean):(\d+):\d+:", out, re.M):
        name = enclosing(DST + "/" + m.group(1), int(m.group(2)))
        failed.setdefault(m.group(1).replace("Verif/", "").replace(".lean", ""), [])
        if name not in failed[m.group(1).replace("Verif/", "").replace(".lean", "")]:
            failed[m.group(1).replace("Verif/", "").replace(".lean", "")].append(name)
    # modules that were not built: those that import a failed module
    imports = {}
    for root, _, files in os.walk(DST + "/Verif"):
        for f in files:
            if f.endswith(".lean"):
                mod = os.path.relpath(os.path.join(root, f), DST)[:-5].replace("/", ".")
                imports[mod] = re.findall(r"^import (Verif\.\S+)", open(os.path.join(root, f)).read(), re.M)
    bad = {"Verif." + k.replace("/", ".") for k in failed}
    blocked = set()
    change = True
    while change:
        change = False
        for mod, imps in imports.items():
            if mod not in bad and mod not in blocked and any(i in bad or i in blocked for i in imps):
                blocked.add(mod)
                change = True
    blocked_props = sorted(t for mod in blocked for t in prop_theorems(mod))
    return {"id": mut["id"], "ok": p.returncode == 0, "failed": failed,
            "blocked": sorted(b for b in blocked if ".Props." in b), "blocked_theorems": blocked_props,
            "seconds": int(time.time() - t), "tail": "" if failed else out[-1500:]}


def main():
    muts = json.load(open(sys.argv[1]))
    done = set()
    if os.path.exists(sys.argv[2]):
        done = {json.loads(l)["id"] for l in open(sys.argv[2])}
    only = set(sys.argv[3:])
    for m in muts:
        if (only and m["id"] not in only) or (not only and m["id"] in done):
            continue
        r = run(m)
        with open(sys.argv[2], "a") as f:
            f.write(json.dumps(r) + "\n")
        print(r["id"], "SURVIVED" if r.get("ok") else r.get("bad") or r["failed"], flush=True)


main()

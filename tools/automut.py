"""Generate wrong programs mechanically and see which ones every theorem survives.

usage: automut.py generate MUTANTS.json        (all single-token edits of /tmp/mut/pristine/Verif/Model)
       automut.py run MUTANTS.json RESULTS.jsonl [seed]

`run` goes through the mutants in a random order that alternates between the model's files and appends one JSON line per mutant:
"bad" (the model itself does not compile), the declarations that failed first, or "ok" (the whole project still builds: a survivor, to be
looked at by hand).
"""
import json
import os
import random
import re
import signal
import subprocess
import sys
import time

SRC = "/tmp/mut/pristine"
DST = "/tmp/mut/auto"
SUBST = [
    (r" < ", [" ≤ "]), (r" ≤ ", [" < "]), (r" > ", [" ≥ "]), (r" ≥ ", [" > "]),
    (r" = ", [" ≠ "]), (r" ≠ ", [" = "]), (r" == ", [" != "]), (r" != ", [" == "]),
    (r" \+ 1\b", ["", " + 2"]), (r" - 1\b", ["", " - 2"]), (r" \+ ", [" - "]), (r" - ", [" + "]), (r" \* ", [" + "]), (r" / ", [" * "]),
    (r"\btrue\b", ["false"]), (r"\bfalse\b", ["true"]), (r" ∧ ", [" ∨ "]), (r" ∨ ", [" ∧ "]), (r" && ", [" || "]), (r" \|\| ", [" && "]),
    (r"\bif ", ["if ¬ "]), (r"!(?=\w)", [""]),
    (r"\.valueError\b", [".typeError"]), (r"\.typeError\b", [".indexError"]), (r"\.indexError\b", [".keyError"]), (r"\.keyError\b", [".indexError"]),
    (r"\.take\b", [".drop"]), (r"\.drop\b", [".take"]), (r"\.reverse\b", [""]), (r"(?<![\w.])0(?![\w.])", ["1"]), (r"(?<![\w.])1(?![\w.])", ["0", "2"]),
    (r"(?<![\w.])2(?![\w.])", ["1", "3"]), (r"\bvv\b", ["none", "(some false)"]), (r"\bfd\b", ["none"]), (r"\bnone\b", ["(some false)"]),
    (r"\(some free\)", ["none"]), (r"\bfree\b", ["(!free)"]), (r"\blb\b", ["ub"]), (r"\bub\b", ["lb"]), (r"\bsub\b", ["add"]), (r"\bexp\b", ["log"]),
    (r"\bi j\b", ["j i"]), (r"\.transpose\b", [""]), (r"\bmin\b", ["max"]), (r"\bmax\b", ["min"]), (r"\bzip\b", ["zip"]),
    (r"\b\.nan\b", [".pinf"]), (r"\.pinf\b", [".ninf"]), (r"\.ninf\b", [".pinf"]), (r"-(?=\w)", [""]),
]
HEAD = re.compile(r"^(?:@\[[^\]]*\]\s*)?(?:noncomputable |private |protected )*(def|inductive|structure|theorem|instance|abbrev|variable|open|namespace|end|section|mutual|import|set_option)\b\s*(\S*)")


def generate(out):
    muts = []
    base = SRC + "/Verif/Model"
    for f in sorted(os.listdir(base)):
        text = open(base + "/" + f).read()
        clean = re.sub(r"/-.*?-/", lambda m: re.sub(r"[^\n]", " ", m.group(0)), text, flags=re.S)
        clean = re.sub(r"--[^\n]*", lambda m: " " * len(m.group(0)), clean)
        clean = re.sub(r'"(?:[^"\\]|\\.)*"', lambda m: "§" * len(m.group(0)), clean)
        kind, name, body, pos = "", "", False, 0
        for line in clean.split("\n"):
            m = HEAD.match(line)
            start = 0
            if m:
                kind, name, body = m.group(1), m.group(2), False
            if kind == "def":
                if not body:
                    k = line.find(":=")
                    if k >= 0:
                        body, start = True, k + 2
                    elif line.lstrip().startswith("|"):
                        body, start = True, line.find("=>") + 2
                elif line.lstrip().startswith("|") and "=>" in line:
                    start = line.find("=>") + 2
                if body:
                    for pat, news in SUBST:
                        for m in re.finditer(pat, line):
                            if m.start() < start - 1:
                                continue
                            for new in news:
                                if new != m.group(0):
                                    muts.append({"file": f, "definition": name, "pos": pos + m.start(), "old": m.group(0), "new": new,
                                                 "line": text[pos:pos + len(line)].strip()})
                    if re.match(r"\s+(let \(?\)? ?← |requireValid|check\w+|if .* then throw)", line):
                        muts.append({"file": f, "definition": name, "pos": pos, "old": line, "new": " " * 2, "line": text[pos:pos + len(line)].strip()})
            pos += len(line) + 1
    for i, m in enumerate(muts):
        m["id"] = "M%d" % i
    json.dump(muts, open(out, "w"), indent=0, ensure_ascii=False)
    print(len(muts), "mutants")


def enclosing(path, line):
    lines = open(path).read().split("\n")
    for i in range(min(line, len(lines)) - 1, -1, -1):
        m = re.match(r"(?:@\[[^\]]*\]\s*)?(?:private |protected |noncomputable |open .* in\s*)*"
                     r"(theorem|lemma|def|example|instance|structure|inductive|abbrev)\s*(\S*)", lines[i])
        if m:
            return m.group(1) if m.group(1) == "example" else m.group(2)
    return "?"


def run(mut):
    subprocess.run(["rsync", "-a", "--delete", SRC + "/", DST + "/"] if os.path.exists("/usr/bin/rsync") else
                   ["sh", "-c", "rm -rf %s; cp -a %s %s" % (DST, SRC, DST)], check=True)
    path = DST + "/Verif/Model/" + mut["file"]
    text = open(path).read()
    assert text[mut["pos"]:mut["pos"] + len(mut["old"])] == mut["old"] or mut["new"] == "  ", mut
    open(path, "w").write(text[:mut["pos"]] + mut["new"] + text[mut["pos"] + len(mut["old"]):])
    t = time.time()
    log = open(DST + ".log", "w")
    p = subprocess.Popen(["lake", "build"], cwd=DST, stdout=log, stderr=log, start_new_session=True)
    first = None
    while p.poll() is None:
        time.sleep(1)
        if first is None and "error: Verif/" in open(DST + ".log").read():
            first = time.time()
        if (first and time.time() - first > 15) or time.time() - t > 3000:
            os.killpg(p.pid, signal.SIGKILL)
            p.wait()
    out = open(DST + ".log").read()
    failed = []
    for m in re.finditer(r"^error: (Verif/\S+\.lean):(\d+):\d+:", out, re.M):
        name = m.group(1)[6:-5] + ": " + enclosing(DST + "/" + m.group(1), int(m.group(2)))
        if name not in failed:
            failed.append(name)
    r = dict(mut, seconds=round(time.time() - t))
    if any(f.startswith("Model/" + mut["file"][:-5]) for f in failed):
        r["bad"] = True
    elif any(f.startswith("Model/") for f in failed):
        r["bad"] = True
    else:
        r["failed"] = failed
        r["ok"] = "Build completed successfully" in out
    return r


if sys.argv[1] == "generate":
    generate(sys.argv[2])
else:
    muts = json.load(open(sys.argv[2]))
    done = set()
    if os.path.exists(sys.argv[3]):
        done = {json.loads(line)["id"] for line in open(sys.argv[3])}
    rnd = random.Random(int(sys.argv[4]) if len(sys.argv) > 4 else 0)
    groups = {}
    for m in muts:
        groups.setdefault((m["file"], m["definition"]), []).append(m)
    for g in groups.values():
        rnd.shuffle(g)
    order = []
    while any(groups.values()):
        ks = [k for k in groups if groups[k]]
        rnd.shuffle(ks)
        order += [groups[k].pop() for k in ks]
    for m in order:
        if m["id"] in done:
            continue
        r = run(m)
        with open(sys.argv[3], "a") as f:
            f.write(json.dumps(r, ensure_ascii=False) + "\n")

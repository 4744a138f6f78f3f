#!/usr/bin/env python3
"""Apply wrong-program edits to a scratch copy of the model and record which theorems stop proving.

usage: mutate.py MUTANTS.json [SCRATCH]      (results are appended to /verif/seeded/LOG.jsonl)
Each mutant: {"id", "file" (under lean/Verif), "definition", "old", "new", "claim", "note"?}.
A mutant whose id already occurs in the log is skipped.
"""
import json, os, re, shutil, subprocess, sys, time
root = os.path.dirname(os.path.dirname(os.path.abspath(__file__)))
scratch = sys.argv[2] if len(sys.argv) > 2 else "/root/scratch/lean"
log = os.path.join(root, "seeded", "LOG.jsonl")
muts = json.load(open(sys.argv[1]))
done = set()
if os.path.exists(log):
    for l in open(log):
        if l.strip(): done.add(json.loads(l).get("id"))
if not os.path.exists(scratch):
    os.makedirs(os.path.dirname(scratch), exist_ok=True)
    subprocess.run(["cp", "-a", os.path.join(root, "lean"), scratch], check=True)

def sync():
    subprocess.run(["rsync", "-a", "--delete", "--exclude", ".lake", root + "/lean/", scratch + "/"], check=True) if shutil.which("rsync") else \
        subprocess.run("cd %s/lean && find . -name '*.lean' -not -path './.lake/*' | while read f; do cmp -s $f %s/$f || (mkdir -p $(dirname %s/$f); cp $f %s/$f); done" % (root, scratch, scratch, scratch), shell=True, check=True)

def imports():
    g = {}
    for d, _, fs in os.walk(os.path.join(scratch, "Verif")):
        for f in fs:
            if f.endswith(".lean"):
                p = os.path.join(d, f); m = os.path.relpath(p, scratch)[:-5].replace("/", ".")
                g[m] = re.findall(r"^import (Verif\.\S+)", open(p).read(), re.M)
    return g

def dependents(failed):
    g = imports(); out = set(failed); ch = True
    while ch:
        ch = False
        for m, deps in g.items():
            if m not in out and any(d in out for d in deps): out.add(m); ch = True
    return out

def enclosing(path, line):
    name = "?"
    for i, l in enumerate(open(path).read().split("\n"), 1):
        m = re.match(r"(?:@\[.*\]\s*)?(?:private |protected |noncomputable )*(theorem|lemma|def|example|instance|structure|abbrev)\s*(\S*)", l)
        if m: name = m.group(2) if m.group(1) != "example" else "example@%d" % i
        if i >= line: return name
    return name

def run():
    p = subprocess.run(["lake", "build"], cwd=scratch, capture_output=True, text=True)
    out = p.stdout + p.stderr
    errs = {}
    for m in re.finditer(r"error: (Verif/\S+?\.lean):(\d+):\d+", out):
        errs.setdefault(m.group(1), []).append(enclosing(os.path.join(scratch, m.group(1)), int(m.group(2))))
    return p.returncode, errs, out

sync()
for mu in muts:
    if mu["id"] in done: continue
    path = os.path.join(scratch, "Verif", mu["file"]); orig = open(path).read()
    n = orig.count(mu["old"])
    if n != 1:
        print(mu["id"], "PATTERN COUNT", n, flush=True); continue
    open(path, "w").write(orig.replace(mu["old"], mu["new"]))
    t = time.time()
    rc, errs, out = run()
    open(path, "w").write(orig)
    failed_mods = [f[:-5].replace("/", ".") for f in errs]
    prop = mu["claim"].split(":")[0].strip()
    blocked = []
    for m in sorted(dependents(failed_mods)):
        if m.startswith("Verif.Props."):
            txt = open(os.path.join(scratch, m.replace(".", "/") + ".lean")).read()
            blocked += re.findall(r"^theorem (%s_\S+)" % re.escape(prop), txt, re.M)
    names = sorted({x for v in errs.values() for x in v})
    self_fail = [x for f, v in errs.items() if f == "Verif/" + mu["file"] for x in v]
    entry = dict(id=mu["id"], definition=mu["file"] + ": " + mu["definition"], edit=mu["old"].strip() + "  ==>  " + mu["new"].strip(),
                 claim=mu["claim"], failed=names, property_theorems_without_proof=blocked, tightened=mu.get("tightened", []))
    if mu.get("note"): entry["note"] = mu["note"]
    if self_fail: print(mu["id"], "MODEL DOES NOT COMPILE", self_fail, flush=True); print(out[-1500:]); continue
    if rc == 0: entry["note"] = (entry.get("note", "") + " SURVIVED").strip()
    print(mu["id"], "SURVIVED" if rc == 0 else "killed", names[:6], blocked[:4], "%.0fs" % (time.time() - t), flush=True)
    if rc == 0 and not mu.get("accept"): continue
    open(log, "a").write(json.dumps(entry, ensure_ascii=False) + "\n")
sync()

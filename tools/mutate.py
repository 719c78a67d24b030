#!/usr/bin/env python3
"""Seed wrong programs in a scratch copy of the Lean project and rebuild.
usage: mutate.py BATCH.py SCRATCH LOG [start [end]]
BATCH.py defines MUT = [(model file, definition, old, new, claim)]."""
import sys, subprocess, re, json, shutil, os, time
batch, scratch, log = sys.argv[1:4]
lo = int(sys.argv[4]) if len(sys.argv) > 4 else 0
hi = int(sys.argv[5]) if len(sys.argv) > 5 else None
ns = {}; exec(open(batch).read(), ns)
SRC = "/verif/lean"
def sync():
    for root, _, fs in os.walk(SRC + "/Verif"):
        for f in fs:
            s = os.path.join(root, f); d = s.replace(SRC, scratch)
            if not os.path.exists(d) or open(s).read() != open(d).read():
                os.makedirs(os.path.dirname(d), exist_ok=True); shutil.copy(s, d)
    shutil.copy(SRC + "/Verif.lean", scratch + "/Verif.lean")
def decl(path, line):
    L = open(path).read().split("\n"); name = "?"
    for s in L[:line]:
        m = re.match(r"\s*(?:@\[[^\]]*\]\s*)?(?:private |noncomputable |protected )*(?:theorem|lemma|def|instance|example|abbrev|structure|inductive)\s*([^\s:({\[]*)", s)
        if m: name = m.group(1) or "example"
    return name
sync()
for i, (f, d, old, new, claim) in list(enumerate(ns["MUT"]))[lo:hi]:
    p = f"{scratch}/Verif/Model/{f}.lean"; src = open(p).read()
    if src.count(old) != 1:
        print(i, "BADMATCH", src.count(old), f, d, flush=True); continue
    open(p, "w").write(src.replace(old, new)); t = time.time()
    try:
        r = subprocess.run(["lake", "build"], cwd=scratch, capture_output=True, text=True, timeout=2400)
        out = r.stdout + r.stderr; rc = r.returncode
    except subprocess.TimeoutExpired as e:
        out = (e.stdout or b"").decode(); rc = 99
    errs = re.findall(r"error: (Verif/\S+?\.lean):(\d+):", out)
    failed = []
    for q, l in errs:
        n = q[6:-5].replace("/", ".") + ":" + decl(f"{scratch}/{q}", int(l))
        if n not in failed: failed.append(n)
    model = [x for x in failed if x.startswith("Model.")]
    st = "SURVIVED" if rc == 0 else "MODELERR" if model else "killed"
    open(p, "w").write(src)
    rec = dict(definition=f"{f}.{d}", edit=f"{old}  ==>  {new}", claim_broken=claim, result=st, theorems_failed=failed, theorems_tightened=[])
    open(log, "a").write(json.dumps(rec, ensure_ascii=False) + "\n")
    print(i, st, f, d, f"{time.time()-t:.0f}s", failed[:6], flush=True)

#!/usr/bin/env python3
"""Mutation tests of the theorems.  Usage: mutate.py FILE.json
FILE.json: list of {file, old, new, definition, claim[, tightened, note]}.  Each edit is applied to a scratch copy of
/verif/lean in /tmp/mut, the whole library is rebuilt, and one line is appended to seeded/LOG.jsonl."""
import json, os, re, subprocess, sys, shutil
V = os.path.abspath(os.path.join(os.path.dirname(os.path.abspath(__file__)), ".."))
M = "/tmp/mut/lean"
os.makedirs("/tmp/mut", exist_ok=True)
subprocess.run(["rsync", "-a", "--delete", V + "/lean/", M + "/"], check=False) if shutil.which("rsync") else \
    (shutil.rmtree(M, ignore_errors=True), subprocess.run(["cp", "-a", V + "/lean", M], check=True))
def thm_at(path, line):
    name = None
    for i, l in enumerate(open(path), 1):
        if i > line: break
        m = re.match(r"(?:@\[[^\]]*\]\s*)?(?:protected |private )?(theorem|lemma|def|example|instance)\b\s*([^\s:({\[]*)", l)
        if m: name = m.group(2) if m.group(1) != "example" else "example@%d" % i
    return name
for mu in json.load(open(sys.argv[1])):
    p = os.path.join(M, "Verif", mu["file"])
    src = open(os.path.join(V, "lean/Verif", mu["file"])).read()
    assert src.count(mu["old"]) >= 1, (mu["file"], mu["old"])
    open(p, "w").write(src.replace(mu["old"], mu["new"], 1))
    for attempt in range(3):      # a build killed for lack of memory reports no error position: run it again
        r = subprocess.run(["lake", "build", "Verif"], cwd=M, capture_output=True, text=True)
        out = r.stdout + r.stderr
        if r.returncode == 0 or re.search(r"^error: Verif/\S+\.lean:\d+:", out, re.M): break
    failed = []
    for m in re.finditer(r"^error: (Verif/\S+\.lean):(\d+):", out, re.M):
        t = os.path.relpath(m.group(1), "Verif")[:-5] + ":" + str(thm_at(os.path.join(M, m.group(1)), int(m.group(2))))
        if t not in failed: failed.append(t)
    rec = dict(definition=mu["definition"], file=mu["file"], edit=mu["old"] + "  ==>  " + mu["new"], claim=mu["claim"],
               failed=failed, tightened=mu.get("tightened", []))
    if "note" in mu: rec["note"] = mu["note"]
    print(("KILLED " if failed else "SURVIVED "), mu["definition"], failed[:4])
    if r.returncode == 0 and not failed: print("   !!! survived:", mu["edit"] if "edit" in mu else mu["new"])
    open(V + "/seeded/LOG.jsonl", "a").write(json.dumps(rec) + "\n")
    open(p, "w").write(src)

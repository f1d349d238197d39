#!/usr/bin/env python3
"""Mutation testing of the theorems.

usage: mutate.py MUTATIONS.json [LOG.jsonl]

MUTATIONS.json: list of {"file", "def", "old", "new", "edit", "claim"}.  Each edit is
applied to a scratch copy outside the repository.  Declarations that no longer
check are replaced by `sorry` (in the scratch copy) until the copy builds; then
every property theorem whose proof now depends on `sorryAx` counts as failed.
"""
import json, os, re, shutil, subprocess, sys
ROOT = os.path.dirname(os.path.dirname(os.path.abspath(__file__)))
SCR = "/tmp/mut/lean"
DECL = re.compile(r"^(?:@\[[^\]]*\]\s*)?(?:private |protected |noncomputable )*(theorem|lemma|def|example|instance|structure|inductive|abbrev|mutual|end|namespace|open|/-|section)")

def sync():
    os.makedirs("/tmp/mut", exist_ok=True)
    subprocess.run(["rsync", "-a", "--delete", "--exclude", ".git", os.path.join(ROOT, "lean") + "/", SCR + "/"], check=True) \
        if shutil.which("rsync") else (shutil.rmtree(SCR, ignore_errors=True), shutil.copytree(os.path.join(ROOT, "lean"), SCR, symlinks=True))

def build():
    r = subprocess.run("timeout 1500 lake build", shell=True, cwd=SCR, capture_output=True, text=True)
    return r.returncode, r.stdout + r.stderr

def start(path, line):
    L = open(path).read().split("\n")
    i = line - 1
    while i >= 0 and not re.match(r"^(?:@\[[^\]]*\]\s*)?(?:private |protected )*(theorem|lemma|example|def|instance|structure|inductive|abbrev)\b", L[i]):
        i -= 1
    return i + 1

def kill(path, line):
    """replace the declaration around `line` by a sorry; returns its name"""
    L = open(path).read().split("\n")
    i = line - 1
    while i >= 0 and not re.match(r"^(?:@\[[^\]]*\]\s*)?(?:private |protected )*(theorem|lemma|example|def|instance|structure|inductive|abbrev)\b", L[i]):
        i -= 1
    j = i + 1
    while j < len(L) and not DECL.match(L[j]):
        j += 1
    body = "\n".join(L[i:j])
    m = re.match(r"^(?:@\[[^\]]*\]\s*)?(?:private |protected )*(theorem|lemma|example|def|instance|structure|inductive|abbrev)\s*([^\s:({\[]*)", body)
    kind, name = m.group(1), m.group(2)
    if kind == "example":
        new = "example : True := trivial\n"
    elif kind in ("theorem", "lemma"):
        k = re.search(r":=(?= by\n| by |\n)", body)
        k2 = re.search(r"\n  \| ", body)
        if k and not (k2 and k2.start() < k.start()):
            new = body[:k.start()] + ":= by sorry\n"
        elif k2:
            new = body[:k2.start()] + " := by sorry\n"
        else:
            k = body.rindex(":=")
            new = body[:k] + ":= by sorry\n"
    else:
        return kind + " " + name, False
    open(path, "w").write("\n".join(L[:i] + new.split("\n") + L[j:]))
    return (name or "example"), True

def axioms(out, names):
    failed = []
    txt = re.sub(r"\s+", " ", out)
    for n in names:
        m = re.search(r"'" + re.escape(n) + r"' (depends on axioms: \[([^\]]*)\]|does not depend)", txt)
        if not m or "sorryAx" in m.group(0):
            failed.append(n.replace("Verif.Props.", ""))
    return failed

def main():
    muts = json.load(open(sys.argv[1]))
    log = sys.argv[2] if len(sys.argv) > 2 else None
    man = json.load(open(os.path.join(ROOT, "MANIFEST.json")))
    names = sorted({t for c in man["claims"] for t in c["theorems"]})
    for mu in muts:
        sync()
        p = os.path.join(SCR, mu["file"])
        s = open(p).read()
        if s.count(mu["old"]) < 1:
            print("NOT FOUND", mu["def"], mu["old"]); continue
        open(p, "w").write(s.replace(mu["old"], mu["new"]) if mu.get("all") else s.replace(mu["old"], mu["new"], 1))
        lemmas = []; ok = False
        for rnd in range(25):
            rc, out = build()
            if rc == 0:
                ok = True; break
            errs = re.findall(r"error: (Verif/[\w/]+\.lean):(\d+):\d+", out)
            if not errs:
                print("no location", out[-800:]); break
            byf = {}
            for f, l in errs: byf.setdefault(f, set()).add(start(os.path.join(SCR, f), int(l)))
            bad = False
            for f, ls in byf.items():
                for l in sorted(ls, reverse=True):
                    n, good = kill(os.path.join(SCR, f), l)
                    if n not in lemmas: lemmas.append(n)
                    if not good:
                        bad = True; print("  definition broken:", n)
            if bad: break
        failed = axioms(out, names) if ok else None
        rec = {"definition": mu["def"], "edit": mu["edit"], "claim": mu["claim"],
               "theorems_failed": failed if ok else ["(build not recovered)"],
               "lemmas_failed": lemmas[:12], "theorems_tightened": mu.get("tightened", [])}
        print(json.dumps(rec), flush=True)
        if log and ok:
            open(log, "a").write(json.dumps(rec) + "\n")

main()

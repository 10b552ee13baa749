#!/usr/bin/env python3
"""Seeded-bug runs: apply each mutation of a batch file to a scratch copy of lean/, rebuild, log.

usage: seed.py batch.py [first-index]
batch.py defines MUTS, a list of (definition, file, old, new, claim-broken).
A mutation that leaves the build green is reported as SURVIVED and is not logged automatically.
"""
import sys, os, re, json, subprocess, shutil, runpy
SRC = "/verif/lean"; TMP = os.environ.get("SEED_DIR", "/root/seed/lean")
LOG = "/verif/seeded/LOG.jsonl"

def theorem_at(path, line):
    name = None
    ns = []
    for i, l in enumerate(open(path), 1):
        if i > line: break
        m = re.match(r"\s*(?:@\[[^\]]*\]\s*)?(?:private\s+)?(?:theorem|lemma|def|example|instance)\b\s*([^\s:({\[]*)", l)
        if m: name = m.group(1) or "example"
    return name

def imports():
    g = {}
    for d, _, fs in os.walk(TMP + "/Verif"):
        for f in fs:
            if f.endswith(".lean"):
                p = os.path.join(d, f)
                mod = os.path.relpath(p, TMP)[:-5].replace("/", ".")
                g[mod] = set(re.findall(r"^import (Verif\.\S+)", open(p).read(), re.M))
    return g

def run(mut):
    definition, file, old, new, claim = mut
    p = f"{TMP}/Verif/{file}"
    s = open(p).read()
    if s.count(old) < 1:
        return None, "pattern not found: " + definition
    open(p, "w").write(s.replace(old, new, 1))
    try:
        r = subprocess.run(["lake", "build"], cwd=TMP, capture_output=True, text=True, timeout=3000)
        out = r.stdout + r.stderr
    finally:
        open(p, "w").write(s)
    if r.returncode == 0:
        return [], None
    bad = {}
    for m in re.finditer(r"^error: (Verif/\S+\.lean):(\d+):\d+", out, re.M):
        bad.setdefault(m.group(1), set()).add(theorem_at(f"{TMP}/{m.group(1)}", int(m.group(2))) or "?")
    if f"Verif/{file}" in bad:
        return None, "mutant does not compile: " + out[:600]
    return bad, None

def main():
    muts = runpy.run_path(sys.argv[1])["MUTS"]
    start = int(sys.argv[2]) if len(sys.argv) > 2 else 0
    os.makedirs(TMP, exist_ok=True)
    subprocess.run(["rsync", "-a", "--delete", SRC + "/", TMP + "/"], check=True) if shutil.which("rsync") \
        else (shutil.rmtree(TMP), shutil.copytree(SRC, TMP, symlinks=True))
    for k, mut in enumerate(muts[start:], start):
        bad, err = run(mut)
        if err:
            print(f"[{k}] ERROR {err}", flush=True); continue
        if bad == []:
            print(f"[{k}] SURVIVED {mut[0]}: {mut[4]}", flush=True); continue
        g = imports()
        failed_mods = {f[:-5].replace("/", ".") for f in bad}
        dep = set(failed_mods); ch = True
        while ch:
            ch = False
            for m, im in g.items():
                if m not in dep and im & dep: dep.add(m); ch = True
        blocked = set()
        for m in dep - failed_mods:
            if ".Props." in m:
                blocked |= set(re.findall(r"^theorem (C\d\d_\w+)", open(f"{TMP}/{m.replace('.', '/')}.lean").read(), re.M))
        names = sorted(set().union(*bad.values()))
        rec = {"definition": mut[0], "edit": f"{mut[2].strip()} -> {mut[3].strip()}", "file": "Verif/" + mut[1],
               "claim": mut[4], "failed": names, "failed_because_they_depend_on_these": sorted(blocked)[:12], "tightened": []}
        with open(LOG, "a") as f: f.write(json.dumps(rec) + "\n")
        print(f"[{k}] KILLED {mut[0]}: {names}", flush=True)
main()

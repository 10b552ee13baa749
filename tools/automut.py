#!/usr/bin/env python3
"""Automatic seeded bugs: mutate the definitions of lean/Verif/Model one at a time in a scratch copy.

usage: automut.py out.jsonl seed max [regex on file:definition]
Each definition gets one mutation, drawn at random among: a numeric literal incremented, a comparison
changed, + and - exchanged, a Boolean negated, a statement or a field update dropped, two adjacent
arguments swapped. The build is stopped at the first error. Mutants that do not compile are redrawn.
"""
import sys, os, re, json, subprocess, random, glob, signal, time, shutil
SRC = "/verif/lean"; TMP = os.environ.get("SEED_DIR", "/root/seed/auto"); BASE = "/root/seed/base"
out, seed, limit = sys.argv[1], int(sys.argv[2]), int(sys.argv[3])
only = re.compile(sys.argv[4]) if len(sys.argv) > 4 else None
rnd = random.Random(seed)

def sync(a, b):
    """Make b a copy of a."""
    for d, ds, fs in os.walk(b):
        r = os.path.relpath(d, b)
        for x in fs:
            if not os.path.lexists(os.path.join(a, r, x)): os.unlink(os.path.join(d, x))
    for d, ds, fs in os.walk(a):
        r = os.path.normpath(os.path.join(b, os.path.relpath(d, a)))
        os.makedirs(r, exist_ok=True)
        for x in fs + [y for y in ds if os.path.islink(os.path.join(d, y))]:
            p, q = os.path.join(d, x), os.path.join(r, x)
            if os.path.islink(p):
                if not os.path.lexists(q): os.symlink(os.readlink(p), q)
                continue
            sp = os.stat(p)
            if os.path.exists(q):
                sq = os.stat(q)
                if (sp.st_size, sp.st_mtime_ns) == (sq.st_size, sq.st_mtime_ns): continue
                os.unlink(q)
            shutil.copy2(p, q)

def blocks(s):
    """(name, start of body, end) of each def."""
    heads = [m.start() for m in re.finditer(r"^(?:/--|/-!|@\[|def |theorem |structure |inductive |abbrev |instance |private |noncomputable |end |section|namespace |open |variable|example|set_option |mutual)", s, re.M)] + [len(s)]
    for m in re.finditer(r"^(?:private |noncomputable )?def ([^\s:({\[]+)", s, re.M):
        end = min(h for h in heads if h > m.end())
        txt = s[m.start():end]
        k = re.search(r":=|^\s*\|", txt, re.M)
        if not k: continue
        b = m.start() + k.start()
        t = re.search(r"^\s*(termination_by|decreasing_by)", s[b:end], re.M)
        if t: end = b + t.start()
        yield m.group(1), b, end

def muts(body):
    r = []
    def add(pos, old, new): r.append((pos, old, new))
    for m in re.finditer(r"(?<![\w.#xXₐ-ₜ])(0x[0-9a-fA-F]+|\d+)(?![\w.])", body):
        v = m.group(1); n = int(v, 0)
        add(m.start(), v, hex(n ^ 1) if v.startswith("0x") else str(n + 1))
    sw = {" < ": " ≤ ", " ≤ ": " < ", " > ": " ≥ ", " ≥ ": " > ", " = ": " ≠ ", " ≠ ": " = ", " + ": " - ", " - ": " + ", " ∧ ": " ∨ ", " ∨ ": " ∧ ", " ++ ": None, " ^^^ ": " ||| ", " &&& ": " ||| ", " ||| ": " &&& ", " * ": " + "}
    for a, b in sw.items():
        for m in re.finditer(re.escape(a), body):
            if b:
                if a == " = " and not re.search(r"(if|∨|∧|¬)[^\n]*$", body[:m.start()].split("\n")[-1] + ""): continue
                add(m.start(), a, b)
    for a, b in [("true", "false"), ("false", "true"), (".encrypt", ".decrypt"), (".decrypt", ".encrypt"), ("some ", None), (".take", ".drop"), (".drop", ".take"), (".rotateLeft", ".rotateRight"), ("rol32", "ror32"), ("ror32", "rol32"), ("rol64", "ror64"), ("ror64", "rol64"), (".foldl", None), ("slice ", None), ("be32", "le32"), ("toLE", "toBE"), ("toBE", "toLE"), ("<<<", ">>>"), (">>>", "<<<"), (".reverse", "")]:
        if b is None: continue
        for m in re.finditer(re.escape(a) + r"(?!\w)", body): add(m.start(), a, b)
    # dropped statements
    for m in re.finditer(r"^( +)(?!let |if |else|match|\||then|do\b|pure|some|\.|--|for |fun )([^\n]*)\n(?=\1\S)", body, re.M):
        add(m.start(), m.group(0), "")
    # dropped field updates
    for m in re.finditer(r"with ([^{}]*)\}", body):
        fs = re.split(r",\s*(?=\w+ :=)", m.group(1))
        if len(fs) > 1:
            for i in range(len(fs)):
                add(m.start(), m.group(0), "with " + ", ".join(f for j, f in enumerate(fs) if j != i).strip() + " }")
    # swapped neighbouring arguments
    for m in re.finditer(r"(?<=[\w)] )([A-Za-z_][\w.']*|\d+) ([A-Za-z_][\w.']*|\d+)(?=[\s)])", body):
        a, b = m.group(1), m.group(2)
        if a != b and not {a, b} & {"let", "if", "then", "else", "match", "with", "fun", "do", "from", "by", "at", "in", "pure", "return"}:
            add(m.start(), m.group(0), b + " " + a)
    return r

def build():
    p = subprocess.Popen(["lake", "build"], cwd=TMP, stdout=subprocess.PIPE, stderr=subprocess.STDOUT, text=True, start_new_session=True)
    err = None
    for l in p.stdout:
        m = re.match(r"error: (Verif/\S+\.lean):(\d+):\d+", l)
        if m:
            err = (m.group(1), int(m.group(2))); break
    if err:
        os.killpg(p.pid, signal.SIGKILL); p.wait(); return err
    p.wait()
    return None if p.returncode == 0 else ("?", 0)

def theorem_at(path, line):
    name = None
    for i, l in enumerate(open(path), 1):
        if i > line: break
        m = re.match(r"\s*(?:@\[[^\]]*\]\s*)?(?:private\s+)?(?:theorem|lemma|def|example|instance)\b\s*([^\s:({\[]*)", l)
        if m: name = m.group(1) or "example"
    return name

sync(SRC, BASE)
done = set()
for f in glob.glob("/root/seed/auto*.jsonl"):
    for l in open(f):
        d = json.loads(l)
        if "--again" not in sys.argv: done.add(d["file"] + ":" + d["definition"])
todo = []
for f in sorted(glob.glob(BASE + "/Verif/Model/*.lean")):
    s = open(f).read()
    for name, b, e in blocks(s):
        key = os.path.basename(f) + ":" + name
        if key in done or (only and not only.search(key)): continue
        todo.append((f, name, b, e))
rnd.shuffle(todo)
print(len(todo), "definitions", flush=True)
n = 0
for f, name, b, e in todo:
    if n >= limit: break
    s = open(f).read()
    cands = muts(s[b:e])
    rnd.shuffle(cands)
    for pos, old, new in cands[:12]:
        while os.path.exists("/root/seed/pause"): time.sleep(5)
        sync(BASE, TMP)
        t = f.replace(BASE, TMP)
        m = s[:b + pos] + new + s[b + pos + len(old):]
        open(t, "w").write(m)
        t0 = time.time()
        err = build()
        if err and err[0].startswith("Verif/Model/"):
            continue
        n += 1
        line = s.count("\n", 0, b + pos) + 1
        rec = {"definition": name, "file": os.path.basename(f), "line": line, "old": old, "new": new,
               "context": m.split("\n")[line - 1].strip()[:200], "was": s.split("\n")[line - 1].strip()[:200],
               "result": "KILLED" if err else "SURVIVED",
               "where": f"{err[0]}: {theorem_at(TMP + '/' + err[0], err[1])}" if err and err[0] != "?" else "", "s": round(time.time() - t0)}
        with open(out, "a") as o: o.write(json.dumps(rec) + "\n")
        print(rec["result"], key if False else os.path.basename(f) + ":" + name, "|", rec["was"], "=>", rec["context"], "|", rec["where"], rec["s"], flush=True)
        break
    else:
        print("NOMUT", os.path.basename(f), name, flush=True)

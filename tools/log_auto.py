#!/usr/bin/env python3
"""Rewrites the automatic entries of seeded/LOG.jsonl from the results of automut.py.

usage: log_auto.py results.jsonl...
"""
import json, sys
LOG = "/verif/seeded/LOG.jsonl"
NOTES = {
    ("deviceRandomBytes", "SURVIVED"): ("equivalent program: nothing follows", []),
    ("rsaGenExponent", "SURVIVED"): ("the exponent of a generated RSA key", ["C96_rsa_new_key"]),
    ("aesGcmW", "SURVIVED"): ("size of the tag of AES-GCM with machine integers", ["C82_gcm"]),
    ("b3ParentsCount", "SURVIVED"): ("equivalent program: only called with at most three chaining values", []),
    ("poly32Final", "SURVIVED"): ("finishing erases the Poly1305 context", ["C63_poly1305_finish"]),
    ("wipeKey", "SURVIVED"): ("number of rounds after wipe, 17 for 16: both are out of bounds, the claims hold", []),
    ("bytesFill", "SURVIVED"): ("equivalent program: the test is symmetric", []),
}
keep = [l for l in open(LOG) if not json.loads(l).get("automatic")]
auto, seen = [], set()
for path in sys.argv[1:]:
    for l in open(path):
        r = json.loads(l)
        key = (r["definition"], r["file"], r["context"], r["was"])
        if key in seen or r["result"] not in ("KILLED", "SURVIVED"):
            continue
        seen.add(key)
        claim, tightened = NOTES.get((r["definition"], r["result"]), ("what the definition computes", []))
        where = r.get("where") or ""
        auto.append(json.dumps({
            "definition": r["definition"], "edit": f'{r["was"].strip()} -> {r["context"].strip()}' if r["new"] else f'dropped: {r["was"].strip()}',
            "file": "Verif/Model/" + r["file"], "claim": claim,
            "failed": [where.split(": ")[-1]] if r["result"] == "KILLED" else [],
            "tightened": tightened, "automatic": True}) + "\n")
open(LOG, "w").writelines(keep + auto)
print(len(keep), len(auto))

#!/usr/bin/env python3
"""Append results of mutate.py to seeded/LOG.jsonl.

usage: log_mutants.py OUT.jsonl [TIGHTENED.json]

TIGHTENED.json maps "definition|edit" to the theorems that were tightened because the edit had gone unnoticed at first.
"""
import json, os, sys
ROOT = os.path.join(os.path.dirname(os.path.abspath(__file__)), "..")
log = os.path.join(ROOT, "seeded", "LOG.jsonl")
tight = json.load(open(sys.argv[2])) if len(sys.argv) > 2 else {}
seen = set()
if os.path.exists(log):
    for l in open(log):
        e = json.loads(l); seen.add((e["definition"], e["edit"]))
with open(log, "a") as out:
    for l in open(sys.argv[1]):
        r = json.loads(l)
        if not r.get("done") or (r["definition"], r["edit"]) in seen: continue
        e = {"definition": r["definition"], "file": r["file"], "edit": r["edit"], "old": r["old"], "new": r["new"],
             "breaks": r["breaks"], "failed": r["failed"], "first_errors_in": r.get("errors_in", []),
             "tightened": tight.get(r["definition"] + "|" + r["edit"], [])}
        out.write(json.dumps(e, ensure_ascii=False) + "\n")

#!/usr/bin/env python3
"""Regenerates ../DESIGN.md from design_head.md, plan.txt, properties.jsonl and MANIFEST.json."""
import json, os
here = os.path.dirname(os.path.abspath(__file__))
PLAN = dict(l.rstrip("\n").split(" ", 1) for l in open(os.path.join(here, "plan.txt")))
HEAD = open(os.path.join(here, "design_head.md")).read()
props = [json.loads(l) for l in open(os.path.join(here, "..", "properties.jsonl"))]
claims = {c["property"]: c for c in json.load(open(os.path.join(here, "..", "MANIFEST.json")))["claims"]}
out = [HEAD.rstrip(), "", "## Plan per property", ""]
for d in props:
    i = d["id"]
    out.append("* **%s %s** — %s" % (i, d["title"], PLAN.get(i, "split from an earlier property; same model, see below.")))
out += ["", "## Disagreements between the code and the properties", "",
        "The model follows the code. Where the code does not have the property, the theorems listed here refute it on a witness or characterise exactly when it holds; the property stays `partial`. A theorem named `..._partial` proves the property, or its true part, under the guard in its statement; `..._violation` and similar names are refutations.", ""]
for d in props:
    c = claims.get(d["id"])
    if c and c["status"] != "proved":
        out.append("* **%s %s** — %s (%s)" % (d["id"], d["title"], c["note"].strip(), ", ".join("`%s`" % t.split(".")[-1] for t in c["theorems"])))
out += ["", "## Notes on proved properties", ""]
for d in props:
    c = claims.get(d["id"])
    if c and c["status"] == "proved" and c["note"].strip():
        out.append("* **%s** — %s" % (d["id"], c["note"].strip()))
open(os.path.join(here, "..", "DESIGN.md"), "w").write("\n".join(out) + "\n")

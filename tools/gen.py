#!/usr/bin/env python3
"""Regenerate lean/Verif.lean, lean/Verif/Audit.lean and MANIFEST.json.

Theorems are collected from lean/Verif/Props/*.lean: a theorem belongs to
property CNN if its name starts with `cNN_`.  Status and note of every claim
come from tools/claims.json."""
import glob, json, os, re

root = os.path.dirname(os.path.dirname(os.path.abspath(__file__)))
lean = os.path.join(root, "lean")
mods = sorted(os.path.relpath(p, lean)[:-5].replace("/", ".")
              for p in glob.glob(os.path.join(lean, "Verif", "*", "*.lean")))
props = [m for m in mods if ".Props." in m]
thms = {}
order = []
for m in props:
    ns = []
    for line in open(os.path.join(lean, m.replace(".", "/") + ".lean")):
        a = re.match(r"namespace\s+(\S+)", line)
        if a:
            ns.append(a.group(1))
        a = re.match(r"end\s+(\S+)", line)
        if a and ns and ns[-1] == a.group(1):
            ns.pop()
        a = re.match(r"(?:@\[[^\]]*\]\s*)?theorem\s+(c(\d\d+)_\S+)", line)
        if a:
            name = ".".join(ns + [a.group(1)])
            thms.setdefault("C" + a.group(2), []).append(name)
            order.append(name)
claims = json.load(open(os.path.join(root, "tools", "claims.json")))
out = []
for line in open(os.path.join(root, "properties.jsonl")):
    pid = json.loads(line)["id"]
    if pid in claims:
        c = claims[pid]
        out.append({"property": pid, "status": c["status"],
                    "theorems": thms.get(pid, []), "note": c.get("note", "")})
        if c["status"] != "not_applicable" and pid not in thms:
            print("no theorems for", pid)
    elif pid in thms:
        print("no status for", pid)
with open(os.path.join(root, "MANIFEST.json"), "w") as f:
    json.dump({"claims": out}, f, indent=1, ensure_ascii=False)
    f.write("\n")
with open(os.path.join(lean, "Verif", "Audit.lean"), "w") as f:
    for m in props:
        f.write("import %s\n" % m)
    f.write("\n/-! Axioms of every claimed theorem (generated by tools/gen.py). -/\n\n")
    for n in order:
        f.write("#print axioms %s\n" % n)
with open(os.path.join(lean, "Verif.lean"), "w") as f:
    for m in mods + ["Verif.Audit"]:
        f.write("import %s\n" % m)
print(len(order), "theorems", len(out), "claims")

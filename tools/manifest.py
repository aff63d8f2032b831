#!/usr/bin/env python3
"""Regenerate MANIFEST.json and lean/Verif/Axioms.lean from the theorem names.

A theorem named Cnn_... belongs to property Cnn. A property is `partial` if one of its theorems ends
in _partial or if it is listed in FORCE; `not_applicable` if NA says so."""
import json, re, os
root = os.path.dirname(os.path.dirname(os.path.abspath(__file__)))
notes = json.load(open(os.path.join(root, "tools/notes.json")))
props = [json.loads(l) for l in open(os.path.join(root, "properties.jsonl")) if l.strip()]
thms, mods = {}, []
base = os.path.join(root, "lean")
top = open(os.path.join(base, "Verif.lean")).read()
for m in re.findall(r"^import (\S+)", top, re.M):
    path = os.path.join(base, m.replace(".", "/") + ".lean")
    if m == "Verif.Axioms":
        continue
    src = open(path).read()
    ns, found = [], False
    for line in src.splitlines():
        x = re.match(r"namespace (\S+)", line)
        if x: ns.append(x.group(1))
        x = re.match(r"end (\S+)", line)
        if x and ns and ns[-1] == x.group(1): ns.pop()
        x = re.match(r"(?:@\[[^\]]*\] )?theorem (C\d\d+_\S+)", line)
        if x:
            name = ".".join(ns + [x.group(1)])
            thms.setdefault(x.group(1).split("_")[0], []).append(name)
            found = True
    if found: mods.append(m)
claims = []
for p in props:
    i = p["id"]; t = thms.get(i, []); n = notes.get(i, {})
    st = n.get("status") or ("partial" if any(x.endswith("_partial") for x in t) else "proved" if t else "todo")
    claims.append({"property": i, "status": st, "theorems": t, "note": n.get("note", "")})
todo = [c["property"] for c in claims if c["status"] == "todo"]
print("without theorem:", todo)
json.dump({"claims": [c for c in claims if c["status"] != "todo"]}, open(os.path.join(root, "MANIFEST.json"), "w"), indent=1, ensure_ascii=False)
with open(os.path.join(base, "Verif/Axioms.lean"), "w") as f:
    for m in mods: f.write(f"import {m}\n")
    f.write("/-! Generated by tools/manifest.py: prints the axioms of every property theorem at build time. -/\n")
    for i in sorted(thms):
        for t in thms[i]: f.write(f"#print axioms {t}\n")
ids = {p["id"] for p in props}
print("theorems:", sum(map(len, thms.values())), "unknown ids:", [k for k in thms if k not in ids])

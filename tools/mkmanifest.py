"""Writes MANIFEST.json from claims.txt.  Line format: ID | status | theorem theorem ... | note"""
import json, os
root = os.path.join(os.path.dirname(os.path.abspath(__file__)), "..")
claims = []
for l in open(os.path.join(root, "tools", "claims.txt")):
    l = l.strip()
    if not l or l.startswith("#"):
        continue
    i, s, t, n = [x.strip() for x in l.split("|", 3)]
    assert s in ("proved", "partial", "not_applicable"), l
    claims.append({"property": i, "status": s, "theorems": ["Verif." + x for x in t.split()], "note": n})
ids = [json.loads(l)["id"] for l in open(os.path.join(root, "properties.jsonl"))]
assert len({c["property"] for c in claims}) == len(claims)
for c in claims:
    assert c["property"] in ids, c
claims.sort(key=lambda c: ids.index(c["property"]))
json.dump({"claims": claims}, open(os.path.join(root, "MANIFEST.json"), "w"), indent=1, ensure_ascii=False)
print("not covered:", [i for i in ids if i not in {c["property"] for c in claims}])

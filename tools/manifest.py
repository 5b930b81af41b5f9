"""Regenerate MANIFEST.json from the theorem names in lean/Verif and tools/status.json."""
import json, re, pathlib, collections
root = pathlib.Path(__file__).resolve().parent.parent
status = json.load(open(root / "tools/status.json"))
th = collections.defaultdict(list)
for f in sorted((root / "lean/Verif").rglob("*.lean")):
    ns = []
    for line in f.read_text().splitlines():
        m = re.match(r"namespace (\S+)", line)
        if m: ns.append(m.group(1))
        m = re.match(r"end (\S+)", line)
        if m and ns and ns[-1] == m.group(1): ns.pop()
        m = re.match(r"theorem (C\d\d+_[\w']+)", line)
        if m: th[m.group(1).split("_")[0]].append(".".join(ns + [m.group(1)]))
claims = []
for l in open(root / "properties.jsonl"):
    c = json.loads(l)["id"]
    if not th[c] and c not in status: continue
    s = status.get(c, {})
    st = s.get("status", "partial" if any(t.endswith("_partial") for t in th[c]) else "proved")
    claims.append({"property": c, "status": st, "theorems": th[c], "note": s.get("note", "")})
json.dump({"claims": claims}, open(root / "MANIFEST.json", "w"), indent=1, ensure_ascii=False)
print(len(claims), "claims", sum(len(c["theorems"]) for c in claims), "theorems")

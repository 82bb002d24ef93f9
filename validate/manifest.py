#!/usr/bin/env python3
"""Write MANIFEST.json from the theorem names in lean/Verif/Props and the claim table below."""
import json, re, glob, os
ROOT = os.path.dirname(os.path.dirname(os.path.abspath(__file__)))
names = []          # (file, full name)
for f in sorted(glob.glob(ROOT + "/lean/Verif/Props/*.lean") + glob.glob(ROOT + "/lean/Verif/Arith/*.lean")):
    ns = []
    for line in open(f):
        m = re.match(r"namespace (\S+)", line)
        if m: ns.append(m.group(1)); continue
        m = re.match(r"end (\S+)", line)
        if m and ns and ns[-1] == m.group(1): ns.pop(); continue
        m = re.match(r"(?:protected )?theorem (\S+)", line)
        if m: names.append((os.path.basename(f)[:-5], ".".join(ns + [m.group(1)])))

def pick(spec):
    """'File:regex' selects by file and full match on the last name component; 'A.b' is an exact name."""
    out = []
    for s in spec:
        if ":" in s:
            f, r = s.split(":", 1)
            got = [n for g, n in names if re.fullmatch(f, g) and re.fullmatch(r, n.split(".")[-1])]
        else:
            got = [n for _, n in names if n == "Traquer." + s]
        if not got: raise SystemExit("no theorem for " + s)
        out += [g for g in got if g not in out]
    return out

exec(open(os.path.join(ROOT, "validate", "claims.py")).read())
ids = [json.loads(l)["id"] for l in open(ROOT + "/properties.jsonl")]
out = []
for i in ids:
    if i not in CLAIMS: print("missing claim", i); continue
    status, spec, note = CLAIMS[i]
    th = pick(spec)
    if status == "proved" and any(t.endswith("_partial") for t in th): print("partial theorem in proved claim", i)
    out.append({"property": i, "status": status, "theorems": th, "note": note})
json.dump({"claims": out}, open(ROOT + "/MANIFEST.json", "w"), indent=1, ensure_ascii=False)
open(ROOT + "/MANIFEST.json", "a").write("\n")
print(len(out), "claims,", sum(len(c["theorems"]) for c in out), "theorem references")

"""Writes MANIFEST.json. Claims without an entry here are listed as partial without theorems."""
import json, os, re
here = os.path.dirname(os.path.dirname(os.path.abspath(__file__)))

REACH = ("Holds for every cache that is not a copy, in every program (which may copy other caches), with list-node "
         "allocation not failing (NoListFault); clocks, callbacks, other allocations, hash order are arbitrary. ")
C = {}
def claim(pid, status, theorems, note=""):
    C[pid] = dict(property=pid, status=status, theorems=["LRU." + t for t in theorems], note=note)

exec(open(os.path.join(here, "tools", "claims.py")).read())

ids = [json.loads(l)["id"] for l in open(os.path.join(here, "properties.jsonl"))]
src = ""
for root, _, files in os.walk(os.path.join(here, "lean", "Verif")):
    for f in files:
        if f.endswith(".lean"):
            src += open(os.path.join(root, f)).read()
for c in C.values():
    for t in c["theorems"]:
        name = t[len("LRU."):].split(".")[-1]
        if not re.search(r"^theorem (\w+\.)*%s\b" % re.escape(name), src, re.M):
            print("missing theorem", t)
missing = [i for i in ids if i not in C]
if missing:
    print("no claim yet:", " ".join(missing))
json.dump({"claims": [C[i] for i in ids if i in C]}, open(os.path.join(here, "MANIFEST.json"), "w"), indent=1)

"""Write AXIOMS.md: the axioms of every theorem in MANIFEST.json. Run from /verif after `lake build`."""
import json, os, re, subprocess, tempfile
claims = json.load(open("MANIFEST.json"))["claims"]
names = []
for c in claims:
    for t in c["theorems"]:
        if t not in names:
            names.append(t)
with tempfile.NamedTemporaryFile("w", suffix=".lean", delete=False) as f:
    f.write("import Verif\n" + "".join(f"#print axioms {n}\n" for n in names))
out = subprocess.run(["lake", "env", "lean", f.name], cwd="lean", capture_output=True, text=True).stdout
os.unlink(f.name)
flat = re.sub(r"\s+", " ", out)
rows = []
for n in names:
    m = re.search(r"'" + re.escape(n) + r"' depends on axioms: \[(.*?)\]", flat)
    if m:
        rows.append((n, ", ".join(sorted(x.strip() for x in m.group(1).split(",")))))
    elif f"'{n}' does not depend on any axioms" in flat:
        rows.append((n, "none"))
    else:
        raise SystemExit(f"no answer for {n}\n{out[:2000]}")
ok = {"propext", "Classical.choice", "Quot.sound"}
assert all(r == "none" or set(r.split(", ")) <= ok for _, r in rows)
with open("AXIOMS.md", "w") as f:
    f.write("# Axioms\n\nWhat `#print axioms` reports for every theorem in `MANIFEST.json`. `propext`, `Classical.choice` and\n"
            "`Quot.sound` are the axioms of Lean itself.\n\n| theorem | axioms |\n|---|---|\n")
    for n, r in rows:
        f.write(f"| `{n}` | {r} |\n")
print(len(rows))

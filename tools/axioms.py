"""Write the axioms of every property theorem to the end of DESIGN.md. Run from /verif after a build."""
import json, re, subprocess, tempfile

claims = json.load(open("MANIFEST.json"))["claims"]
names = [t for c in claims for t in c["theorems"]]
src = "import Verif\n" + "".join(f"#print axioms {t}\n" for t in names)
with tempfile.NamedTemporaryFile("w", suffix=".lean", delete=False) as f:
    f.write(src)
out = subprocess.run(["lake", "env", "lean", f.name], cwd="lean", capture_output=True, text=True).stdout
out = re.sub(r"\s+", " ", out)
found = {}
for m in re.finditer(r"'([^']+(?:'[^' ]*)?)' (?:depends on axioms: \[([^\]]*)\]|does not depend on any axioms)", out):
    found[m.group(1)] = tuple(sorted(a.strip() for a in m.group(2).split(","))) if m.group(2) else ()
groups = {}
for c in claims:
    for t in c["theorems"]:
        groups.setdefault(found[t], []).append(t.split(".")[-1])
lines = ["## 6. Axioms of the property theorems", "", "Output of `#print axioms`, grouped (`tools/axioms.py`).", ""]
for ax, ts in sorted(groups.items()):
    lines += ["* " + (", ".join(f"`{a}`" for a in ax) or "none") + f" ({len(ts)} theorems): " + ", ".join(ts) + "."]
s = open("DESIGN.md").read()
s = s.split("## 6. Axioms of the property theorems")[0].rstrip() + "\n\n" + "\n".join(lines) + "\n"
open("DESIGN.md", "w").write(s)
print({", ".join(k): len(v) for k, v in groups.items()})

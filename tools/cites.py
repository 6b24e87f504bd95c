"""Check the citations in the model: the file exists, the lines exist, and a name given right after them occurs there."""
import os, re, glob, sys

REPO = "/repo"
LEAN = os.path.join(os.path.dirname(os.path.abspath(__file__)), "..", "lean", "Verif")

files = {}
for root, _, names in os.walk(REPO):
    for n in names:
        if n.endswith((".py", ".hpp", ".cpp", ".h")):
            files.setdefault(n, []).append(os.path.join(root, n))

cite = re.compile(r"([\w/]+\.(?:hpp|cpp|py|h)):?\s?(\d+)(?:\s?[-–]\s?(\d+))?(?:\s+`([A-Za-z_:~.]\w*)`)?")
total = bad = named = 0
for path in sorted(glob.glob(LEAN + "/**/*.lean", recursive=True)):
    for m in cite.finditer(open(path).read()):
        total += 1
        f, a, b, name = m.group(1), int(m.group(2)), int(m.group(3) or m.group(2)), m.group(4)
        cands = [c for c in files.get(os.path.basename(f), []) if c.endswith("/" + f.lstrip("/")) or c == f]
        where = os.path.relpath(path, LEAN)
        if not cands:
            bad += 1; print(where, m.group(0), "NO FILE"); continue
        ok, why = False, ""
        for c in cands:
            lines = open(c, errors="replace").read().split("\n")
            if not (1 <= a <= b <= len(lines)):
                why = "OUT OF RANGE"; continue
            if name:
                if name.split("::")[-1].split(".")[-1] not in "\n".join(lines[max(0, a - 4):b + 1]):
                    why = "NAME NOT THERE"; continue
            ok = True
        named += bool(name)
        if not ok:
            bad += 1; print(where, "|", m.group(0), "|", why)
print(total, "citations,", named, "with a name,", bad, "bad")
sys.exit(bool(bad))

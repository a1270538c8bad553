"""Regenerate MANIFEST.json from the theorem names in lean/Verif/Props and the notes in tools/notes.json.

A theorem belongs to the property whose id prefixes its name (C07_..., C07b is not allowed).
notes.json maps a property id to {"status": ..., "note": ...}.
"""
import json
import pathlib
import re

root = pathlib.Path(__file__).resolve().parent.parent
notes = json.loads((root / "tools/notes.json").read_text())
found = {}
for f in sorted((root / "lean/Verif/Props").glob("**/*.lean")):
    src = f.read_text()
    stack = []
    for line in src.splitlines():
        if m := re.match(r"namespace (\S+)", line):
            stack.append(m.group(1))
        elif (m := re.match(r"end (\S+)", line)) and stack and stack[-1] == m.group(1):
            stack.pop()
        elif m := re.match(r"theorem (C\d\d+_\w+)", line):
            name = m.group(1)
            found.setdefault(name.split("_")[0], []).append(".".join(stack + [name]))
claims = []
for line in (root / "properties.jsonl").read_text().splitlines():
    pid = json.loads(line)["id"]
    n = notes.get(pid, {})
    ths = found.get(pid, [])
    status = n.get("status", "proved" if ths else "not_applicable")
    if not ths and "status" not in n:
        print("no theorem for", pid)
        continue
    claims.append({"property": pid, "status": status, "theorems": ths, "note": n.get("note", "")})
(root / "MANIFEST.json").write_text(json.dumps({"claims": claims}, indent=1) + "\n")
print(len(claims), "claims,", sum(len(c["theorems"]) for c in claims), "theorems")

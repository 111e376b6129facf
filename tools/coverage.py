#!/usr/bin/env python3
"""Lists the lines of the non-test Go files in /repo that no comment of the model cites."""
import glob, os, re
repo = "/repo"
here = os.path.dirname(os.path.abspath(__file__))
files = {os.path.relpath(f, repo): open(f).read().split("\n") for f in glob.glob(repo + "/**/*.go", recursive=True) if not f.endswith("_test.go")}
default = {"Storage": "storage/", "StorageConc": "storage/", "P2P": "p2p/", "BlockFuture": "p2p/", "FlagConc": "p2p/", "Multitracker": "p2p/", "MultitrackerConc": "p2p/",
           "RequestPiece": "p2p/", "PeerWire": "api/peer/", "Assoc": "p2p/", "Paths": "storage/"}
cov = {f: set() for f in files}
for path in glob.glob(here + "/../lean/Verif/Model/**/*.lean", recursive=True):
    base = os.path.basename(path)[:-5]
    for m in re.finditer(r"([A-Za-z0-9_/]+\.go)((?::|, |,| and )\d+(?:[-–]\d+)?(?:(?:, | and |,)\d+(?:[-–]\d+)?)*)", open(path).read()):
        name = m.group(1).replace("/repo/", "").lstrip("/")
        c = [f for f in files if f.endswith("/" + name) or f == name]
        if len(c) > 1:
            c = [f for f in c if f.startswith(default.get(base, "?"))] or c
        for f in c[:1]:
            for r in re.finditer(r"(\d+)(?:[-–](\d+))?", m.group(2)):
                a, b = int(r.group(1)), int(r.group(2) or r.group(1))
                cov[f].update(range(a, b + 1))
for f, ls in sorted(files.items()):
    miss = [k for k, l in enumerate(ls, 1) if l.strip() and l.strip() not in ("}", ")", "})") and not l.startswith(("package", "import")) and k not in cov[f]]
    print(f, f"{len(miss)} of {len(ls)} lines not cited")
    for k in miss:
        print(f"  {k:4} {ls[k-1]}")

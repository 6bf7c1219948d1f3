#!/usr/bin/env python3
"""setstatus.py Cxx status note... : record the status of a property in status.json."""
import json, pathlib, sys
p = pathlib.Path(__file__).with_name("status.json")
d = json.loads(p.read_text())
d[sys.argv[1]] = {"status": sys.argv[2], "note": " ".join(sys.argv[3:])}
p.write_text(json.dumps(dict(sorted(d.items())), indent=1) + "\n")

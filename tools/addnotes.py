"""Merge notes given as JSON on stdin into tools/notes.json."""
import json, sys, os
p = os.path.join(os.path.dirname(__file__), 'notes.json')
d = json.load(open(p))
d.update(json.load(sys.stdin))
s = "{\n" + ",\n".join(json.dumps(k) + ": " + json.dumps(d[k]) for k in sorted(d, key=lambda x: int(x[1:]))) + "\n}\n"
open(p, 'w').write(s)

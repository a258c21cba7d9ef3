#!/usr/bin/env python3
"""note.py Cnn status text: record the manifest status of a property."""
import json, sys
f = '/verif/tools/notes.json'; d = json.load(open(f))
d[sys.argv[1]] = {"status": sys.argv[2], "note": sys.argv[3]}
json.dump(d, open(f, 'w'), indent=1, ensure_ascii=False)

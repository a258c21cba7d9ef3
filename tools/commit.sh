#!/bin/sh
# regenerate the manifest, commit, run the gate
cd /verif && python3 tools/props.py >/dev/null && python3 tools/manifest.py && git add -A && git commit -qm "$1" && vcheck 2>&1 | tail -1

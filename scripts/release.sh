#!/bin/bash
# build, regenerate MANIFEST.json and DESIGN.md, commit: scripts/release.sh "message"
cd /verif/lean && lake build > /tmp/w/build.log 2>&1 || { grep -A12 error /tmp/w/build.log | head -60; exit 1; }
cd /verif && python3 scripts/manifest.py && mkdir -p /tmp/w/ax && scripts/axioms.sh /tmp/w/ax/out.txt && python3 scripts/design.py /tmp/w/ax/out.txt
git add -A && git commit -qm "$1" && vcheck > /tmp/w/vc.txt 2>&1; tail -c 300 /tmp/w/vc.txt

#!/bin/sh
# Print the axioms of every theorem of MANIFEST.json to the file $1 (needs a finished `lake build`).
cd "$(dirname "$0")/.." || exit 1
f=$(mktemp /tmp/axioms.XXXXXX.lean)
python3 -c "
import json
print('import Verif')
for c in json.load(open('MANIFEST.json'))['claims']:
    for t in c['theorems']: print('#print axioms', t)" > "$f"
cd lean && lake env lean "$f" > "$1" 2>&1
rm -f "$f"

#!/bin/sh
# Writes AXIOMS.txt: the axioms each theorem of MANIFEST.json depends on (`#print axioms`). Needs a finished `lake build`.
cd "$(dirname "$0")/../lean" || exit 1
f=$(mktemp /tmp/axXXXXXX.lean)
{ echo "import Verif"; python3 -c "
import json
for c in json.load(open('../MANIFEST.json'))['claims']:
    for t in c['theorems']: print('#print axioms', t)
"; } > "$f"
lake env lean "$f" | tr '\n' ' ' | sed "s/ *'\(Shellous\)/\n\1/g; s/' / /g; s/  */ /g" | sed '/^ *$/d' > ../AXIOMS.txt
rm -f "$f"
wc -l ../AXIOMS.txt

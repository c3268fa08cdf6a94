#!/bin/sh
# Compiles Verif.Runs.Main with the modules it imports and runs it. Needs a built project (lake build in lean/).
cd "$(dirname "$0")/../lean" || exit 1
tmp=$(mktemp -d)
python3 - > "$tmp/mods" <<'P'
import re
seen = []
def go(m):
    if m in seen: return
    seen.append(m)
    for x in re.findall(r"^import (Verif\.\S+)", open(m.replace(".", "/") + ".lean").read(), re.M): go(x)
go("Verif.Runs.Main")
print("\n".join(seen))
P
objs=""
for m in $(cat "$tmp/mods"); do
  leanc -O2 -c ".lake/build/ir/$(echo "$m" | tr . /).c" -o "$tmp/$m.o" || exit 1
  objs="$objs $tmp/$m.o"
done
leanc -o "$tmp/runs" $objs && "$tmp/runs"
status=$?
rm -r "$tmp"
exit $status

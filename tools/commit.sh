#!/bin/bash
# Regenerate Verif.lean, build, regenerate properties and manifest, commit, vcheck.
cd /verif/lean && find Verif -name '*.lean' | sort | sed 's#/#.#g; s#\.lean$##; s#^#import #' > Verif.lean
lake build > /tmp/build.log 2>&1 || { grep -A8 error /tmp/build.log | head -40; exit 1; }
cd /verif
python3 tools/gen_properties.py; python3 tools/gen_manifest.py; python3 tools/axioms.py; python3 tools/gen_design.py; git add -A; git commit -qm "$1"
[ "$2" = "novc" ] || vcheck | tail -1

#!/bin/bash
# Regenerate the import list, build, commit with the given message.
set -e
cd /verif/lean
python3 /verif/tools/audit.py
{ for f in $(find Verif -name '*.lean' | LC_ALL=C sort); do echo "import $(echo ${f%.lean} | tr / .)"; done; } > Verif.lean
lake build 2>&1 | grep -E "error|Build" | head -20
cd /verif
git add -A
git commit -qm "$1"
git log --oneline | head -1

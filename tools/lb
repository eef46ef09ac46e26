#!/bin/sh
# build modules and show the first errors (and uses of sorry)
cd /verif/lean && lake build "$@" 2>&1 | grep -v "Hint\|Note\|apply\]" | grep -A${CTX:-25} "error:\|sorry\|rror:" | grep -v "^warning" | head -${LINES_MAX:-120}
exit 0

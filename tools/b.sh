#!/bin/sh
# regenerate the root module and build, showing only problems
python3 /verif/tools/mkroot.py
cd /verif/lean && lake build 2>&1 | grep -v -e '✔' -e '^trace' | head -${1:-80}

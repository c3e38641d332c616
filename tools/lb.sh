#!/bin/bash
# build one module and show trimmed errors
cd /verif/lean
lake build $1 2>&1 | grep -E -A${2:-14} "^error" | cut -c1-${3:-260} | head -${4:-90}

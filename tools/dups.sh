#!/bin/sh
# Names declared twice (those in nested namespaces may be harmless).
cd /verif/lean && grep -rhoE "^(theorem|def|inductive|structure|abbrev) [A-Za-z0-9_.'?]+" Verif | awk '{print $2}' | sort | uniq -d | tr '\n' ' '

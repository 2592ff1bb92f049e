#!/bin/bash
# Runs the model (tokenizer, parser, loader, generator, printer) on /repo/integration_tests/types and compares with /repo/test_data/types.ts.
set -e
cp "$(dirname "$0")/check_ts.lean.txt" /tmp/check_ts.lean
cd /verif/lean && lake build Verif.Front.Loader Verif.Spec.Identifier Verif.TsGen.Print > /dev/null
lake env lean --run /tmp/check_ts.lean /repo/integration_tests/types $(cd /repo/integration_tests/types; find . -name '*.t' | sed 's/^\.\///') > /tmp/model_types.ts
cmp /tmp/model_types.ts /repo/test_data/types.ts && echo "identical"

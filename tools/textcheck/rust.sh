#!/bin/bash
# Runs the model (tokenizer, parser, loader, generator, printer) on /repo/integration_tests/types and compares with /repo/test_data/types.rs.
set -e
cp "$(dirname "$0")/check_rust.lean.txt" /tmp/check_rust.lean
cd /verif/lean && lake build Verif.Front.Loader Verif.Spec.Identifier Verif.Gen.RustFile > /dev/null
lake env lean --run /tmp/check_rust.lean /repo/integration_tests/types $(cd /repo/integration_tests/types; find . -name '*.t' | sed 's/^\.\///') > /tmp/model_types.rs
cmp /tmp/model_types.rs /repo/test_data/types.rs && echo "identical"

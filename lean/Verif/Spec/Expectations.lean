import Verif.Front.Tokenizer

/-!
# Specification: what the expectations in messages stand for
-/

namespace Typical

/-- Expectations which stand for certain tokens. -/
def fixedExpectations : List (String × TokVariant) :=
  [("`:`", .colon), ("`=`", .equals), ("`]`", .rightSquare), ("`{`", .leftCurly), ("`}`", .rightCurly), ("`import`", .import),
    ("`as`", .as), ("a declaration", .struct), ("a declaration", .choice)]

/-- Expectations which stand for a name. -/
def nameExpectations : List String :=
  ["a name for the struct", "a name for the choice", "a name for the import", "the name of an import", "a field", "a type"]

/-- The expectation stands for this token (among others). -/
def Names (what : String) (v : TokVariant) : Prop :=
  (what, v) ∈ fixedExpectations ∨ (what ∈ nameExpectations ∧ ∃ i, v = .identifier i) ∨
    (what = "an index for the field" ∧ ∃ n, v = .integer n) ∨ (what = "the path of a file to import" ∧ ∃ p, v = .path p)

end Typical

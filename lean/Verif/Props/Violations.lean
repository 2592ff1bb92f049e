import Verif.Front.ViolationLemmas
import Verif.Props.Validator

/-!
# Property C59: the validator reports exactly what is wrong, and where

`Schemas.Violation` lists what can be wrong with a file, cycles apart: `Verif.Spec.Violations`.
-/

namespace Typical

/-- **C59.** If something is wrong with some file, cycles apart, then the reported errors are exactly the violations, in all files,
each with its file and the range of the offending declaration, field or type expression. -/
theorem C59_errors_exact (S : Schemas) (hl : S.Loaded) (errors : List VErr) (h : validate S = .ok errors)
    (bad : ∃ e ∈ S, ∃ v, S.Violation e.1 e.2 v) (v : VErr) : v ∈ errors ↔ ∃ e ∈ S, S.Violation e.1 e.2 v := by
  obtain ⟨es, h1, -⟩ := checkSchemas_spec hl S (fun _ h => h)
  have h2 := mem_checkSchemas hl S (fun _ h => h) es h1
  unfold validate at h
  rw [h1] at h
  cases es with
  | nil =>
    obtain ⟨e, he, w, hw⟩ := bad
    exact absurd ((h2 w).mpr ⟨e, he, hw⟩) (by simp)
  | cons e es =>
    cases h
    exact h2 v

/-- **C59 (nothing else wrong).** If there is no violation, the only errors are cycles. -/
theorem C59_only_cycles (S : Schemas) (hl : S.Loaded) (errors : List VErr) (h : validate S = .ok errors)
    (good : ∀ e ∈ S, ∀ v, ¬ S.Violation e.1 e.2 v) :
    ∀ e ∈ errors, ∃ path k, e = .cycle (path ++ [k]) ∧ IsWalk S.Contains (path ++ [k]) ∧ k ∈ path := by
  obtain ⟨es, h1, h3⟩ := checkSchemas_spec hl S (fun _ h => h)
  have h2 := mem_checkSchemas hl S (fun _ h => h) es h1
  have : es = [] := by
    cases es with
    | nil => rfl
    | cons v es =>
      obtain ⟨e, he, hv⟩ := (h2 v).mp List.mem_cons_self
      exact absurd hv (good e he v)
  obtain ⟨a, b⟩ := h3.mp this
  exact C29_sound S hl a b errors h

/-- **C59 (violations).** The files are free of violations if and only if they are well-formed, cycles apart: the violations are a
complete list of what the specification of well-formedness forbids. -/
theorem C59_no_violation (S : Schemas) (hl : S.Loaded) :
    (∀ e ∈ S, ∀ v, ¬ S.Violation e.1 e.2 v) ↔
      (∀ e ∈ S, (e.2.declarations.map (fun d => d.name.snakeCase)).Nodup) ∧
        ∀ e ∈ S, ∀ d ∈ e.2.declarations, S.DeclarationOk e.1 e.2 d := by
  obtain ⟨es, h1, h3⟩ := checkSchemas_spec hl S (fun _ h => h)
  have h2 := mem_checkSchemas hl S (fun _ h => h) es h1
  rw [← h3]
  constructor
  · intro good
    cases es with
    | nil => rfl
    | cons v es =>
      obtain ⟨e, he, hv⟩ := (h2 v).mp List.mem_cons_self
      exact absurd hv (good e he v)
  · rintro rfl e he v hv
    exact absurd ((h2 v).mpr ⟨e, he, hv⟩) (by simp)

/-! ### Examples -/

/-- `struct s { a: U64 = 0, a: [g.t] = 0, b: s2 = 3, deleted 3 }`, twice, without imports. -/
def exampleBad : Schemas :=
  [(⟨[ident "main"]⟩, ⟨[], [],
    [⟨⟨0, 40⟩, [], .struct, ident "s",
      [⟨⟨10, 15⟩, [], .required, ident "a", ⟨⟨13, 15⟩, .u64⟩, 0⟩,
       ⟨⟨16, 20⟩, [], .required, ident "a", ⟨⟨17, 19⟩, .array ⟨18, 19⟩ (.custom (some (ident "g")) (ident "t"))⟩, 0⟩,
       ⟨⟨21, 25⟩, [], .required, ident "b", ⟨⟨22, 24⟩, .custom none (ident "s2")⟩, 3⟩], [3]⟩,
     ⟨⟨41, 50⟩, [], .struct, ident "s", [], []⟩]⟩)]

theorem exampleBad_loaded : exampleBad.Loaded := by
  constructor <;> decide +kernel

/-- Eight errors; the gaps are computed from two distinct indices and one deleted one. -/
example : validate exampleBad = .ok [
    .duplicateFieldName ⟨[ident "main"]⟩ ⟨16, 20⟩ (ident "a"), .duplicateFieldIndex ⟨[ident "main"]⟩ ⟨16, 20⟩ 0,
    .noImport ⟨[ident "main"]⟩ ⟨18, 19⟩ (ident "g"), .deletedIndex ⟨[ident "main"]⟩ ⟨21, 25⟩ 3,
    .noType ⟨[ident "main"]⟩ ⟨22, 24⟩ none (ident "s2"), .indexGap ⟨[ident "main"]⟩ ⟨0, 40⟩ 1,
    .indexGap ⟨[ident "main"]⟩ ⟨0, 40⟩ 2, .duplicateDeclaration ⟨[ident "main"]⟩ ⟨41, 50⟩ (ident "s")] := by decide +kernel

example : ∃ e ∈ exampleBad, ∃ v, exampleBad.Violation e.1 e.2 v :=
  ⟨_, List.mem_cons_self, _, .duplicateDeclaration ⟨⟨41, 50⟩, [], .struct, ident "s", [], []⟩
    ⟨[_], [], rfl, _, List.mem_singleton.mpr rfl, rfl⟩⟩

example : ∀ e ∈ exampleSchemas, ∀ v, ¬ exampleSchemas.Violation e.1 e.2 v :=
  (C59_no_violation _ exampleSchemas_loaded).mpr
    (let h := (C28_accepts_exactly_well_formed _ exampleSchemas_loaded).mp (by decide +kernel); ⟨h.names, h.declarations⟩)

end Typical

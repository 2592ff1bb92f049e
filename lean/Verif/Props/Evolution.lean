import Verif.Front.EvolutionLemmas
import Verif.Props.Compat
import Verif.Props.TypeScript
import Verif.Props.Validator

/-!
# Property C57: compatible versions of schema files

C16, C17 and C25 speak about wire types. Here they are connected with what users edit: declarations in schema files, which refer to each
other by names.
-/

namespace Typical

/-- The wire types of corresponding declarations are compatible. -/
theorem versions_compat {S S' : Schemas} (hl : S.Loaded) (hl' : S'.Loaded) (hv : validate S = .ok []) (hv' : validate S' = .ok [])
    {R : TypeKey → TypeKey → Prop} (hR : CompatibleSchemas S S' R) {k k' : TypeKey} (h : R k k') {c c' : CTy}
    (hc : S.Denotes k c) (hc' : S'.Denotes k' c') : c.Compat c' := by
  have hw := (C28_accepts_exactly_well_formed S hl).mp hv
  have hw' := (C28_accepts_exactly_well_formed S' hl').mp hv'
  exact Denotes.compat hl hl' hw.names hw'.names (fun e he d hd =>
    (nodup_append_iff.mp ((hw'.declarations e he d hd).indices.nodup_iff.mpr List.nodup_range)).1) hR h hc' hc

/-- **C57.** If all corresponding declarations of two valid versions of some schemas are related by the documented rules, then each pair
of them can read each other's messages, and the shared fields carry the written values, at all depths. -/
theorem C57_versions (S S' : Schemas) (hl : S.Loaded) (hl' : S'.Loaded) (hv : validate S = .ok []) (hv' : validate S' = .ok [])
    (R : TypeKey → TypeKey → Prop) (hR : CompatibleSchemas S S' R) (k k' : TypeKey) (h : R k k') :
    ∃ c c', S.Denotes k c ∧ S'.Denotes k' c' ∧ Reads c c' ∧ Reads c' c := by
  obtain ⟨ns, s, d, ns', s', d', h1, h2, -⟩ := hR k k' h
  obtain ⟨c, hc, hcw, -⟩ := C30_wire_type S hl hv k ns s d h1
  obtain ⟨c', hc', hcw', -⟩ := C30_wire_type S' hl' hv' k' ns' s' d' h2
  obtain ⟨r1, r2⟩ := C17_compatible_safe c c' hcw hcw' (versions_compat hl hl' hv hv' hR h hc hc')
  exact ⟨c, c', hc, hc', r1, r2⟩

/-- **C57 (TypeScript).** The same for a TypeScript reader and a writer in either language. -/
theorem C57_versions_typescript (S S' : Schemas) (hl : S.Loaded) (hl' : S'.Loaded) (hv : validate S = .ok [])
    (hv' : validate S' = .ok []) (R : TypeKey → TypeKey → Prop) (hR : CompatibleSchemas S S' R) (k k' : TypeKey) (h : R k k')
    (c c' : CTy) (hc : S.Denotes k c) (hc' : S'.Denotes k' c') :
    (∀ (m : c.Msg .out), size c m < 2 ^ 64 → (c.tree m).JsSafe → ∃ bs v, serialize c m = some bs ∧ Ts.serialize c m = some bs ∧
      Ts.deserialize c' bs = .ok v ∧ c'.tree v = c'.project (c.tree m)) ∧
    (∀ (m : c'.Msg .out), size c' m < 2 ^ 64 → (c'.tree m).JsSafe → ∃ bs v, serialize c' m = some bs ∧
      Ts.serialize c' m = some bs ∧ Ts.deserialize c bs = .ok v ∧ c.tree v = c.project (c'.tree m)) := by
  obtain ⟨ns, s, d, ns', s', d', h1, h2, -⟩ := hR k k' h
  obtain ⟨_, -, hcw, hu⟩ := C30_wire_type S hl hv k ns s d h1
  obtain ⟨_, -, hcw', hu'⟩ := C30_wire_type S' hl' hv' k' ns' s' d' h2
  rw [← hu c hc] at hcw
  rw [← hu' c' hc'] at hcw'
  have hcomp := versions_compat hl hl' hv hv' hR h hc hc'
  exact ⟨fun m hm hj => C25_compatible_readers c c' hcw hcw' hcomp m hm hj,
    fun m hm hj => C25_compatible_readers c' c hcw' hcw (CTy.Compat.symm c hcw c' hcw' hcomp) m hm hj⟩

/-! ### Edits -/

theorem sameType_refl {S : Schemas} {ns : Namespace} {s s' : Schema} (hi : s'.imports = s.imports) (v : TypeVariant)
    (h : ∀ i n, v.Mentions i n → ∃ k, s.RefersTo ns i n k ∧ ∃ ns' s' d', S.Declares k ns' s' d') :
    SameType (fun k k' => k' = k ∧ ∃ ns s d, S.Declares k ns s d) ns ns s s' v v := by
  induction v with
  | array r v ih => exact .array (ih (fun i n hm => h i n (.array hm)))
  | custom i n =>
    obtain ⟨k, h1, h2⟩ := h i n (.custom _ _)
    refine .custom h1 (k' := k) ?_ ⟨rfl, h2⟩
    cases i with
    | none => exact h1
    | some i =>
      show ∃ e ∈ s'.imports, _
      rw [hi]
      exact h1
  | bool => exact .bool
  | bytes => exact .bytes
  | f64 => exact .f64
  | s64 => exact .s64
  | string => exact .string
  | u64 => exact .u64
  | unit => exact .unit

/-- Safe edits give related declarations. -/
theorem safeEdits_compatible (S : Schemas) (hl : S.Loaded) (hv : validate S = .ok []) (edit : Declaration → Declaration)
    (he : ∀ e ∈ S, ∀ d ∈ e.2.declarations, SafeEdit d (edit d)) :
    CompatibleSchemas S (editSchemas edit S) (fun k k' => k' = k ∧ ∃ ns s d, S.Declares k ns s d) := by
  have hw := (C28_accepts_exactly_well_formed S hl).mp hv
  rintro k _ ⟨rfl, ns, s, d, hd⟩
  have hs := he _ hd.1 d hd.2.1
  refine ⟨ns, s, d, ns, { s with declarations := s.declarations.map edit }, edit d, hd, ⟨?_, ?_, ?_⟩, .same hs.variant.symm ?_ hs.new⟩
  · exact List.mem_map.mpr ⟨(ns, s), hd.1, rfl⟩
  · exact List.mem_map.mpr ⟨d, hd.2.1, rfl⟩
  · rw [hs.name]; exact hd.2.2
  · intro f hf
    rcases hs.old f hf with ⟨f', h1, h2, h3, h4⟩ | h
    · exact .inl ⟨f', h1, h2, h3, by
        rw [h4]
        exact sameType_refl (S := S) (ns := ns) (s := s) (s' := { s with declarations := s.declarations.map edit }) rfl _ ((hw.declarations _ hd.1 _ hd.2.1).types f hf)⟩
    · exact .inr h

/-- **C57 (edits).** If all declarations in some valid schemas are changed by safe edits - removing fields which are not required, adding
fields which are not required, changing rules to or from asymmetric, renaming and reordering fields, marking indices as deleted - and the
result is valid, then the old and the new version of each declaration can read each other's messages. -/
theorem C57_safe_edits (S : Schemas) (hl : S.Loaded) (hv : validate S = .ok []) (edit : Declaration → Declaration)
    (he : ∀ e ∈ S, ∀ d ∈ e.2.declarations, SafeEdit d (edit d)) (hl' : (editSchemas edit S).Loaded)
    (hv' : validate (editSchemas edit S) = .ok []) (k : TypeKey) (ns : Namespace) (s : Schema) (d : Declaration)
    (hd : S.Declares k ns s d) :
    ∃ c c', S.Denotes k c ∧ (editSchemas edit S).Denotes k c' ∧ Reads c c' ∧ Reads c' c := by
  exact C57_versions S _ hl hl' hv hv' _ (safeEdits_compatible S hl hv edit he) k k ⟨rfl, _, _, _, hd⟩

/-- An edit of `exampleSchemas`: in `shape`, the field `name` becomes asymmetric, the optional field `kind` is removed and its index
marked as deleted, and an asymmetric field with index 4 is added at the front; in `kind` the asymmetric field becomes
optional, with another name. -/
def exampleEdit (d : Declaration) : Declaration :=
  if d.name.snakeCase = "shape".toList then
    { d with
      fields := [exampleField "label" .asymmetric .string 4,
        exampleField "name" .asymmetric .string 0,
        exampleField "points" .required (.array ⟨0, 0⟩ (.array ⟨0, 0⟩ (.custom (some (ident "g")) (ident "point")))) 2]
      deleted := [1, 3] }
  else if d.name.snakeCase = "kind".toList then
    { d with fields := [exampleField "a" .required .unit 0, exampleField "c" .optional .u64 1] }
  else d

theorem exampleEdit_safe : ∀ e ∈ exampleSchemas, ∀ d ∈ e.2.declarations, SafeEdit d (exampleEdit d) := by
  have h : ∀ e ∈ exampleSchemas, ∀ d ∈ e.2.declarations, (exampleEdit d).variant = d.variant ∧
      (exampleEdit d).name.snakeCase = d.name.snakeCase ∧
      (∀ f ∈ d.fields, (∃ f' ∈ (exampleEdit d).fields, f'.index = f.index ∧
        (f.rule = f'.rule ∨ f.rule = .asymmetric ∨ f'.rule = .asymmetric) ∧ f'.type.variant = f.type.variant) ∨
        (f.rule ≠ .required ∧ ∀ f' ∈ (exampleEdit d).fields, f'.index ≠ f.index)) ∧
      (∀ f' ∈ (exampleEdit d).fields, (∃ f ∈ d.fields, f.index = f'.index) ∨ f'.rule ≠ .required) := by
    decide +kernel
  intro e he d hd
  obtain ⟨h1, h2, h3, h4⟩ := h e he d hd
  exact ⟨h1, h2, h3, h4⟩

theorem exampleEdited_loaded : (editSchemas exampleEdit exampleSchemas).Loaded := by
  constructor <;> decide +kernel

example : ∃ c c', exampleSchemas.Denotes ([['m', 'a', 'i', 'n']], ['s', 'h', 'a', 'p', 'e']) c ∧
    (editSchemas exampleEdit exampleSchemas).Denotes ([['m', 'a', 'i', 'n']], ['s', 'h', 'a', 'p', 'e']) c' ∧
    Reads c c' ∧ Reads c' c := by
  refine C57_safe_edits exampleSchemas exampleSchemas_loaded (by decide +kernel) exampleEdit exampleEdit_safe exampleEdited_loaded (by decide +kernel) _
    ⟨[ident "main"]⟩ exampleMain (exampleMain.declarations[0]) ⟨.tail _ (.head _), .head _, by decide +kernel⟩

end Typical

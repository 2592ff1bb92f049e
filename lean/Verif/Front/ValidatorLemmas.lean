import Verif.Front.Validator
import Verif.Spec.Schema
import Mathlib.Data.List.Perm.Subperm

/-!
# Lemmas about the model of the validator
-/

namespace Typical

/-! ### Resolution of names -/

theorem allTypes_isSome {S : Schemas} {k : TypeKey} :
    (allTypes S k).isSome ↔ k ∈ (typeEntries S).map Prod.fst := by
  unfold allTypes
  rw [Option.isSome_map, List.find?_isSome]
  simp

theorem mem_typeEntries {S : Schemas} {k : TypeKey} {s : Schema} {d : Declaration} :
    (k, s, d) ∈ typeEntries S ↔ ∃ ns, S.Declares k ns s d := by
  unfold typeEntries Schemas.Declares
  simp only [List.mem_flatMap, List.mem_map, Prod.mk.injEq]
  constructor
  · rintro ⟨⟨ns, s'⟩, hm, d', hd, rfl, rfl, rfl⟩
    exact ⟨ns, hm, hd, rfl⟩
  · rintro ⟨ns, hm, hd, rfl⟩
    exact ⟨(ns, s), hm, d, hd, rfl, rfl, rfl⟩

theorem allTypes_isSome_iff {S : Schemas} {k : TypeKey} :
    (allTypes S k).isSome ↔ ∃ ns s d, S.Declares k ns s d := by
  rw [allTypes_isSome, List.mem_map]
  constructor
  · rintro ⟨⟨k', s, d⟩, h, rfl⟩
    obtain ⟨ns, h⟩ := mem_typeEntries.mp h
    exact ⟨ns, s, d, h⟩
  · rintro ⟨ns, s, d, h⟩
    exact ⟨(k, s, d), mem_typeEntries.mpr ⟨ns, h⟩, rfl⟩

theorem allTypes_some {S : Schemas} {k : TypeKey} {s : Schema} {d : Declaration} (h : allTypes S k = some (s, d)) :
    ∃ ns, S.Declares k ns s d := by
  unfold allTypes at h
  rw [Option.map_eq_some_iff] at h
  obtain ⟨⟨k', s', d'⟩, h, he⟩ := h
  have h1 := List.mem_of_find?_eq_some h
  have h2 := List.find?_some h
  simp only [beq_iff_eq] at h2
  cases he
  subst h2
  exact mem_typeEntries.mp (List.mem_reverse.mp h1)

theorem eq_of_nodup_map {α β : Type} {f : α → β} {l : List α} (hn : (l.map f).Nodup) {a b : α} (ha : a ∈ l)
    (hb : b ∈ l) (h : f a = f b) : a = b := by
  induction l with
  | nil => cases ha
  | cons x l ih =>
    rw [List.map_cons, List.nodup_cons] at hn
    rcases List.mem_cons.mp ha with e | ha' <;> rcases List.mem_cons.mp hb with e' | hb'
    · rw [e, e']
    · exact absurd (List.mem_map.mpr ⟨b, hb', by rw [← h, e]⟩) hn.1
    · exact absurd (List.mem_map.mpr ⟨a, ha', by rw [h, e']⟩) hn.1
    · exact ih hn.2 ha' hb'

/-- Declarations are determined by their keys. -/
theorem Declares.unique {S : Schemas} (hl : S.Loaded)
    (hn : ∀ e ∈ S, (e.2.declarations.map (fun d => d.name.snakeCase)).Nodup) {k : TypeKey} {ns ns' : Namespace}
    {s s' : Schema} {d d' : Declaration} (h : S.Declares k ns s d) (h' : S.Declares k ns' s' d') :
    ns = ns' ∧ s = s' ∧ d = d' := by
  obtain ⟨h1, h2, h3⟩ := h
  obtain ⟨h1', h2', h3'⟩ := h'
  have he := h3.symm.trans h3'
  rw [Prod.mk.injEq] at he
  have := eq_of_nodup_map hl.namespaces h1 h1' he.1
  cases this
  refine ⟨rfl, rfl, ?_⟩
  exact eq_of_nodup_map (hn _ h1) h2 h2' he.2

theorem Declares.allTypes {S : Schemas} (hl : S.Loaded)
    (hn : ∀ e ∈ S, (e.2.declarations.map (fun d => d.name.snakeCase)).Nodup) {k : TypeKey} {ns : Namespace}
    {s : Schema} {d : Declaration} (h : S.Declares k ns s d) : allTypes S k = some (s, d) := by
  obtain ⟨⟨s', d'⟩, he⟩ := Option.isSome_iff_exists.mp (allTypes_isSome_iff.mpr ⟨ns, s, d, h⟩)
  obtain ⟨ns', h'⟩ := allTypes_some he
  obtain ⟨-, rfl, rfl⟩ := Declares.unique hl hn h h'
  exact he

theorem lookupIdent_some {α : Type} {i : Identifier} {l : List (Identifier × α)} {a : α}
    (h : lookupIdent i l = some a) : ∃ e ∈ l, e.1.snakeCase = i.snakeCase ∧ e.2 = a := by
  induction l with
  | nil => cases h
  | cons e l ih =>
    obtain ⟨k, b⟩ := e
    unfold lookupIdent at h
    split at h
    · next hk => exact ⟨(k, b), List.mem_cons_self, hk, Option.some.inj h⟩
    · obtain ⟨e, he, h1, h2⟩ := ih h
      exact ⟨e, List.mem_cons_of_mem _ he, h1, h2⟩

theorem lookupIdent_of_mem {α : Type} {i : Identifier} {l : List (Identifier × α)}
    (hn : (l.map (fun e => e.1.snakeCase)).Nodup) {e : Identifier × α} (he : e ∈ l)
    (hi : e.1.snakeCase = i.snakeCase) : lookupIdent i l = some e.2 := by
  cases h : lookupIdent i l with
  | some a =>
    obtain ⟨e', he', h1, h2⟩ := lookupIdent_some h
    have := eq_of_nodup_map hn he he' (hi.trans h1.symm)
    subst this
    rw [h2]
  | none =>
    exfalso
    clear hn
    induction l with
    | nil => cases he
    | cons x l ih =>
      obtain ⟨k, b⟩ := x
      unfold lookupIdent at h
      split at h
      · cases h
      · next hk =>
        rcases List.mem_cons.mp he with rfl | he
        · exact hk hi
        · exact ih he h

/-- The key which a type expression refers to, if any. -/
def typeTarget (s : Schema) (ns : List Str) : TypeVariant → List TypeKey
  | .array _ inner => typeTarget s ns inner
  | .custom none name => [(ns, name.snakeCase)]
  | .custom (some i) name =>
    match lookupIdent i s.imports with
    | none => []
    | some im =>
      match im.namespace_ with
      | none => []
      | some n => [(n.key, name.snakeCase)]
  | .bool => []
  | .bytes => []
  | .f64 => []
  | .s64 => []
  | .string => []
  | .u64 => []
  | .unit => []

theorem mem_typeTarget {s : Schema} {ns : Namespace} (hn : (s.imports.map (fun i => i.1.snakeCase)).Nodup)
    (t : TypeVariant) (k : TypeKey) :
    k ∈ typeTarget s ns.key t ↔ ∃ i n, t.Mentions i n ∧ s.RefersTo ns i n k := by
  induction t with
  | array r t ih =>
    unfold typeTarget
    rw [ih]
    constructor
    · rintro ⟨i, n, h, h'⟩; exact ⟨i, n, .array h, h'⟩
    · rintro ⟨i, n, h, h'⟩; cases h with | array h => exact ⟨i, n, h, h'⟩
  | custom i n =>
    constructor
    · intro h
      refine ⟨i, n, .custom i n, ?_⟩
      cases i with
      | none => exact List.mem_singleton.mp h
      | some i =>
        unfold typeTarget at h
        split at h
        · cases h
        · next im hi =>
          split at h
          · cases h
          · next m hm =>
            obtain ⟨e, he, h1, h2⟩ := lookupIdent_some hi
            exact ⟨e, he, h1, m, by rw [h2, hm], List.mem_singleton.mp h⟩
    · rintro ⟨i', n', h, h'⟩
      cases h
      cases i with
      | none => exact List.mem_singleton.mpr h'
      | some i =>
        obtain ⟨e, he, h1, m, h2, h3⟩ := h'
        unfold typeTarget
        rw [lookupIdent_of_mem hn he h1]
        simp only [h2, List.mem_singleton]
        exact h3
  | bool | bytes | f64 | s64 | string | u64 | unit =>
    constructor
    · intro h; cases h
    · rintro ⟨i, n, h, -⟩; cases h

/-- Validation of a type expression does not panic if imports are resolved, and accepts exactly the resolvable ones. -/
theorem validateType_spec {S : Schemas} (hl : S.Loaded) {ns : Namespace} {s : Schema} (hs : (ns, s) ∈ S)
    (t : TypeVariant) : ∀ range,
    ∃ es, validateType S ns s range t = .ok es ∧
      (es = [] ↔ ∀ i n, t.Mentions i n → ∃ k, s.RefersTo ns i n k ∧ ∃ ns' s' d', S.Declares k ns' s' d') := by
  induction t with
  | array r t ih =>
    intro _
    obtain ⟨es, h1, h2⟩ := ih r
    refine ⟨es, h1, h2.trans ?_⟩
    constructor
    · intro h i n hm; cases hm with | array hm => exact h i n hm
    · intro h i n hm; exact h i n (.array hm)
  | custom i n =>
    intro range
    cases i with
    | none =>
      refine ⟨_, rfl, ?_⟩
      constructor
      · intro h i' n' hm
        cases hm
        split at h
        · next hk => exact ⟨_, rfl, allTypes_isSome_iff.mp hk⟩
        · cases h
      · intro h
        obtain ⟨k, hk, hd⟩ := h none n (.custom _ _)
        cases hk
        rw [if_pos (allTypes_isSome_iff.mpr hd)]
    | some i =>
      unfold validateType
      cases hi : lookupIdent i s.imports with
      | none =>
        refine ⟨_, rfl, ?_⟩
        constructor
        · intro h; cases h
        · intro h
          obtain ⟨k, ⟨e, he, h1, -⟩, -⟩ := h (some i) n (.custom _ _)
          rw [lookupIdent_of_mem (hl.importNames _ hs) he h1] at hi
          cases hi
      | some im =>
        obtain ⟨e, he, h1, rfl⟩ := lookupIdent_some hi
        cases hm : e.2.namespace_ with
        | none => exact absurd hm (hl.resolved _ hs _ he)
        | some m =>
          simp only [hm]
          refine ⟨_, rfl, ?_⟩
          constructor
          · intro h i' n' hmm
            cases hmm
            split at h
            · next hk => exact ⟨_, ⟨e, he, h1, m, hm, rfl⟩, allTypes_isSome_iff.mp hk⟩
            · cases h
          · intro h
            obtain ⟨k, ⟨e', he', h1', m', hm', rfl⟩, hd⟩ := h (some i) n (.custom _ _)
            have := eq_of_nodup_map (hl.importNames _ hs) he he' (h1.trans h1'.symm)
            subst this
            rw [hm] at hm'
            cases hm'
            rw [if_pos (allTypes_isSome_iff.mpr hd)]
  | bool | bytes | f64 | s64 | string | u64 | unit =>
    intro _
    refine ⟨[], rfl, ?_⟩
    constructor
    · intro _ i n h; cases h
    · intro _; rfl

/-! ### Fields and declarations -/

theorem maxFieldIndex_eq : maxFieldIndex = 2 ^ 62 - 1 := by decide +kernel

theorem ite_nil_iff {α : Type} {p : Prop} [Decidable p] {a : α} : (if p then [a] else []) = [] ↔ ¬ p := by
  split <;> simp [*]

theorem checkFields_spec {S : Schemas} (hl : S.Loaded) {ns : Namespace} {s : Schema} (hs : (ns, s) ∈ S)
    (deleted : List Nat) (fs : List Field) (names : List Str) (indices : List Nat) :
    ∃ es ids, checkFields S ns s deleted fs names indices = .ok (es, ids) ∧
      (es = [] → ids = (fs.map (fun f => f.index)).reverse ++ indices) ∧
      (es = [] ↔
        ((fs.map (fun f => f.name.snakeCase)).Nodup ∧ ∀ f ∈ fs, f.name.snakeCase ∉ names) ∧
        ((fs.map (fun f => f.index)).Nodup ∧ ∀ f ∈ fs, f.index ∉ indices) ∧
        (∀ f ∈ fs, f.index ∉ deleted) ∧
        (∀ f ∈ fs, f.index ≤ 2 ^ 62 - 1) ∧
        (∀ f ∈ fs, ∀ i n, f.type.variant.Mentions i n →
          ∃ k, s.RefersTo ns i n k ∧ ∃ ns' s' d', S.Declares k ns' s' d')) := by
  induction fs generalizing names indices with
  | nil => exact ⟨[], indices, rfl, fun _ => rfl, by simp⟩
  | cons f fs ih =>
    obtain ⟨et, ht, htn⟩ := validateType_spec hl hs f.type.variant f.type.sourceRange
    obtain ⟨es, ids, h1, h2, h3⟩ := ih (setInsert f.name.snakeCase names) (setInsert f.index indices)
    unfold checkFields
    simp only [ht, h1]
    refine ⟨_, _, rfl, ?_, ?_⟩
    · intro h
      simp only [List.append_eq_nil_iff, ite_nil_iff] at h
      rw [h2 h.2, setInsert, if_neg h.1.1.1.1.2]
      simp
    · simp only [List.append_eq_nil_iff, ite_nil_iff, h3, htn, maxFieldIndex_eq, Nat.not_lt, gt_iff_lt]
      simp only [List.map_cons, List.nodup_cons, List.forall_mem_cons, List.mem_map, not_exists, not_and]
      constructor
      · rintro ⟨⟨⟨⟨⟨a1, a2⟩, a3⟩, a4⟩, a5⟩, ⟨b1, b1'⟩, ⟨b2, b2'⟩, b3, b4, b5⟩
        rw [setInsert, if_neg a1] at b1'
        rw [setInsert, if_neg a2] at b2'
        exact ⟨⟨⟨fun x hx e => b1' x hx (e ▸ List.mem_cons_self), b1⟩, a1,
            fun x hx e => b1' x hx (List.mem_cons_of_mem _ e)⟩,
          ⟨⟨fun x hx e => b2' x hx (e ▸ List.mem_cons_self), b2⟩, a2,
            fun x hx e => b2' x hx (List.mem_cons_of_mem _ e)⟩, ⟨a3, b3⟩, ⟨a4, b4⟩, a5, b5⟩
      · rintro ⟨⟨⟨c1, b1⟩, a1, c1'⟩, ⟨⟨c2, b2⟩, a2, c2'⟩, ⟨a3, b3⟩, ⟨a4, b4⟩, a5, b5⟩
        rw [setInsert, if_neg a1, setInsert, if_neg a2]
        refine ⟨⟨⟨⟨⟨a1, a2⟩, a3⟩, a4⟩, a5⟩, ⟨b1, ?_⟩, ⟨b2, ?_⟩, b3, b4, b5⟩
        · intro x hx e
          rcases List.mem_cons.mp e with e | e
          · exact c1 x hx e
          · exact c1' x hx e
        · intro x hx e
          rcases List.mem_cons.mp e with e | e
          · exact c2 x hx e
          · exact c2' x hx e

theorem indexGaps_nil {ns : Namespace} {range : SourceRange} {indices deleted : List Nat} :
    indexGaps ns range indices deleted = [] ↔ ∀ i < indices.length + deleted.length, i ∈ indices ∨ i ∈ deleted := by
  unfold indexGaps
  simp only [List.map_eq_nil_iff, List.filter_eq_nil_iff, List.mem_range, Bool.and_eq_true, Bool.not_eq_true',
    List.contains_eq_mem, decide_eq_false_iff_not, not_and, Decidable.not_not]
  constructor
  · intro h i hi
    by_cases hm : i ∈ indices
    · exact .inl hm
    · exact .inr (h i hi hm)
  · intro h i hi hm
    exact (h i hi).resolve_left hm

theorem nodup_append_iff {α : Type} {A D : List α} :
    (A ++ D).Nodup ↔ A.Nodup ∧ D.Nodup ∧ ∀ a ∈ A, a ∉ D := by
  rw [List.nodup_append]
  constructor
  · rintro ⟨a, b, c⟩; exact ⟨a, b, fun x hx hx' => c x hx x hx' rfl⟩
  · rintro ⟨a, b, c⟩; exact ⟨a, b, fun x hx y hy e => c x hx (e ▸ hy)⟩

/-- Without duplicates, "no gaps" means that the indices are an initial segment. -/
theorem initial_segment {A D : List Nat} :
    ((∀ i < A.length + D.length, i ∈ A ∨ i ∈ D) ∧ (A ++ D).Nodup) ↔
      (A ++ D).Perm (List.range (A.length + D.length)) := by
  constructor
  · rintro ⟨h, hn⟩
    have : List.range (A.length + D.length) ⊆ A ++ D := by
      intro i hi
      exact List.mem_append.mpr (h i (List.mem_range.mp hi))
    have := (List.nodup_range.subperm this).perm_of_length_le (by simp)
    exact this.symm
  · intro h
    refine ⟨?_, h.nodup_iff.mpr List.nodup_range⟩
    intro i hi
    exact List.mem_append.mp (h.mem_iff.mpr (List.mem_range.mpr hi))

/-- A declaration passes the checks of the first phase if and only if it is well-formed. -/
theorem declaration_spec {S : Schemas} (hl : S.Loaded) {ns : Namespace} {s : Schema} (hs : (ns, s) ∈ S)
    {d : Declaration} (hd : d ∈ s.declarations) :
    ∃ es ids, checkFields S ns s d.deleted d.fields [] [] = .ok (es, ids) ∧
      ((es = [] ∧ indexGaps ns d.sourceRange ids d.deleted = []) ↔ S.DeclarationOk ns s d) := by
  obtain ⟨es, ids, h1, h2, h3⟩ := checkFields_spec hl hs d.deleted d.fields [] []
  refine ⟨es, ids, h1, ?_⟩
  have hnd := hl.deleted _ hs _ hd
  have seg := initial_segment (A := d.fields.map (fun f => f.index)) (D := d.deleted)
  simp only [List.length_map] at seg
  constructor
  · rintro ⟨he, hg⟩
    obtain ⟨⟨a1, -⟩, ⟨a2, -⟩, a3, a4, a5⟩ := h3.mp he
    rw [h2 he, indexGaps_nil] at hg
    simp only [List.append_nil, List.length_reverse, List.length_map, List.mem_reverse] at hg
    refine ⟨a1, seg.mp ⟨hg, ?_⟩, a4, a5⟩
    rw [nodup_append_iff]
    refine ⟨a2, hnd, ?_⟩
    intro i hi hi'
    obtain ⟨f, hf, rfl⟩ := List.mem_map.mp hi
    exact a3 f hf hi'
  · rintro ⟨a1, a2, a4, a5⟩
    obtain ⟨g, n⟩ := seg.mpr a2
    rw [nodup_append_iff] at n
    have he : es = [] := h3.mpr ⟨⟨a1, fun _ _ h => nomatch h⟩, ⟨n.1, fun _ _ h => nomatch h⟩,
      fun f hf hx => n.2.2 _ (List.mem_map.mpr ⟨f, hf, rfl⟩) hx, a4, a5⟩
    refine ⟨he, ?_⟩
    rw [h2 he, indexGaps_nil]
    simpa using g

theorem checkDeclarations_spec {S : Schemas} (hl : S.Loaded) {ns : Namespace} {s : Schema} (hs : (ns, s) ∈ S)
    (ds : List Declaration) (hds : ∀ d ∈ ds, d ∈ s.declarations) (names : List Str) :
    ∃ es, checkDeclarations S ns s ds names = .ok es ∧
      (es = [] ↔ ((ds.map (fun d => d.name.snakeCase)).Nodup ∧ ∀ d ∈ ds, d.name.snakeCase ∉ names) ∧
        ∀ d ∈ ds, S.DeclarationOk ns s d) := by
  induction ds generalizing names with
  | nil => exact ⟨[], rfl, by simp⟩
  | cons d ds ih =>
    obtain ⟨e2, ids, h1, h2⟩ := declaration_spec hl hs (hds d List.mem_cons_self)
    obtain ⟨es, h3, h4⟩ := ih (fun d hd => hds d (List.mem_cons_of_mem _ hd)) (setInsert d.name.snakeCase names)
    unfold checkDeclarations
    simp only [h1, h3]
    refine ⟨_, rfl, ?_⟩
    simp only [List.append_eq_nil_iff, ite_nil_iff, h4]
    simp only [List.map_cons, List.nodup_cons, List.forall_mem_cons, List.mem_map, not_exists, not_and]
    constructor
    · rintro ⟨⟨⟨a1, a2⟩, a3⟩, ⟨b1, b2⟩, b3⟩
      rw [setInsert, if_neg a1] at b2
      exact ⟨⟨⟨fun x hx e => b2 x hx (e ▸ List.mem_cons_self), b1⟩, a1,
        fun x hx e => b2 x hx (List.mem_cons_of_mem _ e)⟩, h2.mp ⟨a2, a3⟩, b3⟩
    · rintro ⟨⟨⟨c1, b1⟩, a1, c2⟩, ok, b3⟩
      rw [setInsert, if_neg a1]
      obtain ⟨a2, a3⟩ := h2.mpr ok
      refine ⟨⟨⟨a1, a2⟩, a3⟩, ⟨b1, ?_⟩, b3⟩
      intro x hx e
      rcases List.mem_cons.mp e with e | e
      · exact c1 x hx e
      · exact c2 x hx e

theorem checkSchemas_spec {S : Schemas} (hl : S.Loaded) (l : Schemas) (hsub : ∀ e ∈ l, e ∈ S) :
    ∃ es, checkSchemas S l = .ok es ∧
      (es = [] ↔ (∀ e ∈ l, (e.2.declarations.map (fun d => d.name.snakeCase)).Nodup) ∧
        ∀ e ∈ l, ∀ d ∈ e.2.declarations, S.DeclarationOk e.1 e.2 d) := by
  induction l with
  | nil => exact ⟨[], rfl, by simp⟩
  | cons e l ih =>
    obtain ⟨ns, s⟩ := e
    obtain ⟨e1, h1, h2⟩ := checkDeclarations_spec hl (hsub (ns, s) List.mem_cons_self) s.declarations (fun _ h => h) []
    obtain ⟨es, h3, h4⟩ := ih (fun e he => hsub e (List.mem_cons_of_mem _ he))
    unfold checkSchemas
    simp only [h1, h3]
    refine ⟨_, rfl, ?_⟩
    simp only [List.append_eq_nil_iff, h2, h4, List.forall_mem_cons, List.not_mem_nil, not_false_eq_true,
      implies_true, and_true]
    constructor
    · rintro ⟨⟨a, b⟩, c, d⟩; exact ⟨⟨a, c⟩, b, d⟩
    · rintro ⟨⟨a, c⟩, b, d⟩; exact ⟨⟨a, b⟩, c, d⟩

end Typical

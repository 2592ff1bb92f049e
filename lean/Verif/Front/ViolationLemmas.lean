import Verif.Front.CycleLemmas
import Verif.Spec.Violations

/-!
# Lemmas about the errors of the validator
-/

namespace Typical

/-- `a` occurs in the list after an element with the same key, or its key is in `seen`. -/
def DupIn {α κ : Type} (key : α → κ) (seen : List κ) (l : List α) (a : α) : Prop :=
  ∃ pre post, l = pre ++ a :: post ∧ (key a ∈ seen ∨ ∃ b ∈ pre, key b = key a)

theorem dupIn_nil {α κ : Type} {key : α → κ} {seen : List κ} {a : α} : ¬ DupIn key seen [] a := by
  rintro ⟨pre, post, h, -⟩
  cases pre <;> cases h

theorem nodup_setInsert {α : Type} [DecidableEq α] {a : α} {l : List α} (h : l.Nodup) : (setInsert a l).Nodup := by
  unfold setInsert
  split
  · exact h
  · next ha => exact List.nodup_cons.mpr ⟨ha, h⟩

theorem dupIn_cons {α κ : Type} [DecidableEq κ] {key : α → κ} {seen : List κ} {x : α} {l : List α} {a : α} :
    DupIn key seen (x :: l) a ↔ (a = x ∧ key x ∈ seen) ∨ DupIn key (setInsert (key x) seen) l a := by
  constructor
  · rintro ⟨pre, post, h, h'⟩
    cases pre with
    | nil =>
      cases h
      rcases h' with h' | ⟨b, hb, -⟩
      · exact .inl ⟨rfl, h'⟩
      · cases hb
    | cons y pre =>
      cases h
      refine .inr ⟨pre, post, rfl, ?_⟩
      rcases h' with h' | ⟨b, hb, e⟩
      · exact .inl (mem_setInsert.mpr (.inr h'))
      · rcases List.mem_cons.mp hb with rfl | hb
        · exact .inl (mem_setInsert.mpr (.inl e.symm))
        · exact .inr ⟨b, hb, e⟩
  · rintro (⟨rfl, h⟩ | ⟨pre, post, rfl, h⟩)
    · exact ⟨[], l, rfl, .inl h⟩
    · refine ⟨x :: pre, post, rfl, ?_⟩
      rcases h with h | ⟨b, hb, e⟩
      · rcases mem_setInsert.mp h with h | h
        · exact .inr ⟨x, List.mem_cons_self, h.symm⟩
        · exact .inl h
      · exact .inr ⟨b, List.mem_cons_of_mem _ hb, e⟩

theorem dupIn_empty {α κ : Type} {key : α → κ} {l : List α} {a : α} :
    DupIn key [] l a ↔ Preceded l a (fun b => key b = key a) := by
  constructor
  · rintro ⟨pre, post, h, h' | h'⟩
    · cases h'
    · exact ⟨pre, post, h, h'⟩
  · rintro ⟨pre, post, h, h'⟩
    exact ⟨pre, post, h, .inr h'⟩

theorem mem_ite_singleton {α : Type} {p : Prop} [Decidable p] {a b : α} : b ∈ (if p then [a] else []) ↔ p ∧ b = a := by
  split <;> simp [*]

/-- What is wrong with a type expression. -/
def TypeError (S : Schemas) (ns : Namespace) (s : Schema) (range : SourceRange) (t : TypeVariant) (v : VErr) : Prop :=
  (∃ r i n, t.MentionsAt range r (some i) n ∧ (∀ e ∈ s.imports, e.1.snakeCase ≠ i.snakeCase) ∧ v = .noImport ns r i) ∨
  (∃ r i n k, t.MentionsAt range r i n ∧ s.RefersTo ns i n k ∧ (∀ ns' s' d', ¬ S.Declares k ns' s' d') ∧ v = .noType ns r i n)

theorem typeError_array {S : Schemas} {ns : Namespace} {s : Schema} {range r : SourceRange} {t : TypeVariant} {v : VErr} :
    TypeError S ns s range (.array r t) v ↔ TypeError S ns s r t v := by
  unfold TypeError
  constructor
  · rintro (⟨r', i, n, h, h'⟩ | ⟨r', i, n, k, h, h'⟩)
    · cases h with | array h => exact .inl ⟨r', i, n, h, h'⟩
    · cases h with | array h => exact .inr ⟨r', i, n, k, h, h'⟩
  · rintro (⟨r', i, n, h, h'⟩ | ⟨r', i, n, k, h, h'⟩)
    · exact .inl ⟨r', i, n, .array h, h'⟩
    · exact .inr ⟨r', i, n, k, .array h, h'⟩

theorem isSome_false {S : Schemas} {k : TypeKey} : ¬ (allTypes S k).isSome ↔ ∀ ns s d, ¬ S.Declares k ns s d := by
  rw [allTypes_isSome_iff]
  constructor
  · intro h ns s d hd; exact h ⟨ns, s, d, hd⟩
  · rintro h ⟨ns, s, d, hd⟩; exact h ns s d hd

theorem mem_validateType {S : Schemas} (hl : S.Loaded) {ns : Namespace} {s : Schema} (hs : (ns, s) ∈ S)
    (t : TypeVariant) : ∀ (range : SourceRange) (es : List VErr), validateType S ns s range t = .ok es →
      ∀ v, v ∈ es ↔ TypeError S ns s range t v := by
  induction t with
  | array r t ih =>
    intro range es h v
    rw [typeError_array]
    exact ih r es h v
  | custom i n =>
    intro range es h v
    cases i with
    | none =>
      cases h
      constructor
      · intro h
        split at h
        · cases h
        · next hk =>
          rw [List.mem_singleton] at h
          exact .inr ⟨range, none, n, _, .custom _ _ _, rfl, isSome_false.mp hk, h⟩
      · rintro (⟨r, i, n', h, -⟩ | ⟨r, i, n', k, h, hk, hd, rfl⟩)
        · cases h
        · cases h
          cases hk
          rw [if_neg (isSome_false.mpr hd)]
          exact List.mem_singleton.mpr rfl
    | some i =>
      unfold validateType at h
      cases hi : lookupIdent i s.imports with
      | none =>
        rw [hi] at h
        cases h
        have hno : ∀ e ∈ s.imports, e.1.snakeCase ≠ i.snakeCase := by
          intro e he h1
          rw [lookupIdent_of_mem (hl.importNames _ hs) he h1] at hi
          cases hi
        rw [List.mem_singleton]
        constructor
        · rintro rfl
          exact .inl ⟨range, i, n, .custom _ _ _, hno, rfl⟩
        · rintro (⟨r, i', n', h, -, rfl⟩ | ⟨r, i', n', k, h, hk, -⟩)
          · cases h; rfl
          · cases h
            obtain ⟨e, he, h1, -⟩ := hk
            exact absurd h1 (hno e he)
      | some im =>
        obtain ⟨e, he, h1, rfl⟩ := lookupIdent_some hi
        rw [hi] at h
        cases hm : e.2.namespace_ with
        | none => exact absurd hm (hl.resolved _ hs _ he)
        | some m =>
          simp only [hm] at h
          cases h
          constructor
          · intro h
            split at h
            · cases h
            · next hk =>
              rw [List.mem_singleton] at h
              exact .inr ⟨range, some i, n, _, .custom _ _ _, ⟨e, he, h1, m, hm, rfl⟩, isSome_false.mp hk, h⟩
          · rintro (⟨r, i', n', h, hno, -⟩ | ⟨r, i', n', k, h, hk, hd, rfl⟩)
            · cases h
              exact absurd h1 (hno e he)
            · cases h
              obtain ⟨e', he', h1', m', hm', rfl⟩ := hk
              have := eq_of_nodup_map (hl.importNames _ hs) he he' (h1.trans h1'.symm)
              subst this
              rw [hm] at hm'
              cases hm'
              rw [if_neg (isSome_false.mpr hd)]
              exact List.mem_singleton.mpr rfl
  | bool | bytes | f64 | s64 | string | u64 | unit =>
    intro range es h v
    cases h
    constructor
    · intro h; cases h
    · rintro (⟨r, i, n, h, -⟩ | ⟨r, i, n, k, h, -⟩) <;> cases h

/-- What is wrong with the fields of a declaration. -/
def FieldError (S : Schemas) (ns : Namespace) (s : Schema) (deleted : List Nat) (fs : List Field) (names : List Str) (indices : List Nat)
    (v : VErr) : Prop :=
  (∃ f, DupIn (fun f : Field => f.name.snakeCase) names fs f ∧ v = .duplicateFieldName ns f.sourceRange f.name) ∨
  (∃ f, DupIn (fun f : Field => f.index) indices fs f ∧ v = .duplicateFieldIndex ns f.sourceRange f.index) ∨
  (∃ f ∈ fs, f.index ∈ deleted ∧ v = .deletedIndex ns f.sourceRange f.index) ∨
  (∃ f ∈ fs, 2 ^ 62 - 1 < f.index ∧ v = .indexTooLarge ns f.sourceRange f.index) ∨
  (∃ f ∈ fs, TypeError S ns s f.type.sourceRange f.type.variant v)

theorem mem_checkFields {S : Schemas} (hl : S.Loaded) {ns : Namespace} {s : Schema} (hs : (ns, s) ∈ S) (deleted : List Nat)
    (fs : List Field) : ∀ (names : List Str) (indices : List Nat) (es : List VErr) (ids : List Nat),
      checkFields S ns s deleted fs names indices = .ok (es, ids) →
      (∀ v, v ∈ es ↔ FieldError S ns s deleted fs names indices v) ∧
      (∀ i, i ∈ ids ↔ i ∈ indices ∨ ∃ f ∈ fs, f.index = i) ∧ (indices.Nodup → ids.Nodup) := by
  induction fs with
  | nil =>
    intro names indices es ids h
    cases h
    refine ⟨?_, by simp, id⟩
    intro v
    constructor
    · intro h; cases h
    · rintro (⟨f, h, -⟩ | ⟨f, h, -⟩ | ⟨f, h, -⟩ | ⟨f, h, -⟩ | ⟨f, h, -⟩)
      · exact absurd h dupIn_nil
      · exact absurd h dupIn_nil
      all_goals cases h
  | cons f fs ih =>
    intro names indices es ids h
    unfold checkFields at h
    dsimp only at h
    obtain ⟨et, ht, -⟩ := validateType_spec hl hs f.type.variant f.type.sourceRange
    have hte := mem_validateType hl hs _ _ _ ht
    rw [ht] at h
    dsimp only at h
    cases hr : checkFields S ns s deleted fs (setInsert f.name.snakeCase names) (setInsert f.index indices) with
    | error e => rw [hr] at h; cases h
    | ok p =>
      obtain ⟨es', ids'⟩ := p
      rw [hr] at h
      cases h
      obtain ⟨h1, h2, h3⟩ := ih _ _ _ _ hr
      refine ⟨?_, ?_, fun hn => h3 (nodup_setInsert hn)⟩
      · intro v
        simp only [List.mem_append, mem_ite_singleton, h1, hte, maxFieldIndex_eq]
        unfold FieldError
        simp only [dupIn_cons, List.mem_cons]
        constructor
        · rintro (((((⟨a, rfl⟩ | ⟨a, rfl⟩) | ⟨a, rfl⟩) | ⟨a, rfl⟩) | a) | (⟨g, a, rfl⟩ | ⟨g, a, rfl⟩ | ⟨g, a, b⟩ | ⟨g, a, b⟩ | ⟨g, a, b⟩))
          · exact .inl ⟨f, .inl ⟨rfl, a⟩, rfl⟩
          · exact .inr (.inl ⟨f, .inl ⟨rfl, a⟩, rfl⟩)
          · exact .inr (.inr (.inl ⟨f, .inl rfl, a, rfl⟩))
          · exact .inr (.inr (.inr (.inl ⟨f, .inl rfl, a, rfl⟩)))
          · exact .inr (.inr (.inr (.inr ⟨f, .inl rfl, a⟩)))
          · exact .inl ⟨g, .inr a, rfl⟩
          · exact .inr (.inl ⟨g, .inr a, rfl⟩)
          · exact .inr (.inr (.inl ⟨g, .inr a, b⟩))
          · exact .inr (.inr (.inr (.inl ⟨g, .inr a, b⟩)))
          · exact .inr (.inr (.inr (.inr ⟨g, .inr a, b⟩)))
        · rintro (⟨g, ⟨rfl, a⟩ | a, rfl⟩ | ⟨g, ⟨rfl, a⟩ | a, rfl⟩ | ⟨g, rfl | a, b, rfl⟩ | ⟨g, rfl | a, b, rfl⟩ | ⟨g, rfl | a, b⟩)
          · exact .inl (.inl (.inl (.inl (.inl ⟨a, rfl⟩))))
          · exact .inr (.inl ⟨g, a, rfl⟩)
          · exact .inl (.inl (.inl (.inl (.inr ⟨a, rfl⟩))))
          · exact .inr (.inr (.inl ⟨g, a, rfl⟩))
          · exact .inl (.inl (.inl (.inr ⟨b, rfl⟩)))
          · exact .inr (.inr (.inr (.inl ⟨g, a, b, rfl⟩)))
          · exact .inl (.inl (.inr ⟨b, rfl⟩))
          · exact .inr (.inr (.inr (.inr (.inl ⟨g, a, b, rfl⟩))))
          · exact .inl (.inr b)
          · exact .inr (.inr (.inr (.inr (.inr ⟨g, a, b⟩))))
      · intro i
        rw [h2, mem_setInsert]
        simp only [List.mem_cons]
        constructor
        · rintro ((rfl | a) | ⟨g, a, b⟩)
          · exact .inr ⟨f, .inl rfl, rfl⟩
          · exact .inl a
          · exact .inr ⟨g, .inr a, b⟩
        · rintro (a | ⟨g, rfl | a, b⟩)
          · exact .inl (.inr a)
          · exact .inl (.inl b.symm)
          · exact .inr ⟨g, a, b⟩

theorem mem_indexGaps {ns : Namespace} {range : SourceRange} {indices deleted : List Nat} {v : VErr} :
    v ∈ indexGaps ns range indices deleted ↔
      ∃ i, i < indices.length + deleted.length ∧ i ∉ indices ∧ i ∉ deleted ∧ v = .indexGap ns range i := by
  unfold indexGaps
  simp only [List.mem_map, List.mem_filter, List.mem_range, Bool.and_eq_true, Bool.not_eq_true',
    List.contains_eq_mem, decide_eq_false_iff_not]
  constructor
  · rintro ⟨i, ⟨a, b, c⟩, rfl⟩; exact ⟨i, a, b, c, rfl⟩
  · rintro ⟨i, a, b, c, rfl⟩; exact ⟨i, ⟨a, b, c⟩, rfl⟩

/-- What is wrong inside a declaration. -/
def DeclError (S : Schemas) (ns : Namespace) (s : Schema) (d : Declaration) (v : VErr) : Prop :=
  FieldError S ns s d.deleted d.fields [] [] v ∨
  ∃ i, i < (d.fields.map (fun f => f.index)).dedup.length + d.deleted.length ∧ (∀ f ∈ d.fields, f.index ≠ i) ∧ i ∉ d.deleted ∧
    v = .indexGap ns d.sourceRange i

theorem mem_declError {S : Schemas} (hl : S.Loaded) {ns : Namespace} {s : Schema} (hs : (ns, s) ∈ S) {d : Declaration}
    {es : List VErr} {ids : List Nat} (h : checkFields S ns s d.deleted d.fields [] [] = .ok (es, ids)) (v : VErr) :
    v ∈ es ++ indexGaps ns d.sourceRange ids d.deleted ↔ DeclError S ns s d v := by
  obtain ⟨h1, h2, h3⟩ := mem_checkFields hl hs _ _ _ _ _ _ h
  have hn := h3 List.nodup_nil
  have hlen : ids.length = (d.fields.map (fun f => f.index)).dedup.length := by
    refine ((List.perm_ext_iff_of_nodup hn (List.nodup_dedup _)).mpr ?_).length_eq
    intro i
    rw [h2, List.mem_dedup, List.mem_map]
    simp
  rw [List.mem_append, h1, mem_indexGaps, hlen]
  unfold DeclError
  refine or_congr Iff.rfl (exists_congr fun i => and_congr Iff.rfl (and_congr ?_ Iff.rfl))
  rw [h2]
  simp

theorem mem_checkDeclarations {S : Schemas} (hl : S.Loaded) {ns : Namespace} {s : Schema} (hs : (ns, s) ∈ S)
    (ds : List Declaration) (hds : ∀ d ∈ ds, d ∈ s.declarations) : ∀ (names : List Str) (es : List VErr),
      checkDeclarations S ns s ds names = .ok es →
      ∀ v, v ∈ es ↔ (∃ d, DupIn (fun d : Declaration => d.name.snakeCase) names ds d ∧ v = .duplicateDeclaration ns d.sourceRange d.name) ∨
        ∃ d ∈ ds, DeclError S ns s d v := by
  induction ds with
  | nil =>
    intro names es h v
    cases h
    constructor
    · intro h; cases h
    · rintro (⟨d, h, -⟩ | ⟨d, h, -⟩)
      · exact absurd h dupIn_nil
      · cases h
  | cons d ds ih =>
    intro names es h v
    unfold checkDeclarations at h
    dsimp only at h
    obtain ⟨e2, ids, h1, -⟩ := declaration_spec hl hs (hds d List.mem_cons_self)
    have hde := mem_declError hl hs h1
    rw [h1] at h
    dsimp only at h
    cases hr : checkDeclarations S ns s ds (setInsert d.name.snakeCase names) with
    | error e => rw [hr] at h; cases h
    | ok es' =>
      rw [hr] at h
      cases h
      have h2 := ih (fun d hd => hds d (List.mem_cons_of_mem _ hd)) _ _ hr v
      rw [List.mem_append, List.append_assoc, List.mem_append, hde, h2, mem_ite_singleton]
      simp only [dupIn_cons, List.mem_cons]
      constructor
      · rintro ((⟨a, rfl⟩ | a) | ⟨g, a, rfl⟩ | ⟨g, a, b⟩)
        · exact .inl ⟨d, .inl ⟨rfl, a⟩, rfl⟩
        · exact .inr ⟨d, .inl rfl, a⟩
        · exact .inl ⟨g, .inr a, rfl⟩
        · exact .inr ⟨g, .inr a, b⟩
      · rintro (⟨g, ⟨rfl, a⟩ | a, rfl⟩ | ⟨g, rfl | a, b⟩)
        · exact .inl (.inl ⟨a, rfl⟩)
        · exact .inr (.inl ⟨g, a, rfl⟩)
        · exact .inl (.inr b)
        · exact .inr (.inr ⟨g, a, b⟩)

/-- The errors of a file are its violations. -/
theorem violation_iff {S : Schemas} {ns : Namespace} {s : Schema} {v : VErr} :
    S.Violation ns s v ↔
      (∃ d, DupIn (fun d : Declaration => d.name.snakeCase) [] s.declarations d ∧ v = .duplicateDeclaration ns d.sourceRange d.name) ∨
        ∃ d ∈ s.declarations, DeclError S ns s d v := by
  constructor
  · intro h
    cases h with
    | duplicateDeclaration d h => exact .inl ⟨d, dupIn_empty.mpr h, rfl⟩
    | duplicateFieldName d f hd h => exact .inr ⟨d, hd, .inl (.inl ⟨f, dupIn_empty.mpr h, rfl⟩)⟩
    | duplicateFieldIndex d f hd h => exact .inr ⟨d, hd, .inl (.inr (.inl ⟨f, dupIn_empty.mpr h, rfl⟩))⟩
    | deletedIndex d f hd hf h => exact .inr ⟨d, hd, .inl (.inr (.inr (.inl ⟨f, hf, h, rfl⟩)))⟩
    | indexTooLarge d f hd hf h => exact .inr ⟨d, hd, .inl (.inr (.inr (.inr (.inl ⟨f, hf, h, rfl⟩))))⟩
    | indexGap d i hd h1 h2 h3 => exact .inr ⟨d, hd, .inr ⟨i, h1, h2, h3, rfl⟩⟩
    | noImport d f r i n hd hf hm h =>
      exact .inr ⟨d, hd, .inl (.inr (.inr (.inr (.inr ⟨f, hf, .inl ⟨r, i, n, hm, h, rfl⟩⟩))))⟩
    | noType d f r i n k hd hf hm hk h =>
      exact .inr ⟨d, hd, .inl (.inr (.inr (.inr (.inr ⟨f, hf, .inr ⟨r, i, n, k, hm, hk, h, rfl⟩⟩))))⟩
  · rintro (⟨d, h, rfl⟩ | ⟨d, hd, h | ⟨i, h1, h2, h3, rfl⟩⟩)
    · exact .duplicateDeclaration d (dupIn_empty.mp h)
    · rcases h with ⟨f, h, rfl⟩ | ⟨f, h, rfl⟩ | ⟨f, hf, h, rfl⟩ | ⟨f, hf, h, rfl⟩ | ⟨f, hf, ⟨r, i, n, hm, h, rfl⟩ | ⟨r, i, n, k, hm, hk, h, rfl⟩⟩
      · exact .duplicateFieldName d f hd (dupIn_empty.mp h)
      · exact .duplicateFieldIndex d f hd (dupIn_empty.mp h)
      · exact .deletedIndex d f hd hf h
      · exact .indexTooLarge d f hd hf h
      · exact .noImport d f r i n hd hf hm h
      · exact .noType d f r i n k hd hf hm hk h
    · exact .indexGap d i hd h1 h2 h3

theorem mem_checkSchemas {S : Schemas} (hl : S.Loaded) (l : Schemas) (hsub : ∀ e ∈ l, e ∈ S) : ∀ (es : List VErr),
    checkSchemas S l = .ok es → ∀ v, v ∈ es ↔ ∃ e ∈ l, S.Violation e.1 e.2 v := by
  induction l with
  | nil => intro es h v; cases h; simp
  | cons e l ih =>
    obtain ⟨ns, s⟩ := e
    intro es h v
    unfold checkSchemas at h
    obtain ⟨e1, h1, -⟩ := checkDeclarations_spec hl (hsub (ns, s) List.mem_cons_self) s.declarations (fun _ h => h) []
    rw [h1] at h
    dsimp only at h
    cases hr : checkSchemas S l with
    | error e => rw [hr] at h; cases h
    | ok es' =>
      rw [hr] at h
      cases h
      rw [List.mem_append, mem_checkDeclarations hl (hsub (ns, s) List.mem_cons_self) _ (fun _ h => h) _ _ h1, ← violation_iff,
        ih (fun e he => hsub e (List.mem_cons_of_mem _ he)) _ hr]
      simp [List.exists_mem_cons_iff]

end Typical

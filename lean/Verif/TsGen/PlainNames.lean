import Verif.TsGen.ProgramProof
import Verif.Props.Scopes

/-!
# Helper: when names in the generated TypeScript code do not collide
-/

namespace Typical.TsGen

mutual
theorem modulePaths_mem {T : CharTable} {P : Identifier → Prop} {Q : Declaration → Prop} {q : List Str} : (m : Module) → (ns : List Identifier) →
    m.Distinct → m.Only P Q → q ∈ modulePaths T ns m →
    ∃ i l, q = modulePath T (ns ++ i :: l) ∧ (∀ j ∈ i :: l, P j) ∧ (m.find ((i :: l).map Identifier.snakeCase)).isSome = true
  | .mk children schema, ns, hd, ho, h => by
    rw [Module.Distinct] at hd
    rw [Module.Only] at ho
    rw [modulePaths] at h
    obtain ⟨i, l, c, h1, h2, h3, h4⟩ := modulesPaths_mem children ns hd.1 hd.2 ho.1 h
    refine ⟨i, l, h1, h2, ?_⟩
    rw [List.map_cons, Module.find_cons, h3]
    exact h4
theorem modulesPaths_mem {T : CharTable} {P : Identifier → Prop} {Q : Declaration → Prop} {q : List Str} : (ms : Modules) → (ns : List Identifier) →
    ms.Distinct → (ms.names.map Identifier.snakeCase).Nodup → ms.Only P Q → q ∈ modulesPaths T ns ms →
    ∃ i l c, q = modulePath T (ns ++ i :: l) ∧ (∀ j ∈ i :: l, P j) ∧ ms.get i.snakeCase = some c ∧ (c.find (l.map Identifier.snakeCase)).isSome = true
  | .nil, ns, _, _, _, h => by rw [modulesPaths] at h; cases h
  | .cons name child rest, ns, hd, hn, ho, h => by
    rw [Modules.Distinct] at hd
    rw [Modules.Only] at ho
    rw [Modules.names, List.map_cons, List.nodup_cons] at hn
    rw [modulesPaths] at h
    rcases List.mem_cons.mp h with rfl | h
    · refine ⟨name, [], child, rfl, ?_, ?_, ?_⟩
      · intro j hj
        rw [List.mem_singleton.mp hj]
        exact ho.1
      · rw [Modules.get, if_pos rfl]
      · cases child; rfl
    rcases List.mem_append.mp h with h | h
    · obtain ⟨i, l, h1, h2, h3⟩ := modulePaths_mem child (ns ++ [name]) hd.1 ho.2.1 h
      refine ⟨name, i :: l, child, ?_, ?_, ?_, h3⟩
      · rw [h1, List.append_assoc, List.singleton_append]
      · intro j hj
        rcases List.mem_cons.mp hj with rfl | hj
        · exact ho.1
        · exact h2 j hj
      · rw [Modules.get, if_pos rfl]
    · obtain ⟨i, l, c, h1, h2, h3, h4⟩ := modulesPaths_mem rest ns hd.2 hn.2 ho.2.2 h
      refine ⟨i, l, c, h1, h2, ?_, h4⟩
      rw [Modules.get, if_neg, h3]
      intro e
      obtain ⟨j, hj, e'⟩ := (Modules.get_names i.snakeCase rest).mp (by rw [h3]; rfl)
      exact hn.1 (List.mem_map.mpr ⟨j, hj, e'.trans e.symm⟩)
end

/-- What the generated program exports: namespaces of files and directories, and of declarations. -/
theorem exports_cases {T : CharTable} {S : Schemas} (hl : S.Loaded) {P : Identifier → Prop} {Q : Declaration → Prop} (ho : (buildTree S).Only P Q)
    {path : List Str} {name : Str} (h : (program T S).exports path name = true) :
    (∃ l i, path = modulePath T l ∧ name = tsPascal T i none ∧ P i ∧ ∃ e ∈ S, l.map Identifier.snakeCase ++ [i.snakeCase] <+: e.1.key) ∨
    (∃ e ∈ S, ∃ d ∈ e.2.declarations, name = tsPascal T d.name none) := by
  have h : path ++ [name] ∈ allPaths T (buildTree S) := List.contains_iff_mem.mp h
  rcases List.mem_append.mp h with h | h
  · left
    obtain ⟨i, l, h1, h2, h3⟩ := modulePaths_mem (buildTree S) [] (buildTree_distinct S) ho h
    rw [List.nil_append] at h1
    rw [find_isSome_iff] at h3
    obtain ⟨l', j, e⟩ : ∃ l' j, i :: l = l' ++ [j] := ⟨(i :: l).dropLast, (i :: l).getLast (by simp), (List.dropLast_append_getLast _).symm⟩
    rw [e] at h1 h2 h3
    unfold modulePath at h1
    rw [List.map_append] at h1
    obtain ⟨e1, e2⟩ := List.append_inj' h1 rfl
    refine ⟨l', j, e1, (List.cons.inj e2).1, h2 j (by simp), ?_⟩
    rcases h3 with h3 | h3
    · simp at h3
    · rwa [List.map_append] at h3
  · right
    rw [moduleCodes_paths] at h
    obtain ⟨⟨l, d⟩, hw, e⟩ := List.mem_map.mp h
    have hp := (C43_each_declaration_once S hl).mem_iff.mp (List.mem_map.mpr ⟨_, hw, rfl⟩)
    obtain ⟨e0, he0, hm⟩ := List.mem_flatMap.mp hp
    obtain ⟨d', hd', e'⟩ := List.mem_map.mp hm
    rw [(Prod.mk.inj e').2] at hd'
    refine ⟨e0, he0, d, hd', ?_⟩
    unfold declPath at e
    exact (List.cons.inj (List.append_inj' e rfl).2).1.symm

/-- The namespaces of files are exported. -/
theorem exports_first {T : CharTable} {S : Schemas} {e : Namespace × Schema} (he : e ∈ S) {i : Identifier} {l : List Identifier}
    (hc : e.1.components = i :: l) (hm : ∀ j, (∃ e ∈ S, j ∈ e.1.components) → j.snakeCase = i.snakeCase → tsPascal T j none = tsPascal T i none) :
    (program T S).exports [] (tsPascal T i none) = true := by
  have hs := (find_isSome_iff S [i.snakeCase]).mpr (.inr ⟨e, he, by
    unfold Namespace.key
    rw [hc]
    exact ⟨_, rfl⟩⟩)
  have ho : (buildTree S).Only (fun i => ∃ e ∈ S, i ∈ e.1.components) (fun _ => True) :=
    buildTree_only S fun e he => ⟨fun i hi => ⟨e, he, hi⟩, fun _ _ => trivial⟩
  show (allPaths T (buildTree S)).contains _ = true
  rw [List.contains_iff_mem]
  refine List.mem_append_left _ ?_
  revert hs ho
  cases buildTree S with
  | mk children schema =>
    intro hs ho
    rw [Module.find_cons] at hs
    rw [Module.Only] at ho
    rw [modulePaths]
    cases hg : children.get i.snakeCase with
    | none => rw [hg] at hs; cases hs
    | some c =>
      obtain ⟨j, h1, h2, -, h4, -⟩ := codes_of_get (T := T) (ns := []) hg
      have := hm j (ho.1.names _ h1) h2
      unfold modulePath at h4
      rw [List.nil_append, List.map_cons, this] at h4
      exact h4

/-- Names are plain, without underscores before digits, and no namespace which is generated for them hides what the generated code refers to. -/
structure ClearNames (T : CharTable) (S : Schemas) : Prop where
  rooted : ∀ e ∈ S, e.1.components ≠ []
  files : ∀ e ∈ S, ∀ i ∈ e.1.components, (∃ a, PlainAscii a ∧ i = Identifier.ofStr T a) ∧ dropDigitSeparators i.snakeCase = i.snakeCase
  declarations : ∀ e ∈ S, ∀ d ∈ e.2.declarations,
    (∃ a, PlainAscii a ∧ d.name = Identifier.ofStr T a) ∧ dropDigitSeparators d.name.snakeCase = d.name.snakeCase
  fields : ∀ e ∈ S, ∀ d ∈ e.2.declarations, ∀ f ∈ d.fields,
    (∃ a, PlainAscii a ∧ f.name = Identifier.ofStr T a) ∧ dropDigitSeparators f.name.snakeCase = f.name.snakeCase
  mentions : ∀ e ∈ S, ∀ d ∈ e.2.declarations, ∀ f ∈ d.fields, ∀ i n, f.type.variant.Mentions i n → ∃ a, PlainAscii a ∧ n = Identifier.ofStr T a
  imports : ∀ e ∈ S, ∀ i ∈ e.2.imports, ∀ ns, i.2.namespace_ = some ns → ∀ j ∈ ns.components,
    (∃ a, PlainAscii a ∧ j = Identifier.ofStr T a) ∧ dropDigitSeparators j.snakeCase = j.snakeCase
  builtinFiles : ∀ e ∈ S, ∀ i ∈ e.1.components, ¬ IsWord tsBuiltins (tsPascal T i none)
  builtinTypes : ∀ e ∈ S, ∀ d ∈ e.2.declarations, ¬ IsWord tsBuiltins (tsPascal T d.name none)
  innerFiles : ∀ e ∈ S, ∀ e' ∈ S, ∀ i ∈ e.1.components.head?, ∀ j ∈ e'.1.components.tail, i.snakeCase ≠ j.snakeCase
  types : ∀ e ∈ S, ∀ i ∈ e.1.components.head?, ∀ e' ∈ S, ∀ d ∈ e'.2.declarations, i.snakeCase ≠ d.name.snakeCase

section
variable {T : CharTable} (hT : T.Ascii)
include hT

theorem clear_pascal {i j : Identifier} (hi : (∃ a, PlainAscii a ∧ i = Identifier.ofStr T a) ∧ dropDigitSeparators i.snakeCase = i.snakeCase)
    (hj : (∃ a, PlainAscii a ∧ j = Identifier.ofStr T a) ∧ dropDigitSeparators j.snakeCase = j.snakeCase) :
    tsPascal T i none = tsPascal T j none ↔ i.snakeCase = j.snakeCase := by
  obtain ⟨⟨a, ha, e⟩, hi⟩ := hi
  obtain ⟨⟨b, hb, e'⟩, hj⟩ := hj
  have := tsNamespace_eq_iff hT ha hb
  rw [← e, ← e', hi, hj] at this
  exact this

/-- A name in Pascal case is none of the functions and constants at the top. -/
theorem clear_used {i : Identifier} (hi : ∃ a, PlainAscii a ∧ i = Identifier.ofStr T a) (hb : ¬ IsWord tsBuiltins (tsPascal T i none)) :
    tsPascal T i none ∉ usedNames := by
  obtain ⟨a, ha, rfl⟩ := hi
  obtain ⟨c, w, e, hc, -⟩ := pascal_shape hT ha
  have all : ∀ n ∈ usedNames, (tsBuiltins.any (fun k => k.toList == n) = true ∨ ∃ c v, n = c :: v ∧ c.isLower = true) := by
    have : ∀ n ∈ usedNames, (tsBuiltins.any (fun k => k.toList == n) || n.head?.any Char.isLower) = true := by decide +kernel
    intro n hn
    rcases Bool.or_eq_true _ _ ▸ this n hn with h | h
    · exact .inl h
    · cases n with
      | nil => cases h
      | cons c v => exact .inr ⟨c, v, rfl, h⟩
  intro hm
  rcases all _ hm with h | ⟨d, v, h, hd⟩
  · exact hb ((any_isWord _ _).mp h)
  · change tsEscape ((Identifier.ofStr T a).pascalCase T) = _ at h
    rw [e] at h
    by_cases hk : IsWord tsKeywords (c :: w)
    · rw [tsEscape_pos hk] at h
      rw [← (List.cons.inj h).1] at hd
      exact absurd hd (by decide)
    · rw [tsEscape_neg hk] at h
      rw [← (List.cons.inj h).1, (upper_facts hc).2] at hd
      cases hd

/-- Names do not collide. -/
theorem ClearNames.ok {S : Schemas} (hl : S.Loaded) (hv : validate S = .ok []) (h : ClearNames T S) : NamesOk T S := by
  have hw := (C28_accepts_exactly_well_formed S hl).mp hv
  have hp : S.Plain T := ⟨fun e he i hi => (h.files e he i hi).1, fun e he d hd => (h.declarations e he d hd).1,
    fun e he d hd f hf => (h.fields e he d hd f hf).1⟩
  obtain ⟨-, -, g3, -⟩ := C65_no_digit_words_partial hT S hl hp hv (fun e he i hi => (h.files e he i hi).2) (fun e he d hd => (h.declarations e he d hd).2)
    (fun e he d hd f hf => (h.fields e he d hd f hf).2)
  have ho : (buildTree S).Only (fun i => ∃ e ∈ S, i ∈ e.1.components) (fun d => ∃ e ∈ S, d ∈ e.2.declarations) :=
    buildTree_only S fun e he => ⟨fun i hi => ⟨e, he, hi⟩, fun d hd => ⟨e, he, hd⟩⟩
  have paths : ∀ p q : List Identifier, (∀ i ∈ p, ∃ e ∈ S, i ∈ e.1.components) → (∀ i ∈ q, ∃ e ∈ S, i ∈ e.1.components) →
      (modulePath T p = modulePath T q ↔ p.map Identifier.snakeCase = q.map Identifier.snakeCase) := by
    intro p
    induction p with
    | nil => intro q _ _; cases q <;> simp [modulePath]
    | cons i p ih =>
      intro q h1 h2
      cases q with
      | nil => simp [modulePath]
      | cons j q =>
        obtain ⟨e, he, hi⟩ := h1 i (by simp)
        obtain ⟨e', he', hj⟩ := h2 j (by simp)
        have ih' := ih q (fun k hk => h1 k (by simp [hk])) (fun k hk => h2 k (by simp [hk]))
        unfold modulePath at ih' ⊢
        rw [List.map_cons, List.map_cons, List.map_cons, List.map_cons, List.cons.injEq, List.cons.injEq, ih',
          clear_pascal hT (h.files e he i hi) (h.files e' he' j hj)]
  have first : ∀ e ∈ S, ∀ i l, e.1.components = i :: l → ∀ path, path ≠ [] → (program T S).exports path (tsPascal T i none) = false := by
    intro e he i l hc path hpath
    rw [Bool.eq_false_iff]
    intro hx
    have hi := h.files e he i (by rw [hc]; simp)
    rcases exports_cases hl ho hx with ⟨l', j, e1, e2, ⟨e', he', hj⟩, e'', he'', hpre⟩ | ⟨e', he', d, hd, e2⟩
    · rw [clear_pascal hT hi (h.files e' he' j hj)] at e2
      cases l' with
      | nil => rw [e1] at hpath; exact hpath rfl
      | cons k l' =>
        obtain ⟨r, hr⟩ := hpre
        unfold Namespace.key at hr
        cases hc'' : e''.1.components with
        | nil => rw [hc''] at hr; cases hr
        | cons k' t =>
          rw [hc'', List.map_cons, List.map_cons, List.cons_append, List.cons_append, List.cons.injEq] at hr
          have hm : j.snakeCase ∈ t.map Identifier.snakeCase := by rw [← hr.2]; simp
          obtain ⟨j', hj', ej⟩ := List.mem_map.mp hm
          exact h.innerFiles e he e'' he'' i (by rw [hc]; rfl) j' (by rw [hc'']; exact hj') (e2.trans ej.symm)
    · rw [clear_pascal hT hi (h.declarations e' he' d hd)] at e2
      exact h.types e he i (by rw [hc]; rfl) e' he' d hd e2
  refine ⟨?_, ?_, ?_, ?_, ?_⟩
  · intro e he e' he' i hi j hj hs
    exact (clear_pascal hT (h.files e he i hi) (h.files e' he' j hj)).mpr hs
  · have hon := Module.written_only (buildTree S) [] ho (by simp)
    rw [nodup_map_keys (key := fun e => (e.1.map Identifier.snakeCase, e.2.name.snakeCase))]
    · have := ((C43_each_declaration_once S hl).map (fun e : List Str × Declaration => (e.1, e.2.name.snakeCase))).nodup_iff
      rw [List.map_map, List.map_flatMap] at this
      have hn : (S.flatMap (fun e => (e.2.declarations.map (fun d => (e.1.key, d))).map (fun e : List Str × Declaration => (e.1, e.2.name.snakeCase)))).Nodup := by
        rw [List.nodup_flatMap]
        refine ⟨?_, ?_⟩
        · intro e he
          rw [List.map_map]
          rw [nodup_map_keys (key := fun d => d.name.snakeCase)]
          · exact hw.names e he
          · intro d _ d' _; simp
        · have hn := hl.namespaces
          rw [List.Nodup, List.pairwise_map] at hn
          refine hn.imp_of_mem ?_
          intro e e' he he' hne z hz hz'
          simp only [List.map_map] at hz hz'
          obtain ⟨d, -, rfl⟩ := List.mem_map.mp hz
          obtain ⟨d', -, e2⟩ := List.mem_map.mp hz'
          exact hne (Prod.mk.inj e2).1.symm
      exact this.mpr hn
    · intro e he e' he'
      obtain ⟨a1, x, hx, hd⟩ := hon e he
      obtain ⟨b1, x', hx', hd'⟩ := hon e' he'
      unfold declPath
      have h2 := clear_pascal hT (h.declarations x hx _ hd) (h.declarations x' hx' _ hd')
      have h1 := paths _ _ a1 b1
      rw [Prod.mk.injEq, ← h1, ← h2]
      constructor
      · intro g
        obtain ⟨g1, g2⟩ := List.append_inj' g rfl
        exact ⟨g1, (List.cons.inj g2).1⟩
      · rintro ⟨g1, g2⟩
        rw [g1, g2]
  · intro e he d hd
    refine ⟨(g3 e he d hd .out).2, ?_⟩
    intro f hf hm
    obtain ⟨⟨a, ha, e2⟩, -⟩ := h.fields e he d hd f hf
    obtain ⟨c, w, e3, hc, -⟩ := camel_shape hT ha
    rw [e2, tsCamel, e3] at hm
    by_cases hk : IsWord tsKeywords (c :: w)
    · rw [tsEscape_pos hk] at hm; simp at hm
    · rw [tsEscape_neg hk] at hm
      simp at hm
      have : c = '$' := by rcases hm with h | h | h <;> exact h.1
      rw [this] at hc
      exact absurd hc (by decide)
  · intro e he d hd name hn n hle
    rw [Bool.eq_false_iff]
    intro hx
    rcases exports_cases hl ho hx with ⟨l', j, e1, rfl, ⟨e', he', hj⟩, -⟩ | ⟨e', he', d', hd', rfl⟩
    · exact clear_used hT (h.files e' he' j hj).1 (h.builtinFiles e' he' j hj) hn
    · exact clear_used hT (h.declarations e' he' d' hd').1 (h.builtinTypes e' he' d' hd') hn
  · intro e he d hd f hf i n k hmen href ns s d' hd'
    have hn := h.mentions e he d hd f hf i n hmen
    have hd'n := h.declarations _ hd'.1 d' hd'.2.1
    have key : ∃ t : Namespace, targetNamespace e.2 e.1 i = t ∧ t.key = ns.key ∧ n.snakeCase = d'.name.snakeCase ∧
        ∀ j ∈ t.components, (∃ a, PlainAscii a ∧ j = Identifier.ofStr T a) ∧ dropDigitSeparators j.snakeCase = j.snakeCase := by
      cases i with
      | none =>
        change k = _ at href
        rw [hd'.2.2] at href
        exact ⟨e.1, rfl, (Prod.mk.inj href).1.symm, (Prod.mk.inj href).2.symm, h.files e he⟩
      | some i =>
        obtain ⟨im, him, e1, t, ht, e2⟩ := href
        rw [hd'.2.2] at e2
        refine ⟨t, ?_, (Prod.mk.inj e2).1.symm, (Prod.mk.inj e2).2.symm, h.imports e he im him t ht⟩
        simp only [targetNamespace]
        rw [lookupIdent_of_mem (hl.importNames e he) him e1]
        simp [ht]
    obtain ⟨t, et, hkey, hname, ht⟩ := key
    have hpath : customPath T e.2 e.1 i n = declPath T ns.components d' := by
      unfold customPath namespacePath declPath
      rw [et, (clear_pascal hT ⟨hn, by rw [hname]; exact hd'n.2⟩ hd'n).mpr hname]
      have : modulePath T t.components = modulePath T ns.components := modulePath_eq hkey fun i hi j hj hs =>
        (clear_pascal hT (ht i hi) (h.files _ hd'.1 j hj)).mpr hs
      rw [← this]
      rfl
    rw [hpath]
    cases hc : ns.components with
    | nil => exact absurd hc (h.rooted _ hd'.1)
    | cons i0 l =>
      have : declPath T (i0 :: l) d' = tsPascal T i0 none :: (modulePath T l ++ [tsPascal T d'.name none]) := rfl
      rw [this, tsResolve_iff]
      · intro m hm hm'
        refine first _ hd'.1 i0 l hc _ ?_
        intro e0
        rw [List.take_eq_nil_iff] at e0
        rcases e0 with e0 | e0
        · omega
        · rw [e0] at hm'
          simp at hm'
          omega
      · refine exports_first hd'.1 hc ?_
        rintro j ⟨e', he', hj⟩ hs
        exact (clear_pascal hT (h.files e' he' j hj) (h.files _ hd'.1 i0 (by rw [hc]; simp))).mpr hs
end

end Typical.TsGen

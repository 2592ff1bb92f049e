import Verif.Front.Scopes
import Verif.Front.ScopeLemmas
import Verif.Props.Modules
import Verif.Props.Validator
import Mathlib.Data.List.Nodup

/-!
# Scopes of the generated code (C64, C65)
-/

namespace Typical

/-- All names in the schemas are plain. -/
structure Schemas.Plain (T : CharTable) (S : Schemas) : Prop where
  files : ∀ e ∈ S, ∀ i ∈ e.1.components, ∃ a, PlainAscii a ∧ i = Identifier.ofStr T a
  declarations : ∀ e ∈ S, ∀ d ∈ e.2.declarations, ∃ a, PlainAscii a ∧ d.name = Identifier.ofStr T a
  fields : ∀ e ∈ S, ∀ d ∈ e.2.declarations, ∀ f ∈ d.fields, ∃ a, PlainAscii a ∧ f.name = Identifier.ofStr T a

/-! ### Which modules there are -/

/-- There is a module with a path iff it is part of the path of a file. -/
theorem find_isSome_iff (S : Schemas) (path : List Str) :
    ((buildTree S).find path).isSome = true ↔ path = [] ∨ ∃ e ∈ S, path <+: e.1.key := by
  have key : ∀ (l : Schemas) (m : Module),
      (((l.foldl (fun m e => insertSchema m e.1.components e.2) m).schemaAt path).isSome = true ↔
        (m.schemaAt path).isSome = true ∨ ∃ e ∈ l, path <+: e.1.key) := by
    intro l
    induction l with
    | nil => intro m; simp
    | cons e l ih =>
      intro m
      rw [List.foldl_cons, ih, schemaAt_insert]
      have hk : e.1.components.map Identifier.snakeCase = e.1.key := rfl
      rw [hk]
      by_cases h1 : path = e.1.key
      · rw [if_pos h1]
        constructor
        · intro _; exact .inr ⟨e, by simp, h1 ▸ List.prefix_rfl⟩
        · intro _; exact .inl rfl
      · rw [if_neg h1]
        by_cases h2 : path <+: e.1.key
        · rw [if_pos h2]
          constructor
          · intro _; exact .inr ⟨e, by simp, h2⟩
          · intro _; exact .inl rfl
        · rw [if_neg h2]
          constructor
          · rintro (h | ⟨e', he, hp⟩)
            · exact .inl h
            · exact .inr ⟨e', by simp [he], hp⟩
          · rintro (h | ⟨e', he, hp⟩)
            · exact .inl h
            · rcases List.mem_cons.mp he with rfl | he
              · exact absurd hp h2
              · exact .inr ⟨e', he, hp⟩
  have := key S .empty
  rw [Module.empty_find] at this
  have e1 : ((buildTree S).find path).isSome = ((buildTree S).schemaAt path).isSome := by
    unfold Module.schemaAt; cases (buildTree S).find path <;> rfl
  rw [e1]
  refine Iff.trans this ?_
  by_cases h : path = []
  · simp [h]
  · simp [h]

theorem Modules.get_names (k : Str) : ∀ ms : Modules, (ms.get k).isSome = true ↔ ∃ i ∈ ms.names, i.snakeCase = k
  | .nil => by simp [Modules.get, Modules.names]
  | .cons i m rest => by
    rw [Modules.get, Modules.names]
    by_cases h : i.snakeCase = k
    · rw [if_pos h]; simp [h]
    · rw [if_neg h, Modules.get_names k rest]; simp [h]

theorem Module.find_append : ∀ (p q : List Str) (m : Module), m.find (p ++ q) = (m.find p).bind (fun m => m.find q)
  | [], q, m => by cases m; rw [Module.find]; rfl
  | k :: p, q, .mk ms s => by
    rw [List.cons_append, Module.find_cons, Module.find_cons]
    cases ms.get k with
    | none => rfl
    | some m => exact Module.find_append p q m

/-- A module contains another of this name iff that is part of the path of a file. -/
theorem child_iff (S : Schemas) {path : List Str} {children : Modules} {schema : Schema}
    (h : (buildTree S).find path = some (.mk children schema)) (k : Str) :
    (∃ i ∈ children.names, i.snakeCase = k) ↔ ∃ e ∈ S, path ++ [k] <+: e.1.key := by
  have := find_isSome_iff S (path ++ [k])
  rw [Module.find_append, h] at this
  rw [← Modules.get_names]
  have e : ((some (Module.mk children schema)).bind (fun m => m.find [k])).isSome = (children.get k).isSome := by
    show ((Module.mk children schema).find [k]).isSome = _
    rw [Module.find_cons]
    cases children.get k with
    | none => rfl
    | some m => cases m; rfl
  rw [e] at this
  rw [this]
  simp

/-! ### Names -/

theorem rustEscape_inj {a b : Str} (ha : '#' ∉ a) (hb : '#' ∉ b) (h : rustEscape a = rustEscape b) : a = b := by
  by_cases h1 : IsWord rustKeywords a
  · by_cases h2 : IsWord rustKeywords b
    · rw [rustEscape_pos h1, rustEscape_pos h2] at h
      exact (List.cons.inj (List.cons.inj h).2).2
    · rw [rustEscape_pos h1, rustEscape_neg h2] at h
      exact absurd (by rw [← h]; simp) hb
  · by_cases h2 : IsWord rustKeywords b
    · rw [rustEscape_neg h1, rustEscape_pos h2] at h
      exact absurd (by rw [h]; simp) ha
    · rwa [rustEscape_neg h1, rustEscape_neg h2] at h

theorem rustEscape_eq {a b : Str} (hb : '#' ∉ b) (hk : ¬ IsWord rustKeywords b) : rustEscape a = b ↔ a = b := by
  by_cases h1 : IsWord rustKeywords a
  · rw [rustEscape_pos h1]
    constructor
    · intro h; exact absurd (by rw [← h]; simp) hb
    · rintro rfl; exact absurd h1 hk
  · rw [rustEscape_neg h1]

theorem alphanum_ne_hash {c : Char} (h : c.isAlphanum = true) : c ≠ '#' := by
  rintro rfl; exact absurd h (by decide)

theorem snake_no_hash {T : CharTable} (hT : T.Ascii) {a : Str} (h : PlainAscii a) : '#' ∉ (Identifier.ofStr T a).snakeCase := by
  obtain ⟨c, w, e, hc, hw⟩ := snake_shape hT h
  rw [e]
  intro g
  rcases List.mem_cons.mp g with g | g
  · exact alphanum_ne_hash (lower_alphanum (.inl hc)) g.symm
  · rcases hw _ g with h | h | h
    · exact absurd h (by decide)
    · exact absurd h (by decide)
    · exact absurd h (by decide)

theorem pascal_no_hash {T : CharTable} (hT : T.Ascii) {a : Str} (h : PlainAscii a) : '#' ∉ (Identifier.ofStr T a).pascalCase T := by
  obtain ⟨c, w, e, hc, hw⟩ := pascal_shape hT h
  rw [e]
  intro g
  rcases List.mem_cons.mp g with g | g
  · rw [← g] at hc; exact absurd hc (by decide)
  · exact absurd (hw _ g) (by decide)

theorem append_suffix_inj {p q : Str} {x y : NameSuffix} (h : p ++ x.text = q ++ y.text) : p = q ∧ x = y := by
  have hl := congrArg List.getLast? h
  rw [List.getLast?_append, List.getLast?_append] at hl
  have : x = y := by
    revert hl
    cases x <;> cases y <;> simp [NameSuffix.text]
  subst this
  exact ⟨List.append_cancel_right h, rfl⟩

/-- Types of different declarations, or of different directions, have different names, except for separators before digits. -/
theorem rustType_eq_iff {T : CharTable} (hT : T.Ascii) {a b : Str} (ha : PlainAscii a) (hb : PlainAscii b) (x y : NameSuffix) :
    rustPascal T (Identifier.ofStr T a) (some x) = rustPascal T (Identifier.ofStr T b) (some y) ↔
      dropDigitSeparators (Identifier.ofStr T a).snakeCase = dropDigitSeparators (Identifier.ofStr T b).snakeCase ∧ x = y := by
  rw [← pascal_eq_iff hT ha hb]
  show rustEscape ((Identifier.ofStr T (a ++ ['_'] ++ x.text)).pascalCase T) =
    rustEscape ((Identifier.ofStr T (b ++ ['_'] ++ y.text)).pascalCase T) ↔ _
  constructor
  · intro h
    have := rustEscape_inj (pascal_no_hash hT (plain_join ha x)) (pascal_no_hash hT (plain_join hb y)) h
    rw [pascal_suffix hT, pascal_suffix hT] at this
    exact append_suffix_inj this
  · rintro ⟨h, rfl⟩
    rw [pascal_suffix hT, pascal_suffix hT, h]

theorem pascal_not_underscore {T : CharTable} (hT : T.Ascii) {a : Str} (h : PlainAscii a) :
    ((Identifier.ofStr T a).pascalCase T).head? ≠ some '_' := by
  obtain ⟨c, w, e, hc, -⟩ := pascal_shape hT h
  rw [e]; intro g; simp at g; rw [g] at hc; exact absurd hc (by decide)

theorem camel_not_underscore {T : CharTable} (hT : T.Ascii) {a : Str} (h : PlainAscii a) :
    ((Identifier.ofStr T a).camelCase T).head? ≠ some '_' := by
  obtain ⟨c, w, e, hc, -⟩ := camel_shape hT h
  rw [e]; intro g; simp at g; rw [g] at hc; exact absurd hc (by decide)

theorem tsType_eq_iff {T : CharTable} (hT : T.Ascii) {a b : Str} (ha : PlainAscii a) (hb : PlainAscii b) (x y : NameSuffix) :
    tsPascal T (Identifier.ofStr T a) (some x) = tsPascal T (Identifier.ofStr T b) (some y) ↔
      dropDigitSeparators (Identifier.ofStr T a).snakeCase = dropDigitSeparators (Identifier.ofStr T b).snakeCase ∧ x = y := by
  rw [← pascal_eq_iff hT ha hb]
  show tsEscape ((Identifier.ofStr T (a ++ ['_'] ++ x.text)).pascalCase T) =
    tsEscape ((Identifier.ofStr T (b ++ ['_'] ++ y.text)).pascalCase T) ↔ _
  constructor
  · intro h
    have := tsEscape_inj (pascal_not_underscore hT (plain_join ha x)) (pascal_not_underscore hT (plain_join hb y)) h
    rw [pascal_suffix hT, pascal_suffix hT] at this
    exact append_suffix_inj this
  · rintro ⟨h, rfl⟩
    rw [pascal_suffix hT, pascal_suffix hT, h]

theorem tsNamespace_eq_iff {T : CharTable} (hT : T.Ascii) {a b : Str} (ha : PlainAscii a) (hb : PlainAscii b) :
    tsPascal T (Identifier.ofStr T a) none = tsPascal T (Identifier.ofStr T b) none ↔
      dropDigitSeparators (Identifier.ofStr T a).snakeCase = dropDigitSeparators (Identifier.ofStr T b).snakeCase := by
  rw [← pascal_eq_iff hT ha hb]
  show tsEscape ((Identifier.ofStr T a).pascalCase T) = tsEscape ((Identifier.ofStr T b).pascalCase T) ↔ _
  exact ⟨tsEscape_inj (pascal_not_underscore hT ha) (pascal_not_underscore hT hb), fun h => by rw [h]⟩

theorem tsCamel_eq_iff {T : CharTable} (hT : T.Ascii) {a b : Str} (ha : PlainAscii a) (hb : PlainAscii b) :
    tsCamel T (Identifier.ofStr T a) = tsCamel T (Identifier.ofStr T b) ↔
      dropDigitSeparators (Identifier.ofStr T a).snakeCase = dropDigitSeparators (Identifier.ofStr T b).snakeCase := by
  rw [← camel_eq_iff hT ha hb]
  show tsEscape ((Identifier.ofStr T a).camelCase T) = tsEscape ((Identifier.ofStr T b).camelCase T) ↔ _
  exact ⟨tsEscape_inj (camel_not_underscore hT ha) (camel_not_underscore hT hb), fun h => by rw [h]⟩

theorem rustVariant_eq_iff {T : CharTable} (hT : T.Ascii) {a b : Str} (ha : PlainAscii a) (hb : PlainAscii b) :
    rustPascal T (Identifier.ofStr T a) none = rustPascal T (Identifier.ofStr T b) none ↔
      dropDigitSeparators (Identifier.ofStr T a).snakeCase = dropDigitSeparators (Identifier.ofStr T b).snakeCase := by
  rw [← pascal_eq_iff hT ha hb]
  show rustEscape ((Identifier.ofStr T a).pascalCase T) = rustEscape ((Identifier.ofStr T b).pascalCase T) ↔ _
  exact ⟨rustEscape_inj (pascal_no_hash hT ha) (pascal_no_hash hT hb), fun h => by rw [h]⟩

theorem rustSnake_eq_iff {T : CharTable} (hT : T.Ascii) {a b : Str} (ha : PlainAscii a) (hb : PlainAscii b) :
    rustSnake (Identifier.ofStr T a) = rustSnake (Identifier.ofStr T b) ↔
      (Identifier.ofStr T a).snakeCase = (Identifier.ofStr T b).snakeCase :=
  ⟨rustEscape_inj (snake_no_hash hT ha) (snake_no_hash hT hb), fun h => by unfold rustSnake; rw [h]⟩

/-- What a type's name looks like: an upper-case letter first, a suffix last. -/
theorem rustType_shape {T : CharTable} (hT : T.Ascii) {a : Str} (h : PlainAscii a) (x : NameSuffix) :
    ∃ c w p, rustPascal T (Identifier.ofStr T a) (some x) = c :: w ∧ c.isUpper = true ∧ c :: w = p ++ x.text := by
  obtain ⟨c, w, e, hc, -⟩ := pascal_shape hT (plain_join h x)
  have hs := pascal_suffix hT a x
  rw [e] at hs
  refine ⟨c, w, _, ?_, hc, hs⟩
  show rustEscape ((Identifier.ofStr T (a ++ ['_'] ++ x.text)).pascalCase T) = _
  rw [e]
  refine rustEscape_neg ?_
  rintro ⟨k, hk, e'⟩
  have all : ∀ k ∈ rustKeywords, k = "Self" ∨ k.toList.head?.all (fun c => !c.isUpper) = true := by decide +kernel
  rcases all k hk with rfl | h'
  · rw [hs] at e'
    have := congrArg List.getLast? e'
    rw [List.getLast?_append] at this
    revert this
    cases x <;> simp [NameSuffix.text]
  · rw [← e'] at h'
    simp [hc] at h'

/-! ### C64 -/

theorem Schemas.Plain.tree {T : CharTable} {S : Schemas} (h : S.Plain T) :
    (buildTree S).Only (fun i => ∃ a, PlainAscii a ∧ i = Identifier.ofStr T a)
      (fun d => ∃ a, PlainAscii a ∧ d.name = Identifier.ofStr T a) :=
  buildTree_only S (fun e he => ⟨h.files e he, h.declarations e he⟩)

theorem mem_types {T : CharTable} (hT : T.Ascii) {ds : List Declaration}
    (hd : ∀ d ∈ ds, ∃ a, PlainAscii a ∧ d.name = Identifier.ofStr T a) {n : Str}
    (h : n ∈ ds.flatMap (Declaration.rustTypes T)) : ∃ c w p x, n = c :: w ∧ c.isUpper = true ∧ n = p ++ NameSuffix.text x := by
  obtain ⟨d, hdm, hn⟩ := List.mem_flatMap.mp h
  obtain ⟨a, ha, e⟩ := hd d hdm
  obtain ⟨x, -, rfl⟩ := List.mem_map.mp hn
  obtain ⟨c, w, p, h1, h2, h3⟩ := rustType_shape hT ha x
  rw [e]
  exact ⟨c, w, p, x, h1, h2, h1.trans h3⟩

/-- A module has an item with a name in lower case iff that is part of the path of a file. -/
theorem lower_item_iff {T : CharTable} (hT : T.Ascii) {S : Schemas} (hp : S.Plain T) {path : List Str} {m : Module}
    (hm : (buildTree S).find path = some m) {n : Str} (h1 : '#' ∉ n) (h2 : ¬ IsWord rustKeywords n)
    (h3 : ∀ c w, n = c :: w → c.isUpper = false) :
    n ∈ m.rustItems T ↔ ∃ e ∈ S, path ++ [n] <+: e.1.key := by
  have ho := hp.tree.find path hm
  cases m with
  | mk children schema =>
    rw [← child_iff S hm]
    rw [Module.Only] at ho
    unfold Module.rustItems
    rw [List.mem_append]
    constructor
    · rintro (h | h)
      · obtain ⟨i, hi, e⟩ := List.mem_map.mp h
        exact ⟨i, hi, (rustEscape_eq h1 h2).mp e⟩
      · obtain ⟨c, w, p, x, e, hc, -⟩ := mem_types hT ho.2 h
        rw [h3 c w e] at hc
        cases hc
    · rintro ⟨i, hi, e⟩
      exact .inl (List.mem_map.mpr ⟨i, hi, (rustEscape_eq h1 h2).mpr e⟩)

/-- A name which begins with an upper-case letter and has none of the suffixes is not an item of any module. -/
theorem upper_not_item {T : CharTable} (hT : T.Ascii) {S : Schemas} (hp : S.Plain T) {path : List Str} {m : Module}
    (hm : (buildTree S).find path = some m) {n : Str}
    (h1 : n.head?.any (fun c => c.isUpper) = true) (h2 : ∀ x : NameSuffix, x.text.isSuffixOf n = false) : n ∉ m.rustItems T := by
  have ho := hp.tree.find path hm
  cases m with
  | mk children schema =>
    rw [Module.Only] at ho
    unfold Module.rustItems
    rw [List.mem_append]
    rintro (h | h)
    · obtain ⟨i, hi, e⟩ := List.mem_map.mp h
      obtain ⟨a, ha, rfl⟩ := ho.1.names i hi
      obtain ⟨c, w, e', hc, -⟩ := snake_shape hT ha
      unfold rustSnake at e
      rw [e'] at e
      by_cases hk : IsWord rustKeywords (c :: w)
      · rw [rustEscape_pos hk] at e
        rw [← e] at h1
        exact absurd h1 (by simp)
      · rw [rustEscape_neg hk] at e
        rw [← e] at h1
        simp [(lower_facts hc).2] at h1
    · obtain ⟨c, w, p, x, -, -, e⟩ := mem_types hT ho.2 h
      have := h2 x
      rw [← Bool.not_eq_true, List.isSuffixOf_iff_suffix] at this
      exact this ⟨p, e.symm⟩

/-- What has to hold for the names of the standard library in a generated Rust file: what the file imports at the top does not
conflict with its modules, and `std` refers to the standard library wherever it is used without leading `::` (in the import, and
in the code for some declarations). -/
structure StdResolves (T : CharTable) (tree : Module) : Prop where
  imports : NoConflict rustRootItems (tree.rustItems T)
  root : RefersToCrate (tree.rustItems T) "std".toList
  uses : ∀ path m, tree.find path = some m → (∃ d ∈ m.schema.declarations, d.relativeStd = true) →
    RefersToCrate (m.rustItems T) "std".toList

/-- A struct, or a choice with a field which is an array, but not of units. -/
def Declaration.ReadsLists (d : Declaration) : Prop :=
  d.variant = .struct ∨ ∃ f ∈ d.fields, ∃ r t, f.type.variant = .array r t ∧ t ≠ .unit

theorem relativeStd_iff (d : Declaration) : d.relativeStd = true ↔ d.ReadsLists := by
  have ht : ∀ v : TypeVariant, v.relativeStd = true ↔ ∃ r t, v = .array r t ∧ t ≠ .unit := by
    intro v
    cases v with
    | array r t => cases t <;> simp [TypeVariant.relativeStd]
    | _ => simp [TypeVariant.relativeStd]
  unfold Declaration.relativeStd Declaration.ReadsLists
  cases d.variant with
  | struct => simp
  | choice => simp [ht]

/-- **C64 (condition).** The names of the standard library are found in the generated Rust file if and only if no file or directory at
the top is called `io` or `std`, and no file with a struct, or with a choice which contains an array of something other than
units, has beside it a directory of the same name with a file or directory `std` in it. -/
theorem C64_std_iff_partial {T : CharTable} (hT : T.Ascii) (S : Schemas) (hl : S.Loaded) (hp : S.Plain T) :
    StdResolves T (buildTree S) ↔
      (∀ e ∈ S, e.1.key.head? ≠ some "io".toList ∧ e.1.key.head? ≠ some "std".toList) ∧
      ∀ e ∈ S, (∃ d ∈ e.2.declarations, d.ReadsLists) → ∀ e' ∈ S, ¬ e.1.key ++ ["std".toList] <+: e'.1.key := by
  simp only [← relativeStd_iff]
  have hroot : (buildTree S).find [] = some (buildTree S) := by cases buildTree S; rfl
  have std : ∀ {path : List Str} {m : Module}, (buildTree S).find path = some m →
      ("std".toList ∈ m.rustItems T ↔ ∃ e ∈ S, path ++ ["std".toList] <+: e.1.key) := by
    intro path m hm
    refine lower_item_iff hT hp hm (by decide) ?_ ?_
    · rw [← any_isWord]; decide +kernel
    · intro c w e; simp at e; rw [← e.1]; decide
  have io : ("io".toList ∈ (buildTree S).rustItems T ↔ ∃ e ∈ S, [] ++ ["io".toList] <+: e.1.key) := by
    refine lower_item_iff hT hp hroot (by decide) ?_ ?_
    · rw [← any_isWord]; decide +kernel
    · intro c w e; simp at e; rw [← e.1]; decide
  have head : ∀ (k : Str) (l : List Str), [] ++ [k] <+: l ↔ l.head? = some k := by
    intro k l
    cases l with
    | nil => simp
    | cons a l => simp [List.cons_prefix_cons, eq_comm]
  have top : ∀ k, (¬ ∃ e ∈ S, [] ++ [k] <+: e.1.key) ↔ ∀ e ∈ S, e.1.key.head? ≠ some k := by
    intro k
    constructor
    · intro h e he hk; exact h ⟨e, he, (head _ _).mpr hk⟩
    · rintro h ⟨e, he, hk⟩; exact h e he ((head _ _).mp hk)
  obtain ⟨l1, l2⟩ := C43_lookup S hl
  constructor
  · rintro ⟨h1, h2, h3⟩
    refine ⟨fun e he => ⟨?_, ?_⟩, ?_⟩
    · refine (top _).mp (fun g => ?_) e he
      exact h1 _ (io.mpr g) (by decide +kernel)
    · refine (top _).mp (fun g => ?_) e he
      exact h2 ((std hroot).mpr g)
    · intro e he hd e' he' hpre
      obtain ⟨m, hm, hs⟩ := l1 e.1 e.2 he
      exact h3 _ m hm (by rw [hs]; exact hd) ((std hm).mpr ⟨e', he', hpre⟩)
  · rintro ⟨h1, h2⟩
    refine ⟨?_, ?_, ?_⟩
    · intro x hx hr
      unfold rustRootItems at hr
      have up : ∀ s : String, s.toList.head?.any (fun c => c.isUpper) = true →
          ([NameSuffix.atlas, .in_, .out].all fun y => !(y.text.isSuffixOf s.toList)) = true → x ≠ s.toList := by
        intro s g1 g2 e
        rw [e] at hx
        refine upper_not_item hT hp hroot g1 ?_ hx
        intro y
        have := List.all_eq_true.mp g2 y (by cases y <;> simp)
        simpa using this
      simp only [List.mem_cons, List.not_mem_nil, or_false] at hr
      rcases hr with e | e | e | e | e | e | e
      · rw [e] at hx
        exact (top _).mpr (fun e he => (h1 e he).1) (io.mp hx)
      · exact up _ (by decide +kernel) (by decide +kernel) e
      · exact up _ (by decide +kernel) (by decide +kernel) e
      · exact up _ (by decide +kernel) (by decide +kernel) e
      · exact up _ (by decide +kernel) (by decide +kernel) e
      · exact up _ (by decide +kernel) (by decide +kernel) e
      · exact up _ (by decide +kernel) (by decide +kernel) e
    · intro g
      exact (top _).mpr (fun e he => (h1 e he).2) ((std hroot).mp g)
    · intro path m hm hd g
      obtain ⟨e', he', hpre⟩ := (std hm).mp g
      rcases l2 path m hm with ⟨ns, hns, hk⟩ | hempty
      · exact h2 _ hns hd e' he' (by rw [hk]; exact hpre)
      · obtain ⟨d, hdm, -⟩ := hd
        rw [hempty] at hdm
        cases hdm

/-- The names of the Rust prelude, and derived traits, which the code for declarations uses: lines 17, 824, 1436-1460, 1543, 1625-1640,
1686, 2143 and others. -/
def rustPrelude : List Str :=
  ["Box".toList, "Clone".toList, "Debug".toList, "Err".toList, "From".toList, "None".toList, "Ok".toList, "Option".toList,
   "Result".toList, "Self".toList, "Some".toList, "String".toList, "Vec".toList]

/-- **C64 (prelude).** No module of the generated code defines a type or module with the name of something in the prelude. -/
theorem C64_prelude {T : CharTable} (hT : T.Ascii) (S : Schemas) (hp : S.Plain T) {path : List Str} {m : Module}
    (hm : (buildTree S).find path = some m) : NoConflict rustPrelude (m.rustItems T) := by
  intro x hx hr
  have all : (rustPrelude.all fun n => n.head?.any (fun c => c.isUpper) &&
      [NameSuffix.atlas, .in_, .out].all fun y => !(y.text.isSuffixOf n)) = true := by decide +kernel
  have := List.all_eq_true.mp all x hr
  rw [Bool.and_eq_true] at this
  refine upper_not_item hT hp hm this.1 ?_ hx
  intro y
  have := List.all_eq_true.mp this.2 y (by cases y <;> simp)
  simpa using this

/-- A file, given by the parts of its path, with a struct `s`. -/
def structFile (path : List String) : Namespace × Schema :=
  (⟨path.map (fun p => Identifier.ofStr asciiTable p.toList)⟩,
   ⟨[], [], [⟨⟨0, 0⟩, [], .struct, Identifier.ofStr asciiTable "s".toList, [], []⟩]⟩)

theorem plainAscii_of {s : String} (hs : (match s.toList with
      | [] => false
      | c :: w => c.isAlpha && w.all (fun d => d.isAlphanum || d == '_')) = true) : PlainAscii s.toList := by
  cases h : s.toList with
  | nil => rw [h] at hs; cases hs
  | cons c w =>
    rw [h] at hs
    simp only [Bool.and_eq_true, List.all_eq_true, Bool.or_eq_true, beq_iff_eq] at hs
    exact ⟨c, w, rfl, hs.1, hs.2⟩

theorem structFiles_plain (paths : List (List String)) (h : ∀ p ∈ paths, ∀ s ∈ p, PlainAscii s.toList) :
    Schemas.Plain asciiTable (paths.map structFile) := by
  constructor
  · intro e he i hi
    obtain ⟨p, hp, rfl⟩ := List.mem_map.mp he
    obtain ⟨s, hs, rfl⟩ := List.mem_map.mp hi
    exact ⟨_, h p hp s hs, rfl⟩
  · intro e he d hd
    obtain ⟨p, hp, rfl⟩ := List.mem_map.mp he
    rw [List.mem_singleton.mp hd]
    exact ⟨_, plainAscii_of (s := "s") (by decide +kernel), rfl⟩
  · intro e he d hd f hf
    obtain ⟨p, hp, rfl⟩ := List.mem_map.mp he
    rw [List.mem_singleton.mp hd] at hf
    cases hf

theorem structFiles_loaded (paths : List (List String)) (h : ((paths.map structFile).map (fun e => e.1.key)).Nodup) :
    Schemas.Loaded (paths.map structFile) := by
  constructor
  · exact h
  · intro e he; obtain ⟨p, -, rfl⟩ := List.mem_map.mp he; exact List.nodup_nil
  · intro e he i hi; obtain ⟨p, -, rfl⟩ := List.mem_map.mp he; cases hi
  · intro e he d hd
    obtain ⟨p, -, rfl⟩ := List.mem_map.mp he
    rw [List.mem_singleton.mp hd]; exact List.nodup_nil

/-- The condition can be met: `main.t`, `main/io.t` and `main/sub/std.t`. -/
example : StdResolves asciiTable (buildTree ([["main"], ["main", "io"], ["main", "sub", "std"]].map structFile)) := by
  rw [C64_std_iff_partial asciiTable_ascii _ (structFiles_loaded _ (by decide +kernel)) (structFiles_plain _ (by
    intro p hp s hs
    simp only [List.mem_cons, List.not_mem_nil, or_false] at hp
    rcases hp with rfl | rfl | rfl <;> simp only [List.mem_cons, List.not_mem_nil, or_false] at hs
    · subst hs; exact plainAscii_of (by decide +kernel)
    · rcases hs with rfl | rfl <;> exact plainAscii_of (by decide +kernel)
    · rcases hs with rfl | rfl | rfl <;> exact plainAscii_of (by decide +kernel)))]
  refine ⟨by decide +kernel, ?_⟩
  have key : ∀ e ∈ [["main"], ["main", "io"], ["main", "sub", "std"]].map structFile,
      ∀ e' ∈ [["main"], ["main", "io"], ["main", "sub", "std"]].map structFile,
        ¬ e.1.key ++ ["std".toList] <+: e'.1.key := by decide +kernel
  intro e he _
  exact key e he

/-- **C64 (witnesses).** A file `io.t` at the top, a file `std.t` at the top, or a file `main.t` with a struct beside a file
`main/std.t`: the generated Rust does not compile. -/
theorem C64_witness :
    ¬ StdResolves asciiTable (buildTree [structFile ["io"]]) ∧
    ¬ StdResolves asciiTable (buildTree [structFile ["std"]]) ∧
    ¬ StdResolves asciiTable (buildTree [structFile ["main"], structFile ["main", "std"]]) := by
  have h1 := C64_std_iff_partial asciiTable_ascii ([["io"]].map structFile) (structFiles_loaded _ (by decide +kernel))
    (structFiles_plain _ (by
      intro p hp s hs; rw [List.mem_singleton.mp hp] at hs; rw [List.mem_singleton.mp hs]
      exact plainAscii_of (by decide +kernel)))
  have h2 := C64_std_iff_partial asciiTable_ascii ([["std"]].map structFile) (structFiles_loaded _ (by decide +kernel))
    (structFiles_plain _ (by
      intro p hp s hs; rw [List.mem_singleton.mp hp] at hs; rw [List.mem_singleton.mp hs]
      exact plainAscii_of (by decide +kernel)))
  have h3 := C64_std_iff_partial asciiTable_ascii ([["main"], ["main", "std"]].map structFile)
    (structFiles_loaded _ (by decide +kernel))
    (structFiles_plain _ (by
      intro p hp s hs
      simp only [List.mem_cons, List.not_mem_nil, or_false] at hp
      rcases hp with rfl | rfl <;> simp only [List.mem_cons, List.not_mem_nil, or_false] at hs
      · subst hs; exact plainAscii_of (by decide +kernel)
      · rcases hs with rfl | rfl <;> exact plainAscii_of (by decide +kernel)))
  refine ⟨fun h => ?_, fun h => ?_, fun h => ?_⟩
  · exact ((h1.mp h).1 _ (List.mem_singleton_self _)).1 (by decide +kernel)
  · exact ((h2.mp h).1 _ (List.mem_singleton_self _)).2 (by decide +kernel)
  · exact (h3.mp h).2 (structFile ["main"]) (by simp) ⟨_, List.mem_singleton_self _, .inl rfl⟩ (structFile ["main", "std"]) (by simp)
      (by decide +kernel)

/-! ### C65: no two definitions with the same name in one scope -/

mutual
/-- Modules inside a module have different names, at all depths. -/
def Module.Distinct : Module → Prop
  | .mk children _ => children.Distinct ∧ (children.names.map Identifier.snakeCase).Nodup
def Modules.Distinct : Modules → Prop
  | .nil => True
  | .cons _ m rest => m.Distinct ∧ rest.Distinct
end

theorem Modules.Distinct.get {k : Str} {m : Module} : ∀ {ms : Modules}, ms.Distinct → ms.get k = some m → m.Distinct
  | .nil, _, h => by simp [Modules.get] at h
  | .cons i m' rest, hd, h => by
    rw [Modules.Distinct] at hd
    rw [Modules.get] at h
    split at h
    · cases h; exact hd.1
    · exact hd.2.get h

theorem Modules.Distinct.set {k : Str} {m : Module} (hm : m.Distinct) : ∀ {ms : Modules}, ms.Distinct → (ms.set k m).Distinct
  | .nil, _ => by simp [Modules.set, Modules.Distinct]
  | .cons i m' rest, hd => by
    rw [Modules.Distinct] at hd
    rw [Modules.set]
    split
    · rw [Modules.Distinct]; exact ⟨hm, hd.2⟩
    · rw [Modules.Distinct]; exact ⟨hd.1, hd.2.set hm⟩

theorem Modules.Distinct.insert {k : Identifier} {m : Module} (hm : m.Distinct) : ∀ {ms : Modules}, ms.Distinct →
    (ms.insert k m).Distinct
  | .nil, _ => by simp [Modules.insert, Modules.Distinct, hm]
  | .cons i m' rest, hd => by
    rw [Modules.insert]
    split
    · rw [Modules.Distinct]; exact ⟨hm, hd⟩
    · rw [Modules.Distinct] at hd ⊢; exact ⟨hd.1, hd.2.insert hm⟩

theorem Modules.set_names (k : Str) (m : Module) : ∀ ms : Modules, (ms.set k m).names = ms.names
  | .nil => rfl
  | .cons i m' rest => by
    rw [Modules.set]
    split
    · rfl
    · rw [Modules.names, Modules.names, Modules.set_names k m rest]

theorem Modules.insert_names (k : Identifier) (m : Module) : ∀ ms : Modules, (ms.insert k m).names.Perm (k :: ms.names)
  | .nil => .refl _
  | .cons i m' rest => by
    rw [Modules.insert]
    split
    · exact .refl _
    · rw [Modules.names, Modules.names]
      exact ((Modules.insert_names k m rest).cons i).trans (.swap ..)

theorem insertSchema_distinct (s : Schema) : ∀ (p : List Identifier) (m : Module), m.Distinct → (insertSchema m p s).Distinct
  | [], .mk children s0, hm => by rw [insertSchema, Module.Distinct] at *; exact hm
  | i :: p, .mk children s0, hm => by
    rw [Module.Distinct] at hm
    rw [insertSchema]
    cases h : children.get i.snakeCase with
    | some child =>
      dsimp only
      rw [Module.Distinct, Modules.set_names]
      exact ⟨hm.1.set (insertSchema_distinct s p child (hm.1.get h)), hm.2⟩
    | none =>
      dsimp only
      rw [Module.Distinct]
      refine ⟨hm.1.insert (insertSchema_distinct s p .empty ?_), ?_⟩
      · simp [Module.empty, Module.Distinct, Modules.Distinct, Modules.names]
      · rw [((Modules.insert_names i _ children).map _).nodup_iff, List.map_cons, List.nodup_cons]
        refine ⟨?_, hm.2⟩
        intro g
        obtain ⟨j, hj, e⟩ := List.mem_map.mp g
        have := (Modules.get_names i.snakeCase children).mpr ⟨j, hj, e⟩
        rw [h] at this
        cases this

theorem buildTree_distinct (S : Schemas) : (buildTree S).Distinct := by
  have key : ∀ (l : Schemas) (m : Module), m.Distinct → (l.foldl (fun m e => insertSchema m e.1.components e.2) m).Distinct := by
    intro l
    induction l with
    | nil => intro m hm; exact hm
    | cons e l ih => intro m hm; exact ih _ (insertSchema_distinct _ _ _ hm)
  exact key S _ (by simp [Module.empty, Module.Distinct, Modules.Distinct, Modules.names])

theorem Module.Distinct.find : ∀ (path : List Str) {m m' : Module}, m.Distinct → m.find path = some m' → m'.Distinct
  | [], m, m', ho, h => by
    cases m with
    | mk ms s => rw [Module.find] at h; cases h; exact ho
  | k :: path, .mk ms s, m', ho, h => by
    rw [Module.find_cons] at h
    cases hg : ms.get k with
    | none => rw [hg] at h; cases h
    | some c =>
      rw [hg] at h
      rw [Module.Distinct] at ho
      exact Module.Distinct.find path (ho.1.get hg) h

/-- Several names for each element of a list: they are all different iff the elements have different keys. -/
theorem nodup_flatMap_keys {α β γ κ : Type} {l : List α} {xs : List β} (hx : xs.Nodup) {b : β} (hb : b ∈ xs) {mk : α → β → γ}
    {key : α → κ} (h : ∀ e ∈ l, ∀ e' ∈ l, ∀ x y, mk e x = mk e' y ↔ key e = key e' ∧ x = y) :
    (l.flatMap (fun e => xs.map (mk e))).Nodup ↔ (l.map key).Nodup := by
  rw [List.nodup_flatMap]
  constructor
  · rintro ⟨-, hp⟩
    rw [List.Nodup, List.pairwise_map]
    refine hp.imp_of_mem ?_
    intro e e' he he' hd hk
    have : mk e b = mk e' b := (h e he e' he' b b).mpr ⟨hk, rfl⟩
    exact hd (List.mem_map.mpr ⟨b, hb, rfl⟩) (this ▸ List.mem_map.mpr ⟨b, hb, rfl⟩)
  · intro hn
    rw [List.Nodup, List.pairwise_map] at hn
    refine ⟨?_, ?_⟩
    · intro e he
      exact hx.map_on (fun x _ y _ hxy => ((h e he e he x y).mp hxy).2)
    · refine hn.imp_of_mem ?_
      intro e e' he he' hk z hz hz'
      obtain ⟨x, -, rfl⟩ := List.mem_map.mp hz
      obtain ⟨y, -, hy⟩ := List.mem_map.mp hz'
      exact hk ((h e' he' e he y x).mp hy).1.symm

theorem nodup_map_keys {α γ κ : Type} {l : List α} {mk : α → γ} {key : α → κ}
    (h : ∀ e ∈ l, ∀ e' ∈ l, mk e = mk e' ↔ key e = key e') : (l.map mk).Nodup ↔ (l.map key).Nodup := by
  rw [List.Nodup, List.pairwise_map, List.Nodup, List.pairwise_map]
  exact ⟨fun hp => hp.imp_of_mem (fun he he' g e => g ((h _ he _ he').mpr e)),
    fun hp => hp.imp_of_mem (fun he he' g e => g ((h _ he _ he').mp e))⟩

theorem typeSuffixes_nodup : typeSuffixes.Nodup := by decide

/-- **C65 (Rust modules).** The modules and types in one module of the generated Rust have different names, if and only if no two
declarations of the file differ only in underscores before digits. -/
theorem C65_rust_items_partial {T : CharTable} (hT : T.Ascii) (S : Schemas) (hp : S.Plain T) {path : List Str} {m : Module}
    (hm : (buildTree S).find path = some m) :
    (m.rustItems T).Nodup ↔ (m.schema.declarations.map (fun d => dropDigitSeparators d.name.snakeCase)).Nodup := by
  have ho := hp.tree.find path hm
  have hd := (buildTree_distinct S).find path hm
  cases m with
  | mk children schema =>
    rw [Module.Only] at ho
    rw [Module.Distinct] at hd
    show (children.names.map rustSnake ++ schema.declarations.flatMap (Declaration.rustTypes T)).Nodup ↔
      (schema.declarations.map (fun d => dropDigitSeparators d.name.snakeCase)).Nodup
    have types := nodup_flatMap_keys (l := schema.declarations) typeSuffixes_nodup (b := .atlas) (by decide)
      (mk := fun d x => rustPascal T d.name (some x)) (key := fun d => dropDigitSeparators d.name.snakeCase) (by
        intro d hd d' hd' x y
        obtain ⟨a, ha, e⟩ := ho.2 d hd
        obtain ⟨b, hb, e'⟩ := ho.2 d' hd'
        rw [e, e']
        exact rustType_eq_iff hT ha hb x y)
    have mods : (children.names.map rustSnake).Nodup := by
      rw [nodup_map_keys (key := Identifier.snakeCase)]
      · exact hd.2
      · intro i hi j hj
        obtain ⟨a, ha, rfl⟩ := ho.1.names i hi
        obtain ⟨b, hb, rfl⟩ := ho.1.names j hj
        exact rustSnake_eq_iff hT ha hb
    rw [List.nodup_append']
    constructor
    · rintro ⟨-, h, -⟩; exact types.mp h
    · intro h
      refine ⟨mods, types.mpr h, ?_⟩
      intro n hn hn'
      obtain ⟨c, w, p, x, e, hc, -⟩ := mem_types hT ho.2 hn'
      obtain ⟨i, hi, e'⟩ := List.mem_map.mp hn
      obtain ⟨a, ha, rfl⟩ := ho.1.names i hi
      obtain ⟨c', w', e2, hc', -⟩ := snake_shape hT ha
      unfold rustSnake at e'
      rw [e2] at e'
      by_cases hk : IsWord rustKeywords (c' :: w')
      · rw [rustEscape_pos hk, e] at e'
        rw [← (List.cons.inj e').1] at hc
        exact absurd hc (by decide)
      · rw [rustEscape_neg hk, e] at e'
        rw [← (List.cons.inj e').1, (lower_facts hc').2] at hc
        cases hc

/-- **C65 (Rust fields).** The fields of the generated Rust structs (with `_size` for the atlas) have different names. -/
theorem C65_rust_fields {T : CharTable} (hT : T.Ascii) (S : Schemas) (hp : S.Plain T) (hw : S.WellFormed)
    {e : Namespace × Schema} (he : e ∈ S) {d : Declaration} (hd : d ∈ e.2.declarations) (x : NameSuffix) :
    (rustFieldNames x d.fields).Nodup := by
  have hf := hp.fields e he d hd
  have hn := (hw.declarations e he d hd).names
  have h1 : (d.fields.map (fun f => rustSnake f.name)).Nodup := by
    rw [nodup_map_keys (key := fun f => f.name.snakeCase)]
    · exact hn
    · intro f hf1 g hg1
      obtain ⟨a, ha, e⟩ := hf f hf1
      obtain ⟨b, hb, e'⟩ := hf g hg1
      rw [e, e']
      exact rustSnake_eq_iff hT ha hb
  unfold rustFieldNames
  split
  · rw [List.singleton_append, List.nodup_cons]
    refine ⟨?_, h1⟩
    intro g
    obtain ⟨f, hf1, e'⟩ := List.mem_map.mp g
    obtain ⟨a, ha, e2⟩ := hf f hf1
    obtain ⟨c, w, e3, hc, -⟩ := snake_shape hT ha
    rw [e2, rustSnake, e3] at e'
    by_cases hk : IsWord rustKeywords (c :: w)
    · rw [rustEscape_pos hk] at e'; simp at e'
    · rw [rustEscape_neg hk] at e'
      rw [(List.cons.inj e').1] at hc
      exact absurd hc (by decide)
  · exact h1

/-- **C65 (Rust variants).** The variants of the generated Rust enums have different names, if and only if no two fields of the choice
differ only in underscores before digits. -/
theorem C65_rust_variants_partial {T : CharTable} (hT : T.Ascii) (S : Schemas) (hp : S.Plain T)
    {e : Namespace × Schema} (he : e ∈ S) {d : Declaration} (hd : d ∈ e.2.declarations) :
    (rustVariantNames T d.fields).Nodup ↔ (d.fields.map (fun f => dropDigitSeparators f.name.snakeCase)).Nodup := by
  have hf := hp.fields e he d hd
  refine nodup_map_keys ?_
  intro f hf1 g hg1
  obtain ⟨a, ha, e⟩ := hf f hf1
  obtain ⟨b, hb, e'⟩ := hf g hg1
  rw [e, e']
  exact rustVariant_eq_iff hT ha hb

/-- **C65 (TypeScript properties).** The properties of the generated TypeScript types (with `$size` for the atlas) have different names, if
and only if no two fields differ only in underscores before digits. -/
theorem C65_ts_fields_partial {T : CharTable} (hT : T.Ascii) (S : Schemas) (hp : S.Plain T)
    {e : Namespace × Schema} (he : e ∈ S) {d : Declaration} (hd : d ∈ e.2.declarations) (x : NameSuffix) :
    (tsFieldNames T x d.fields).Nodup ↔ (d.fields.map (fun f => dropDigitSeparators f.name.snakeCase)).Nodup := by
  have hf := hp.fields e he d hd
  have h1 : (d.fields.map (fun f => tsCamel T f.name)).Nodup ↔
      (d.fields.map (fun f => dropDigitSeparators f.name.snakeCase)).Nodup := by
    refine nodup_map_keys ?_
    intro f hf1 g hg1
    obtain ⟨a, ha, e⟩ := hf f hf1
    obtain ⟨b, hb, e'⟩ := hf g hg1
    rw [e, e']
    exact tsCamel_eq_iff hT ha hb
  unfold tsFieldNames
  split
  · rw [List.singleton_append, List.nodup_cons, h1]
    refine and_iff_right ?_
    intro g
    obtain ⟨f, hf1, e'⟩ := List.mem_map.mp g
    obtain ⟨a, ha, e2⟩ := hf f hf1
    obtain ⟨c, w, e3, hc, -⟩ := camel_shape hT ha
    rw [e2, tsCamel, e3] at e'
    by_cases hk : IsWord tsKeywords (c :: w)
    · rw [tsEscape_pos hk] at e'; simp at e'
    · rw [tsEscape_neg hk] at e'
      rw [(List.cons.inj e').1] at hc
      exact absurd hc (by decide)
  · exact h1

mutual
theorem Module.written_only {P : Identifier → Prop} {Q : Declaration → Prop} : ∀ (m : Module) (ns : List Identifier),
    m.Only P Q → (∀ i ∈ ns, P i) → ∀ e ∈ m.written ns, (∀ i ∈ e.1, P i) ∧ Q e.2
  | .mk children schema, ns, ho, hn, e, he => by
    rw [Module.Only] at ho
    rw [Module.written] at he
    rcases List.mem_append.mp he with he | he
    · exact Modules.written_only children ns ho.1 hn e he
    · obtain ⟨d, hd, rfl⟩ := List.mem_map.mp he
      exact ⟨hn, ho.2 d hd⟩
theorem Modules.written_only {P : Identifier → Prop} {Q : Declaration → Prop} : ∀ (ms : Modules) (ns : List Identifier),
    ms.Only P Q → (∀ i ∈ ns, P i) → ∀ e ∈ ms.written ns, (∀ i ∈ e.1, P i) ∧ Q e.2
  | .nil, _, _, _, e, he => by rw [Modules.written] at he; cases he
  | .cons i m rest, ns, ho, hn, e, he => by
    rw [Modules.Only] at ho
    rw [Modules.written] at he
    rcases List.mem_append.mp he with he | he
    · refine Module.written_only m (ns ++ [i]) ho.2.1 ?_ e he
      intro j hj
      rcases List.mem_append.mp hj with hj | hj
      · exact hn j hj
      · rw [List.mem_singleton.mp hj]; exact ho.1
    · exact Modules.written_only rest ns ho.2.2 hn e he
end

/-- **C65 (TypeScript types).** The types in each namespace of the generated TypeScript have different names, if and only if no two
declarations, in the same file or not, have names and namespaces which differ only in underscores before digits. -/
theorem C65_ts_types_partial {T : CharTable} (hT : T.Ascii) (S : Schemas) (hl : S.Loaded) (hp : S.Plain T) :
    ((buildTree S).tsTypes T).Nodup ↔
      (S.flatMap (fun e => e.2.declarations.map (fun d =>
        (e.1.key.map dropDigitSeparators, dropDigitSeparators d.name.snakeCase)))).Nodup := by
  have hw := Module.written_only (buildTree S) [] hp.tree (by intro i hi; cases hi)
  have paths : ∀ p q : List Identifier, (∀ i ∈ p, ∃ a, PlainAscii a ∧ i = Identifier.ofStr T a) →
      (∀ i ∈ q, ∃ a, PlainAscii a ∧ i = Identifier.ofStr T a) →
      (p.map (fun i => tsPascal T i none) = q.map (fun i => tsPascal T i none) ↔
        p.map (fun i => dropDigitSeparators i.snakeCase) = q.map (fun i => dropDigitSeparators i.snakeCase)) := by
    intro p
    induction p with
    | nil => intro q _ _; cases q <;> simp
    | cons i p ih =>
      intro q h1 h2
      cases q with
      | nil => simp
      | cons j q =>
        obtain ⟨a, ha, e⟩ := h1 i (by simp)
        obtain ⟨b, hb, e'⟩ := h2 j (by simp)
        rw [List.map_cons, List.map_cons, List.map_cons, List.map_cons, List.cons.injEq, List.cons.injEq,
          ih q (fun k hk => h1 k (by simp [hk])) (fun k hk => h2 k (by simp [hk])), e, e', tsNamespace_eq_iff hT ha hb]
  unfold Module.tsTypes
  rw [nodup_flatMap_keys (l := (buildTree S).written []) typeSuffixes_nodup (b := .atlas) (by decide)
    (mk := fun e x => (e.1.map (fun i => tsPascal T i none), tsPascal T e.2.name (some x)))
    (key := fun e => (e.1.map (fun i => dropDigitSeparators i.snakeCase), dropDigitSeparators e.2.name.snakeCase))]
  · have hperm := C43_each_declaration_once S hl
    have := (hperm.map (fun e : List Str × Declaration =>
      (e.1.map dropDigitSeparators, dropDigitSeparators e.2.name.snakeCase))).nodup_iff
    rw [List.map_map, List.map_flatMap] at this
    have e1 : ((fun e : List Str × Declaration => (e.1.map dropDigitSeparators, dropDigitSeparators e.2.name.snakeCase)) ∘
        fun e : List Identifier × Declaration => (e.1.map Identifier.snakeCase, e.2)) =
        fun e => (e.1.map (fun i => dropDigitSeparators i.snakeCase), dropDigitSeparators e.2.name.snakeCase) := by
      funext e; simp
    rw [e1] at this
    rw [this]
    simp only [List.map_map]
    exact Iff.rfl
  · intro e he e' he' x y
    obtain ⟨h1, a, ha, e1⟩ := hw e he
    obtain ⟨h2, b, hb, e2⟩ := hw e' he'
    rw [Prod.mk.injEq, Prod.mk.injEq, paths e.1 e'.1 h1 h2, e1, e2, tsType_eq_iff hT ha hb, and_assoc]

/-- **C65 (sufficient condition).** If schemas are accepted by the validator and no name in them has an underscore before a digit (in snake
case), then no two definitions in the same scope of the generated code have the same name. -/
theorem C65_no_digit_words_partial {T : CharTable} (hT : T.Ascii) (S : Schemas) (hl : S.Loaded) (hp : S.Plain T)
    (hv : validate S = .ok [])
    (h1 : ∀ e ∈ S, ∀ i ∈ e.1.components, dropDigitSeparators i.snakeCase = i.snakeCase)
    (h2 : ∀ e ∈ S, ∀ d ∈ e.2.declarations, dropDigitSeparators d.name.snakeCase = d.name.snakeCase)
    (h3 : ∀ e ∈ S, ∀ d ∈ e.2.declarations, ∀ f ∈ d.fields, dropDigitSeparators f.name.snakeCase = f.name.snakeCase) :
    (∀ path m, (buildTree S).find path = some m → (m.rustItems T).Nodup) ∧
    (∀ e ∈ S, ∀ d ∈ e.2.declarations, (rustVariantNames T d.fields).Nodup) ∧
    (∀ e ∈ S, ∀ d ∈ e.2.declarations, ∀ x, (rustFieldNames x d.fields).Nodup ∧ (tsFieldNames T x d.fields).Nodup) ∧
    ((buildTree S).tsTypes T).Nodup := by
  have hw := (C28_accepts_exactly_well_formed S hl).mp hv
  have fields : ∀ e ∈ S, ∀ d ∈ e.2.declarations, (d.fields.map (fun f => dropDigitSeparators f.name.snakeCase)).Nodup := by
    intro e he d hd
    rw [nodup_map_keys (key := fun f => f.name.snakeCase)]
    · exact (hw.declarations e he d hd).names
    · intro f hf g hg; rw [h3 e he d hd f hf, h3 e he d hd g hg]
  have decls : ∀ e ∈ S, (e.2.declarations.map (fun d => dropDigitSeparators d.name.snakeCase)).Nodup := by
    intro e he
    rw [nodup_map_keys (key := fun d => d.name.snakeCase)]
    · exact hw.names e he
    · intro d hd d' hd'; rw [h2 e he d hd, h2 e he d' hd']
  refine ⟨?_, ?_, ?_, ?_⟩
  · intro path m hm
    rw [C65_rust_items_partial hT S hp hm]
    rcases (C43_lookup S hl).2 path m hm with ⟨ns, hns, -⟩ | h
    · exact decls _ hns
    · rw [h]; exact List.nodup_nil
  · intro e he d hd; exact (C65_rust_variants_partial hT S hp he hd).mpr (fields e he d hd)
  · intro e he d hd x
    exact ⟨C65_rust_fields hT S hp hw he hd x, (C65_ts_fields_partial hT S hp he hd x).mpr (fields e he d hd)⟩
  · rw [C65_ts_types_partial hT S hl hp, List.nodup_flatMap]
    have hkey : ∀ e ∈ S, e.1.key.map dropDigitSeparators = e.1.key := by
      intro e he
      conv => rhs; rw [← List.map_id e.1.key]
      apply List.map_congr_left
      intro k hk
      obtain ⟨i, hi, rfl⟩ := List.mem_map.mp hk
      exact h1 e he i hi
    refine ⟨?_, ?_⟩
    · intro e he
      rw [nodup_map_keys (key := fun d => dropDigitSeparators d.name.snakeCase)]
      · exact decls e he
      · intro d _ d' _; simp
    · have hn := hl.namespaces
      rw [List.Nodup, List.pairwise_map] at hn
      refine hn.imp_of_mem ?_
      intro e e' he he' hne z hz hz'
      obtain ⟨d, -, rfl⟩ := List.mem_map.mp hz
      obtain ⟨d', -, e2⟩ := List.mem_map.mp hz'
      have := (Prod.mk.inj e2).1
      rw [hkey e he, hkey e' he'] at this
      exact hne this.symm

/-- A file `main.t` with structs of these names, the first with fields of these names. -/
def namedFile (a b : String) (fields : List String) : Schemas :=
  [(⟨[Identifier.ofStr asciiTable "main".toList]⟩, ⟨[], [],
    [⟨⟨0, 0⟩, [], .choice, Identifier.ofStr asciiTable a.toList, fields.zipIdx.map (fun p =>
        ⟨⟨0, 0⟩, [], .required, Identifier.ofStr asciiTable p.1.toList, ⟨⟨0, 0⟩, .u64⟩, p.2⟩), []⟩,
     ⟨⟨0, 0⟩, [], .struct, Identifier.ofStr asciiTable b.toList, [], []⟩]⟩)]

theorem namedFile_plain (a b : String) (fields : List String) (ha : PlainAscii a.toList) (hb : PlainAscii b.toList)
    (hf : ∀ f ∈ fields, PlainAscii f.toList) : Schemas.Plain asciiTable (namedFile a b fields) := by
  constructor
  · intro e he i hi
    rw [List.mem_singleton.mp he] at hi
    rw [List.mem_singleton.mp hi]
    exact ⟨_, plainAscii_of (s := "main") (by decide +kernel), rfl⟩
  · intro e he d hd
    rw [List.mem_singleton.mp he] at hd
    simp only [List.mem_cons, List.not_mem_nil, or_false] at hd
    rcases hd with rfl | rfl
    · exact ⟨_, ha, rfl⟩
    · exact ⟨_, hb, rfl⟩
  · intro e he d hd f hfm
    rw [List.mem_singleton.mp he] at hd
    simp only [List.mem_cons, List.not_mem_nil, or_false] at hd
    rcases hd with rfl | rfl
    · obtain ⟨p, hp, rfl⟩ := List.mem_map.mp hfm
      have hp1 : p.1 ∈ fields := by
        obtain ⟨n, i⟩ := p
        exact List.fst_mem_of_mem_zipIdx hp
      exact ⟨_, hf _ hp1, rfl⟩
    · cases hfm

/-- The conditions of `C65_no_digit_words_partial` can be met. -/
example : validate (namedFile "point" "point_in" ["x1", "type", "union"]) = .ok [] ∧
    (∀ e ∈ namedFile "point" "point_in" ["x1", "type", "union"], ∀ d ∈ e.2.declarations,
      dropDigitSeparators d.name.snakeCase = d.name.snakeCase ∧
      ∀ f ∈ d.fields, dropDigitSeparators f.name.snakeCase = f.name.snakeCase) := by
  refine ⟨by decide +kernel, ?_⟩
  intro e he
  rw [List.mem_singleton.mp he]
  decide +kernel

/-- **C65 (witness).** The validator accepts a file with types `v1` and `v_1`, or with fields `x1` and `x_1`; the generated code
defines each type, variant or property twice. -/
theorem C65_digit_witness :
    validate (namedFile "v1" "v_1" ["x1", "x_1"]) = .ok [] ∧
    (∀ m, (buildTree (namedFile "v1" "v_1" ["x1", "x_1"])).find ["main".toList] = some m → ¬ (m.rustItems asciiTable).Nodup) ∧
    (∀ e ∈ namedFile "v1" "v_1" ["x1", "x_1"], ∀ d ∈ e.2.declarations, d.variant = .choice →
      ¬ (rustVariantNames asciiTable d.fields).Nodup ∧ ¬ (tsFieldNames asciiTable .out d.fields).Nodup) ∧
    ¬ ((buildTree (namedFile "v1" "v_1" ["x1", "x_1"])).tsTypes asciiTable).Nodup := by
  refine ⟨by decide +kernel, ?_, ?_, by decide +kernel⟩
  · intro m hm
    have : (buildTree (namedFile "v1" "v_1" ["x1", "x_1"])).find ["main".toList] =
      some (.mk .nil _) := rfl
    rw [this] at hm
    cases hm
    decide +kernel
  · intro e he
    rw [List.mem_singleton.mp he]
    decide +kernel

end Typical

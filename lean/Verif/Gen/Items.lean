import Verif.Gen.Program
import Verif.Spec.RustTypes

/-!
# The types which the generated program defines
-/

namespace Typical.Gen

/-- The name of the type. -/
def Item.name : Item → Str
  | .struct name _ => name
  | .enum name _ => name

/-- The types in the generated modules. -/
def items (T : CharTable) (S : Schemas) : Items := fun id =>
  match (buildTree S).findText [] id.1 with
  | none => none
  | some (ns, schema) => schema.declarations.findSome? (fun d =>
      (declCode T schema ⟨ns⟩ d).types.find? (fun i => decide (i.name = id.2)))

/-- The types of a declaration which the generated modules have: those of messages to be written and to be read, and the atlas. -/
def impls (T : CharTable) (S : Schemas) (o i a : TypeId) : Prop :=
  ∃ ns s d, (buildTree S).findText [] o.1 = some (ns, s) ∧ d ∈ s.declarations ∧
    o = (o.1, (declCode T s ⟨ns⟩ d).name .out) ∧ i = (o.1, (declCode T s ⟨ns⟩ d).name .in_) ∧ a = (o.1, (declCode T s ⟨ns⟩ d).name .atlas)

/-- One of the three types of a declaration. -/
def declItem (T : CharTable) (s : Schema) (ns : Namespace) (d : Declaration) (x : NameSuffix) : Item :=
  match d.variant with
  | .struct => structItem T s ns d x
  | .choice => choiceItem T s ns d x

theorem declItem_name (T : CharTable) (s : Schema) (ns : Namespace) (d : Declaration) (x : NameSuffix) :
    (declItem T s ns d x).name = rustPascal T d.name (some x) := by
  unfold declItem
  cases d.variant <;> rfl

theorem declCode_types (T : CharTable) (s : Schema) (ns : Namespace) (d : Declaration) :
    (declCode T s ns d).types = [declItem T s ns d .atlas, declItem T s ns d .out, declItem T s ns d .in_] := by
  unfold declCode declItem
  cases d.variant <;> rfl

theorem find_item {T : CharTable} {d : Declaration} (h : (d.rustTypes T).Nodup) (s : Schema) (ns : Namespace) (x : NameSuffix) :
    (declCode T s ns d).types.find? (fun i => decide (i.name = rustPascal T d.name (some x))) = some (declItem T s ns d x) := by
  have h' : rustPascal T d.name (some .atlas) ≠ rustPascal T d.name (some .out) ∧ rustPascal T d.name (some .atlas) ≠ rustPascal T d.name (some .in_) ∧
      rustPascal T d.name (some .out) ≠ rustPascal T d.name (some .in_) := by
    simp only [Declaration.rustTypes, typeSuffixes, List.map_cons, List.map_nil, List.nodup_cons, List.mem_cons, List.not_mem_nil, or_false, not_or] at h
    exact ⟨h.1.1, h.1.2, h.2.1⟩
  rw [declCode_types]
  cases x <;> simp [List.find?_cons, declItem_name, h']

theorem find_item_other {T : CharTable} {d d' : Declaration} (s : Schema) (ns : Namespace) {name : Str} (h : ∀ x, rustPascal T d'.name (some x) ≠ name) :
    (declCode T s ns d').types.find? (fun i => decide (i.name = name)) = none := by
  rw [declCode_types, List.find?_eq_none]
  intro i hi
  simp only [List.mem_cons, List.not_mem_nil, or_false] at hi
  rcases hi with rfl | rfl | rfl <;> rw [decide_eq_true_eq, declItem_name] <;> exact h _

theorem findItem (T : CharTable) (s : Schema) (ns : Namespace) (x : NameSuffix) {d : Declaration} : {l : List Declaration} →
    (l.flatMap (Declaration.rustTypes T)).Nodup → d ∈ l →
    l.findSome? (fun d' => (declCode T s ns d').types.find? (fun i => decide (i.name = rustPascal T d.name (some x)))) = some (declItem T s ns d x)
  | d' :: l, hn, h => by
    rw [List.flatMap_cons, List.nodup_append] at hn
    rw [List.findSome?_cons]
    cases h with
    | head => rw [find_item hn.1]
    | tail _ h =>
      rw [find_item_other (d := d) s ns (fun y g => hn.2.2 _ (owner_mem T d' y) _ (List.mem_flatMap.mpr ⟨d, h, owner_mem T d x⟩) g)]
      exact findItem T s ns x hn.2.1 h

/-- The generated program contains the types and functions of each declaration, and paths to types are resolved as they should. -/
def Defines (T : CharTable) (S : Schemas) : Prop :=
  ∀ k ns s d, S.Declares k ns s d → ∃ ns' : Namespace,
    ns'.components.map rustSnake = ns.components.map rustSnake ∧
    (∀ x, items T S ((declName T ns d).id x) = some (declItem T s ns' d x)) ∧
    (∀ f : Fn, program T S ((declName T ns d).id f.owner) f = some ((declCode T s ns' d).body f)) ∧
    (∀ f ∈ d.fields, ∀ i n k', f.type.variant.Mentions i n → s.RefersTo ns i n k' → ∀ ns₂ s₂ d₂, S.Declares k' ns₂ s₂ d₂ → ∀ x,
      (TypeEx.path (typePath T s ns' i n x)).resolve (ns.components.map rustSnake) = some (.named ((declName T ns₂ d₂).id x)))

theorem program_defines {T : CharTable} {S : Schemas} (hl : S.Loaded) (hN : NamesOk T S) : Defines T S := by
  intro k ns s d hd
  obtain ⟨hS, hmem, hk⟩ := hd
  have h1 := (buildTree_spec S hl.namespaces).1 _ hS
  unfold Module.schemaAt at h1
  rw [Option.map_eq_some_iff] at h1
  obtain ⟨m, hm, hs⟩ := h1
  obtain ⟨l, hl1, hl2⟩ := findText_of_find (T := T) ns.key [] hN.items hm
  have hitems : (s.declarations.flatMap (Declaration.rustTypes T)).Nodup := by
    have := hN.items _ _ hm
    cases m with
    | mk children schema =>
      cases hs
      exact (List.nodup_append.mp this).2.1
  refine ⟨⟨l⟩, ?_, ?_, ?_, ?_⟩
  · rw [rustSnake_map, rustSnake_map, hl1]; rfl
  · intro x
    show items T S (ns.components.map rustSnake, rustPascal T d.name (some x)) = _
    unfold items
    simp only
    rw [rustSnake_map]
    erw [hl2]
    simp only [hs, List.nil_append]
    exact findItem T s ⟨l⟩ x hitems hmem
  · intro f
    show program T S (ns.components.map rustSnake, rustPascal T d.name (some f.owner)) f = _
    unfold program
    simp only
    rw [rustSnake_map]
    erw [hl2]
    simp only [hs, List.nil_append]
    exact findDecl T s ⟨l⟩ f hitems hmem
  · intro f hf i n k' hmen href ns₂ s₂ d₂ hd₂ x
    have ht := targetNamespace_key (ns' := ⟨l⟩) (hl.importNames _ hS) hl1 href
    have e1 : rustResolve (ns.components.map rustSnake) (typePath T s ⟨l⟩ i n x).supers (typePath T s ⟨l⟩ i n x).modules =
        some (ns₂.components.map rustSnake) := by
      show rustResolve _ (rustReference (targetNamespace s ⟨l⟩ i) ⟨l⟩).1 ((rustReference (targetNamespace s ⟨l⟩ i) ⟨l⟩).2.map rustSnake) = _
      rw [resolve_text _ _ _ (by rw [rustSnake_map]; show _ = (l.map Identifier.snakeCase).map rustEscape; rw [hl1]; rfl), ht, rustSnake_map,
        hd₂.2.2]
      rfl
    have e2 := hN.references _ hS d hmem f hf i n k' hmen href ns₂ s₂ d₂ hd₂ x
    rw [TypeEx.resolve, e1]
    show some (RT.named (_, rustPascal T n (some x))) = _
    rw [e2]
    rfl

end Typical.Gen

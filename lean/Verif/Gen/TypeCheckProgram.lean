import Verif.Gen.TypeCheckDecl
import Verif.Spec.RustSignatures

/-!
# Helper: the generated program is accepted by the type checker
-/

namespace Typical.Gen

section
variable {T : CharTable} {S : Schemas}

theorem impls_of_declares (hl : S.Loaded) (hN : NamesOk T S) {k : List Str × Str} {ns : Namespace} {s : Schema} {d : Declaration} (hd : S.Declares k ns s d) :
    impls T S ((declName T ns d).id .out) ((declName T ns d).id .in_) ((declName T ns d).id .atlas) := by
  obtain ⟨hS, hmem, -⟩ := hd
  have h1 := (buildTree_spec S hl.namespaces).1 _ hS
  unfold Module.schemaAt at h1
  rw [Option.map_eq_some_iff] at h1
  obtain ⟨m, hm, hs⟩ := h1
  obtain ⟨l, hl1, hl2⟩ := findText_of_find (T := T) ns.key [] hN.items hm
  refine ⟨l, s, d, ?_, hmem, ?_⟩
  · show (buildTree S).findText [] (ns.components.map rustSnake) = _
    rw [rustSnake_map]
    erw [hl2]
    rw [hs, List.nil_append]
  · unfold declCode
    cases d.variant <;> exact ⟨rfl, rfl, rfl⟩

/-- What is known about a declaration, in order to check its code. -/
theorem declEnv (hl : S.Loaded) (hw : S.WellFormed) (hN : NamesOk T S) {k : List Str × Str} {ns : Namespace} {s : Schema} {d : Declaration} (hd : S.Declares k ns s d) :
    ∃ (ns' : Namespace) (look : Option Identifier → Identifier → NameSuffix → TypeId), ns'.components.map rustSnake = ns.components.map rustSnake ∧
      (∀ f : Fn, program T S ((declName T ns d).id f.owner) f = some ((declCode T s ns' d).body f)) ∧
      DeclEnv T S s ns' (ns.components.map rustSnake) look d ∧
      (∀ f ∈ d.fields, ∀ i n, f.type.variant.Mentions i n → ∀ x, ∃ it, items T S (look i n x) = some it) := by
  classical
  obtain ⟨ns', h1, h2, h3, h4⟩ := program_defines hl hN _ _ _ _ hd
  have hlook : ∀ i n, ∃ look : NameSuffix → TypeId, (∃ f ∈ d.fields, f.type.variant.Mentions i n) →
      (∀ x, (TypeEx.path (typePath T s ns' i n x)).resolve (ns.components.map rustSnake) = some (.named (look x))) ∧ impls T S (look .out) (look .in_) (look .atlas) ∧
      ∀ x, ∃ it, items T S (look x) = some it := by
    intro i n
    by_cases h : ∃ f ∈ d.fields, f.type.variant.Mentions i n
    · obtain ⟨f, hf, hm⟩ := h
      obtain ⟨k', e1, ns₂, s₂, d₂, e2⟩ := (hw.declarations _ hd.1 _ hd.2.1).types f hf i n hm
      obtain ⟨ns₂', -, g2, -, -⟩ := program_defines hl hN _ _ _ _ e2
      exact ⟨(declName T ns₂ d₂).id, fun _ => ⟨fun x => h4 f hf i n k' hm e1 _ _ _ e2 x, impls_of_declares hl hN e2, fun x => ⟨_, g2 x⟩⟩⟩
    · exact ⟨fun _ => ([], []), fun h' => absurd h' h⟩
  choose look hlook using hlook
  refine ⟨ns', look, h1, h3, ⟨h2, fun f hf i n hm => ?_, impls_of_declares hl hN hd, fun f hf => ?_⟩, fun f hf i n hm => (hlook i n ⟨f, hf, hm⟩).2.2⟩
  · obtain ⟨a, b, -⟩ := hlook i n ⟨f, hf, hm⟩
    exact ⟨a, b⟩
  · have := (hw.declarations _ hd.1 _ hd.2.1).bound f hf
    omega

/-- The functions of a declaration are accepted. -/
theorem decl_ok (hl : S.Loaded) (hw : S.WellFormed) (hN : NamesOk T S) {k : List Str × Str} {ns : Namespace} {s : Schema} {d : Declaration} (hd : S.Declares k ns s d)
    (f : Fn) : ∃ e, program T S ((declName T ns d).id f.owner) f = some e ∧
      FnOk (items T S) (impls T S) (ns.components.map rustSnake)
        (selfType ((declName T ns d).id .out) ((declName T ns d).id .in_) ((declName T ns d).id .atlas) f)
        (paramTypes ((declName T ns d).id .out) ((declName T ns d).id .in_) ((declName T ns d).id .atlas) f)
        (resultType ((declName T ns d).id .out) ((declName T ns d).id .in_) ((declName T ns d).id .atlas) f) e := by
  obtain ⟨ns', look, h1, h2, hD, -⟩ := declEnv hl hw hN hd
  refine ⟨_, h2 f, ?_⟩
  have hs : ns'.components.length = (ns.components.map rustSnake).length := by rw [← h1, List.length_map]
  have hn : d.variant = .struct → (d.fields.map (fun f => rustSnake f.name)).Nodup := fun hv => by
    have := hN.members _ hd.1 _ hd.2.1 hv
    unfold rustFieldNames at this
    exact (List.nodup_append.mp this).2.1
  unfold FnOk declCode
  cases hv : d.variant with
  | struct =>
    cases f
    · exact structAtlas_ty (m := false) ⟨rfl, rfl, rfl⟩ hs hD hv (hn hv) rfl
    · exact structSerialize_ty (m := false) (m' := false) (m'' := false) ⟨rfl, rfl, rfl⟩ hs hD hv rfl rfl rfl rfl _ (fun _ h => h)
    · exact structFrom_ty (m := false) ⟨rfl, rfl, rfl⟩ hD hv rfl
    · exact structDeserialize_ty (m := false) ⟨rfl, rfl, rfl⟩ hs hD hv (hn hv) rfl rfl
    · exact structSize_ty (m := false) ⟨rfl, rfl, rfl⟩ hD hv rfl
  | choice =>
    cases f
    · exact choiceAtlas_ty (m := false) ⟨rfl, rfl, rfl⟩ hs hD hv rfl
    · exact choiceSerialize_ty (m := false) (m' := false) (m'' := false) ⟨rfl, rfl, rfl⟩ hs hD hv rfl rfl rfl rfl
    · exact choiceFrom_ty (m := false) ⟨rfl, rfl, rfl⟩ hD hv rfl
    · exact choiceDeserialize_ty (m := false) ⟨rfl, rfl, rfl⟩ hs hD hv rfl rfl
    · exact choiceSize_ty (m := false) ⟨rfl, rfl, rfl⟩ hD hv rfl

theorem rt_defined {look : Option Identifier → Identifier → NameSuffix → TypeId} (x : NameSuffix) : (tv : TypeVariant) →
    (∀ i n, tv.Mentions i n → ∃ it, items T S (look i n x) = some it) → (rt look x tv).Defined (items T S)
  | .array _ t, h => by
    have ih := rt_defined x t fun i n hm => h i n (.array hm)
    unfold rt
    split
    · split
      · exact .pair .usize (.vec ih)
      · exact .usize
    · exact .vec ih
  | .custom i n, h => (h i n (.custom i n)).elim fun _ h => .named h
  | .bool, _ => by unfold rt; split; exacts [.usize, .bool]
  | .bytes, _ => by unfold rt; split; exacts [.usize, .vec .u8]
  | .f64, _ => by unfold rt; split; exacts [.usize, .f64]
  | .s64, _ => by unfold rt; split; exacts [.usize, .i64]
  | .string, _ => by unfold rt; split; exacts [.usize, .string]
  | .u64, _ => by unfold rt; split; exacts [.usize, .u64]
  | .unit, _ => by unfold rt; split; exacts [.usize, .unit]

/-- The types of a declaration are accepted. -/
theorem decl_items (hl : S.Loaded) (hw : S.WellFormed) (hN : NamesOk T S) {k : List Str × Str} {ns : Namespace} {s : Schema} {d : Declaration} (hd : S.Declares k ns s d)
    (x : NameSuffix) : ∃ it, items T S ((declName T ns d).id x) = some it ∧ it.name = (declName T ns d).name x ∧ ItemOk (items T S) (ns.components.map rustSnake) it := by
  obtain ⟨ns', look, h1, h2, hD, hdef⟩ := declEnv hl hw hN hd
  refine ⟨_, hD.items x, declItem_name T s ns' d x, ?_⟩
  cases hv : d.variant with
  | struct =>
    have := Option.some.inj ((hD.items x).symm.trans (hD.struct hv x))
    rw [this]
    refine ⟨?_, ?_⟩
    · have hn := hN.members _ hd.1 _ hd.2.1 hv
      rw [List.map_append, List.map_map]
      unfold rustFieldNames at hn
      cases x
      · exact hn
      · exact (List.nodup_append.mp hn).2.1
      · exact (List.nodup_append.mp hn).2.1
    · intro m hm
      rcases List.mem_append.mp hm with hm | hm
      · split at hm
        · cases List.mem_singleton.mp hm
          exact ⟨.usize, rfl, .usize⟩
        · cases hm
      · obtain ⟨f, hf, rfl⟩ := List.mem_map.mp hm
        refine ⟨_, resolve_member (hD.looks f hf) x, ?_⟩
        have := rt_defined x _ fun i n hm => hdef f hf i n hm x
        unfold memberRT
        split
        · exact .option this
        · exact this
  | choice =>
    have := Option.some.inj ((hD.items x).symm.trans (hD.choice hv x))
    rw [this]
    refine ⟨?_, ?_⟩
    · have hn := hN.variants _ hd.1 _ hd.2.1 hv
      rw [List.map_map]
      exact hn
    · intro w hm t ht
      obtain ⟨f, hf, rfl⟩ := List.mem_map.mp hm
      unfold variantTypes at ht
      rcases List.mem_append.mp ht with ht | ht
      · rcases List.mem_append.mp ht with ht | ht
        · split at ht
          · cases List.mem_singleton.mp ht
            exact ⟨.usize, rfl, .usize⟩
          · cases ht
        · split at ht
          · cases List.mem_singleton.mp ht
            exact ⟨_, resolve_rt x _ (hD.looks f hf), rt_defined x _ fun i n hm => hdef f hf i n hm x⟩
          · cases ht
      · split at ht
        · cases List.mem_singleton.mp ht
          exact ⟨_, resolve_self _ _, .box (.named (hD.items x))⟩
        · cases ht

end

end Typical.Gen

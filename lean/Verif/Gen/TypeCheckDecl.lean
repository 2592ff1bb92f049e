import Verif.Gen.TypeCheck

/-!
# Helper: the functions of declarations have the types which they should
-/

namespace Typical.Gen

/-- A declaration `d` in the module `mod`. -/
structure DeclEnv (T : CharTable) (S : Schemas) (s : Schema) (ns' : Namespace) (mod : List Str) (look : Option Identifier → Identifier → NameSuffix → TypeId)
    (d : Declaration) : Prop where
  items : ∀ x, items T S (mod, rustPascal T d.name (some x)) = some (declItem T s ns' d x)
  looks : ∀ f ∈ d.fields, Looks T S s ns' mod look f.type.variant
  impls : impls T S (mod, rustPascal T d.name (some .out)) (mod, rustPascal T d.name (some .in_)) (mod, rustPascal T d.name (some .atlas))
  index : ∀ f ∈ d.fields, f.index < 2 ^ 64

section
variable {T : CharTable} {S : Schemas} {s : Schema} {ns' : Namespace} {mod : List Str} {look : Option Identifier → Identifier → NameSuffix → TypeId} {d : Declaration}
variable {E : TyEnv} {Γ : Vars} {supers : Nat}

/-- The type of a declaration. -/
def declRT (T : CharTable) (mod : List Str) (d : Declaration) (x : NameSuffix) : RT := .named (mod, rustPascal T d.name (some x))

/-- The type of a member, as written. -/
def memberEx (T : CharTable) (s : Schema) (ns' : Namespace) (x : NameSuffix) (f : Field) : TypeEx :=
  if memberOptional x f.rule then .option (typeOf T s ns' x f.type.variant) else typeOf T s ns' x f.type.variant

/-- The type of a member. -/
def memberRT (look : Option Identifier → Identifier → NameSuffix → TypeId) (x : NameSuffix) (f : Field) : RT :=
  if memberOptional x f.rule then .option (rt look x f.type.variant) else rt look x f.type.variant

theorem resolve_member {f : Field} (h : Looks T S s ns' mod look f.type.variant) (x : NameSuffix) : (memberEx T s ns' x f).resolve mod = some (memberRT look x f) := by
  unfold memberEx memberRT
  split
  · rw [TypeEx.resolve, resolve_rt x _ h]; rfl
  · exact resolve_rt x _ h

theorem DeclEnv.struct (hD : DeclEnv T S s ns' mod look d) (hv : d.variant = .struct) (x : NameSuffix) :
    Gen.items T S (mod, rustPascal T d.name (some x)) = some (.struct (rustPascal T d.name (some x)) ((if x = .atlas then [("_size".toList, .usize)] else []) ++
      d.fields.map (fun f => (rustSnake f.name, memberEx T s ns' x f)))) := by
  rw [hD.items]
  unfold declItem
  rw [hv]
  rfl

theorem DeclEnv.choice (hD : DeclEnv T S s ns' mod look d) (hv : d.variant = .choice) (x : NameSuffix) :
    Gen.items T S (mod, rustPascal T d.name (some x)) = some (.enum (rustPascal T d.name (some x))
      (d.fields.map (fun f => (rustPascal T f.name none, variantTypes T s ns' d x f)))) := by
  rw [hD.items]
  unfold declItem
  rw [hv]
  rfl

/-- A member of a struct. -/
theorem member_ty (hE : Good T S mod E) (hD : DeclEnv T S s ns' mod look d) (hv : d.variant = .struct) {x : NameSuffix} {f : Field} (hf : f ∈ d.fields) {w : Var} {t : RT}
    {m o m' : Bool} (hw : Γ w = some (t, m)) (ha : AutoDeref t (.place true m) (declRT T mod d x) (.place o m')) :
    HasTy E Γ (.field (v w) (rustSnake f.name)) (memberRT look x f) (.place o m') :=
  .field (ty := memberEx T s ns' x f) (.var hw) ha (by rw [hE.items]; exact hD.struct hv x) (List.mem_append_right _ (List.mem_map.mpr ⟨f, hf, rfl⟩))
    (resolve_member (hD.looks f hf) x)

theorem inits_ty {α : Type} {g : α → Str × Ex} {h : α → Str × TypeEx} : {l : List α} →
    (∀ a ∈ l, (g a).1 = (h a).1 ∧ ∃ τ, (h a).2.resolve E.mod = some τ ∧ HasTy E Γ (g a).2 τ .value) → HasInits E Γ (inits (l.map g)) (l.map h)
  | [], _ => .nil
  | a :: l, H => by
    obtain ⟨h1, τ, h2, h3⟩ := H a List.mem_cons_self
    have ih := inits_ty (l := l) fun b hb => H b (List.mem_cons_of_mem _ hb)
    rw [List.map_cons, List.map_cons]
    have e1 : g a = ((g a).1, (g a).2) := rfl
    have e2 : h a = ((g a).1, (h a).2) := by rw [h1]
    rw [e1, e2]
    exact .cons h2 h3 ih

theorem all_ty {τ : RT} : {l : List Ex} → (∀ e ∈ l, HasTy E Γ e τ .value) → HasAll E Γ (args l) τ
  | [], _ => .nil
  | e :: l, h => .cons (h e List.mem_cons_self) (all_ty fun e he => h e (List.mem_cons_of_mem _ he))

/-! ### Structs -/

theorem structFrom_ty (hE : Good T S mod E) (hD : DeclEnv T S s ns' mod look d) (hv : d.variant = .struct) {m : Bool}
    (hm : Γ .message = some (declRT T mod d .out, m)) : HasTy E Γ (structFrom T d) (declRT T mod d .in_) .value := by
  unfold structFrom declRT
  rw [← hE.mod]
  refine .structLit (by rw [hE.items, hE.mod]; exact hD.struct hv .in_) ?_
  rw [if_neg (show ¬ NameSuffix.in_ = .atlas by nofun), List.nil_append]
  refine inits_ty fun f hf => ⟨rfl, _, by rw [hE.mod]; exact resolve_member (hD.looks f hf) .in_, ?_⟩
  have h1 : HasTy E Γ (.field (v .message) (rustSnake f.name)) (memberRT look .out f) .value := .move (member_ty hE hD hv hf hm .refl)
  unfold memberRT at h1 ⊢
  dsimp only
  cases hr : f.rule <;> rw [hr] at h1 <;> simp only [memberOptional, reduceCtorEq, decide_false, decide_true, Bool.false_eq_true, if_true, if_false] at h1 ⊢
  · exact .some (intoInvocation_ty hE (hD.looks f hf) h1)
  · exact .mapOption h1 (intoInvocation_ty hE.closure (hD.looks f hf) (use_ty (set_self _ _ _ _)))
  · exact intoInvocation_ty hE (hD.looks f hf) h1

theorem field_ne {fs : List Field} {f : Field} (hn : ((f :: fs).map (fun f => rustSnake f.name)).Nodup) {g : Field} (hg : g ∈ fs) : fieldVar f ≠ fieldVar g := by
  intro h
  rw [List.map_cons, List.nodup_cons] at hn
  refine hn.1 (List.mem_map.mpr ⟨g, hg, ?_⟩)
  unfold fieldVar at h
  exact (Var.field.inj h).symm

theorem structAtlasLets_ty (hE : Good T S mod E) (hs : supers = E.mod.length) (hD : DeclEnv T S s ns' mod look d) (hv : d.variant = .struct) {τ : RT} {rest : Ex} :
    (fs : List Field) → fs ⊆ d.fields → (fs.map (fun f => rustSnake f.name)).Nodup → ∀ {Γ : Vars} {m : Bool}, Γ .self = some (.ref (declRT T mod d .out), m) →
    (∀ Γ' : Vars, (∀ f ∈ fs, Γ' (fieldVar f) = some (memberRT look .atlas f, false)) → (∀ w, (∀ f ∈ fs, w ≠ fieldVar f) → Γ' w = Γ w) → HasTy E Γ' rest τ .value) →
    HasTy E Γ (structAtlasLets supers rest fs) τ .value
  | [], _, _, Γ, _, _, hrest => hrest Γ nofun (fun _ _ => rfl)
  | f :: fs, hsub, hn, Γ, m, hself, hrest => by
    rw [structAtlasLets]
    have hf := hsub List.mem_cons_self
    have h1 : HasTy E Γ (.field (v .self) (rustSnake f.name)) (memberRT look .out f) (.place false false) := member_ty hE hD hv hf hself (.ref .refl)
    refine .letIn (τ := memberRT look .atlas f) ?_ (structAtlasLets_ty hE hs hD hv fs (fun g hg => hsub (List.mem_cons_of_mem _ hg)) (List.nodup_cons.mp hn).2
      (Γ := Γ.set (fieldVar f) (memberRT look .atlas f) false) (m := m) ((set_other (by unfold fieldVar; nofun)).trans hself) fun Γ' h2 h3 => hrest Γ' ?_ ?_)
    · unfold memberRT at h1 ⊢
      cases hr : f.rule <;> rw [hr] at h1 <;> simp only [memberOptional, reduceCtorEq, decide_false, Bool.false_eq_true, if_true, if_false] at h1 ⊢
      · exact .brace (.letIn (.ref h1) (atlasCalculation_ty _ (hD.looks f hf) _ hE hs (set_self _ _ _ _)))
      · exact .mapOption (.asRef h1 .refl) (atlasCalculation_ty _ (hD.looks f hf) _ hE.closure hs (set_self _ _ _ _))
      · exact .brace (.letIn (.ref h1) (atlasCalculation_ty _ (hD.looks f hf) _ hE hs (set_self _ _ _ _)))
    · intro g hg
      cases hg with
      | head => rw [h3 _ fun g hg => field_ne hn hg]; exact set_self _ _ _ _
      | tail _ hg => exact h2 g hg
    · intro w hw
      rw [h3 w fun g hg => hw g (List.mem_cons_of_mem _ hg)]
      exact set_other (hw f List.mem_cons_self)

theorem headerAndPayload_ty (hs : supers = E.mod.length) {f : Field} (hi : f.index < 2 ^ 64) {m : Bool} (hp : Γ .payloadSize = some (.usize, m)) :
    HasTy E Γ (headerAndPayload supers f) .usize .value :=
  .bin .add (.runtime (f := .fieldHeaderSize) hs (one_param (.lit (.u64 hi)) (one_param (use_ty hp) (one_param (.lit .bool) .nil)))) (use_ty hp)

theorem structFieldSize_ty (hE : Good T S mod E) (hs : supers = E.mod.length) (hD : DeclEnv T S s ns' mod look d) {f : Field} (hf : f ∈ d.fields) {m : Bool}
    (h : Γ (fieldVar f) = some (memberRT look .atlas f, m)) : HasTy E Γ (structFieldSize supers f) .usize .value := by
  unfold structFieldSize
  unfold memberRT at h
  cases hr : f.rule <;> rw [hr] at h <;> simp only [memberOptional, reduceCtorEq, decide_false, Bool.false_eq_true, if_true, if_false] at h ⊢
  · exact .brace (.letIn (.ref (.var h)) (.letIn (atlasLookup_ty hE (hD.looks f hf) (set_self _ _ _ _)) (headerAndPayload_ty hs (hD.index f hf) (set_self _ _ _ _))))
  · exact .mapOr (.asRef (.var h) .refl) (.brace (.letIn (atlasLookup_ty hE.closure (hD.looks f hf) (set_self _ _ _ _))
      (headerAndPayload_ty (E := E.closure) hs (hD.index f hf) (set_self _ _ _ _))))
  · exact .brace (.letIn (.ref (.var h)) (.letIn (atlasLookup_ty hE (hD.looks f hf) (set_self _ _ _ _)) (headerAndPayload_ty hs (hD.index f hf) (set_self _ _ _ _))))

theorem structAtlas_ty (hE : Good T S mod E) (hs : supers = E.mod.length) (hD : DeclEnv T S s ns' mod look d) (hv : d.variant = .struct)
    (hn : (d.fields.map (fun f => rustSnake f.name)).Nodup) {m : Bool} (hself : Γ .self = some (.ref (declRT T mod d .out), m)) :
    HasTy E Γ (structAtlas T supers d) (declRT T mod d .atlas) .value := by
  have h1 : ∀ Γ' : Vars, (∀ f ∈ d.fields, Γ' (fieldVar f) = some (memberRT look .atlas f, false)) →
      HasTy E Γ' (Ex.structLit (rustPascal T d.name (some .atlas)) (.cons "_size".toList (.sumLines (args (d.fields.map (structFieldSize supers))))
      (inits (d.fields.map (fun f => (rustSnake f.name, v (fieldVar f))))))) (declRT T mod d .atlas) .value := by
    intro Γ' h
    unfold declRT
    rw [← hE.mod]
    refine .structLit (by rw [hE.items, hE.mod]; exact hD.struct hv .atlas) ?_
    rw [if_pos rfl]
    refine .cons (τ := .usize) rfl (.sumLines (all_ty fun e he => ?_)) (inits_ty fun f hf => ⟨rfl, _, by rw [hE.mod]; exact resolve_member (hD.looks f hf) .atlas, ?_⟩)
    · obtain ⟨f, hf, rfl⟩ := List.mem_map.mp he
      exact structFieldSize_ty hE hs hD hf (h f hf)
    · exact use_ty (h f hf)
  unfold structAtlas
  dsimp only
  split
  · rename_i he
    refine h1 Γ fun f hf => ?_
    rw [List.isEmpty_iff.mp he] at hf
    cases hf
  · exact structAtlasLets_ty hE hs hD hv _ (fun _ h => h) hn hself fun Γ' h2 _ => .blank (h1 Γ' h2)

theorem headerThen_ty (hE : Good T S mod E) (hs : supers = E.mod.length) {f : Field} (hL : Looks T S s ns' mod look f.type.variant) (hi : f.index < 2 ^ 64) {m m' : Bool}
    {σ τ : RT} {rest : Ex} (hr : E.ret = some (.result σ)) (hw : Γ .writer = some (.refMut .sink, m)) (ha : Γ .payloadAtlas = some (.ref (rt look .atlas f.type.variant), m'))
    (hrest : HasTy E Γ rest τ .value) : HasTy E Γ (headerThen supers f rest) τ .value :=
  .seq (.try_ hr (.runtime (f := .serializeFieldHeader) hs (writer_arg hw (one_param (.lit (.u64 hi)) (one_param (atlasLookup_ty hE hL ha)
    (one_param (.lit .bool) .nil)))))) nofun hrest

theorem structSerialize_ty (hE : Good T S mod E) (hs : supers = E.mod.length) (hD : DeclEnv T S s ns' mod look d) (hv : d.variant = .struct) {m m' m'' : Bool}
    (hr : E.ret = some (.result .unit)) (hself : Γ .self = some (.ref (declRT T mod d .out), m)) (hw : Γ .writer = some (.refMut .sink, m'))
    (ha : Γ .atlas = some (.ref (declRT T mod d .atlas), m'')) : (fs : List Field) → fs ⊆ d.fields → HasTy E Γ (structSerialize supers fs) (.result .unit) .value
  | [], _ => .ok (.lit .unit)
  | f :: fs, hsub => by
    have hf := hsub List.mem_cons_self
    have ih := structSerialize_ty hE hs hD hv hr hself hw ha fs (fun g hg => hsub (List.mem_cons_of_mem _ hg))
    have h1 : HasTy E Γ (.field (v .self) (rustSnake f.name)) (memberRT look .out f) (.place false false) := member_ty hE hD hv hf hself (.ref .refl)
    have h2 : HasTy E Γ (.field (v .atlas) (rustSnake f.name)) (memberRT look .atlas f) (.place false false) := member_ty hE hD hv hf ha (.ref .refl)
    have h2' : ∀ (τ : RT), HasTy E (Γ.set .payload τ false) (.field (v .atlas) (rustSnake f.name)) (memberRT look .atlas f) (.place false false) :=
      fun τ => member_ty hE hD hv hf (by look) (.ref .refl)
    have h3 : HasTy E ((Γ.set .payload (.ref (rt look .out f.type.variant)) false).set .payloadAtlas (.ref (rt look .atlas f.type.variant)) false)
        (headerThen supers f (serializationInvocation supers true .done f.type.variant)) .unit .value :=
      headerThen_ty hE hs (hD.looks f hf) (hD.index f hf) hr (by look) (set_self _ _ _ _)
        (serializationInvocation_ty (m' := false) _ (hD.looks f hf) true hE hs hr (by look) (by look) (fun _ => ⟨_, set_self _ _ _ _⟩) .done)
    rw [structSerialize]
    unfold memberRT at h1 h2 h2'
    cases hrule : f.rule <;> rw [hrule] at h1 h2 h2' <;>
      simp only [memberOptional, reduceCtorEq, decide_false, Bool.false_eq_true, if_true, if_false] at h1 h2 h2' ⊢
    · exact .seq (.block (.letIn (.ref h1) (.letIn (.ref (h2' _)) h3))) (fun _ => rfl) (.blank ih)
    · exact .seq (.ifSome (.ref h1) (.ref h2) nofun h3) (fun _ => rfl) (.blank ih)
    · exact .seq (.block (.letIn (.ref h1) (.letIn (.ref (h2' _)) h3))) (fun _ => rfl) (.blank ih)

theorem indexArms_ty {k : Cat} (hE : Good T S mod E) (hs : supers = E.mod.length) (hD : DeclEnv T S s ns' mod look d) {σ ρ : RT} {m : Bool} (hr : E.ret = some (.result σ))
    (h : Γ .subReader = some (ρ, true)) (hρ : IsReader ρ) (hp : Γ .payloadSize = some (.usize, m)) {use : Field → Ex} : (fs : List Field) → fs ⊆ d.fields →
    (∀ f ∈ fs, ∀ (el : Option RT) (Γ' : Vars) (m : Bool), Γ' .payload = some (rt look .in_ f.type.variant, m) → (∀ w, w ≠ .payload → w ≠ .buffer → Γ' w = Γ w) →
      HasTy { E with elem := el } Γ' (use f) .unit .value) →
    HasArms E Γ .u64 k (indexArms T supers s ns' use fs) .unit
  | [], _, _ => .cons .wild (.block (.seq (.try_ hr (.runtime (f := .skip) hs (reader_arg h hρ (one_param (use_ty hp) .nil)))) nofun .done)) .nil
  | f :: fs, hsub, hu => by
    rw [indexArms]
    exact .cons (.int (hD.index f (hsub List.mem_cons_self))) (.block (deserializationInvocation_ty _ (hD.looks f (hsub List.mem_cons_self)) true hE hs hr h hρ
      (fun _ => ⟨m, hp⟩) (hu f List.mem_cons_self))) (indexArms_ty hE hs hD hr h hρ hp fs (fun g hg => hsub (List.mem_cons_of_mem _ hg))
      fun g hg => hu g (List.mem_cons_of_mem _ hg))

theorem indexArms_wild {use : Field → Ex} : (fs : List Field) → .wild ∈ (indexArms T supers s ns' use fs).pats
  | [] => .head _
  | _ :: fs => .tail _ (indexArms_wild fs)

/-- The body of the loops which read fields. -/
theorem dispatch_ty (hE : Good T S mod E) (hs : supers = E.mod.length) (hD : DeclEnv T S s ns' mod look d) {σ : RT} {m : Bool} (hr : E.ret = some (.result σ))
    (h : Γ .reader = some (.refMut .source, m)) {use : Field → Ex}
    (hu : ∀ f ∈ d.fields, ∀ (el : Option RT) (Γ' : Vars) (m : Bool), Γ' .payload = some (rt look .in_ f.type.variant, m) →
      (∀ w, w ≠ .payload → w ≠ .buffer → w ≠ .index → w ≠ .payloadSize → w ≠ .subReader → Γ' w = Γ w) → HasTy { E with elem := el } Γ' (use f) .unit .value) :
    HasTy E ((Γ.set .index .u64 false).set .payloadSize .usize false) (dispatch (indexArms T supers s ns' use d.fields)) .unit .value := by
  unfold dispatch
  refine .blank (.letIn (.take (.refMut (.derefMut (.var (τ := .refMut .source) (m := m) ?_) nofun)) (.refMut .source) (.asU64 (use_ty (set_self _ _ _ _)))) (.blank
    (.matchLines (use_ty (m := false) ?_) (indexArms_ty hE hs hD hr (set_self _ _ _ _) (.take (.refMut .source)) (m := false) ?_ _ (fun _ h => h) ?_) (.wild (indexArms_wild _)))))
  · look
  · look
  · look
  · intro f hf el Γ' m h1 h2
    refine hu f hf el Γ' m h1 fun w e1 e2 e3 e4 e5 => ?_
    rw [h2 w e1 e2, set_other e5, set_other e4, set_other e3]

theorem header_ty (hs : supers = E.mod.length) {m : Bool} (h : Γ .reader = some (.refMut .source, m)) :
    HasTy E Γ (.runtime supers .deserializeFieldHeader (args [.refMut (.deref (v .reader))])) (.result (.pair .u64 .usize)) .value :=
  .runtime (f := .deserializeFieldHeader) hs (.reader (.refMut (.derefMut (.var h) nofun)) .source .nil)

theorem structSlots_ty (hE : Good T S mod E) (hD : DeclEnv T S s ns' mod look d) {τ : RT} {rest : Ex} :
    (fs : List Field) → fs ⊆ d.fields → (fs.map (fun f => rustSnake f.name)).Nodup → ∀ {Γ : Vars},
    (∀ Γ' : Vars, (∀ f ∈ fs, Γ' (fieldVar f) = some (.option (rt look .in_ f.type.variant), true)) → (∀ w, (∀ f ∈ fs, w ≠ fieldVar f) → Γ' w = Γ w) →
      HasTy E Γ' rest τ .value) →
    HasTy E Γ (structSlots T s ns' rest fs) τ .value
  | [], _, _, Γ, hrest => hrest Γ nofun (fun _ _ => rfl)
  | f :: fs, hsub, hn, Γ, hrest => by
    rw [structSlots]
    have hf := hsub List.mem_cons_self
    refine .letNone (by rw [hE.mod]; exact resolve_rt .in_ _ (hD.looks f hf)) (structSlots_ty hE hD fs (fun g hg => hsub (List.mem_cons_of_mem _ hg)) (List.nodup_cons.mp hn).2
      fun Γ' h2 h3 => hrest Γ' ?_ ?_)
    · intro g hg
      cases hg with
      | head => rw [h3 _ fun g hg => field_ne hn hg]; exact set_self _ _ _ _
      | tail _ hg => exact h2 g hg
    · intro w hw
      rw [h3 w fun g hg => hw g (List.mem_cons_of_mem _ hg)]
      exact set_other (hw f List.mem_cons_self)

theorem structDeserialize_ty (hE : Good T S mod E) (hs : supers = E.mod.length) (hD : DeclEnv T S s ns' mod look d) (hv : d.variant = .struct)
    (hn : (d.fields.map (fun f => rustSnake f.name)).Nodup) {m : Bool} (hr : E.ret = some (.result (declRT T mod d .in_)))
    (hreader : Γ .reader = some (.refMut .source, m)) : HasTy E Γ (structDeserialize T supers s ns' d) (.result (declRT T mod d .in_)) .value := by
  have main : ∀ Γ' : Vars, (∀ f ∈ d.fields, Γ' (fieldVar f) = some (.option (rt look .in_ f.type.variant), true)) → Γ' .reader = some (.refMut .source, m) →
      HasTy E Γ' (Ex.seq (.loop
        (.letPair .index .payloadSize
          (.matchLines (.runtime supers .deserializeFieldHeader (args [.refMut (.deref (v .reader))]))
            (.cons (.ok .header) (v .header) (.cons (.err .err) (breakAtEnd true) .nil)))
          (dispatch (indexArms T supers s ns' (fun f => .seq (.mutate (fieldVar f) .getOrInsert (v .payload)) .done) d.fields))))
        (.blank (if (d.fields.filter (fun f => f.rule == .required)).isEmpty then (Ex.std .ok (args [.structLit (rustPascal T d.name (some .in_)) (inits (d.fields.map (fun f =>
          (rustSnake f.name, if f.rule = .required then (v (fieldVar f)).m .unwrap else v (fieldVar f)))))])) else
        .seq (.ifThen (.orLines (args ((d.fields.filter (fun f => f.rule == .required)).map (fun f => (v (fieldVar f)).m .isNone))))
          (.seq (.return_ (.errMissing supers)) .done)) (.blank (Ex.std .ok (args [.structLit (rustPascal T d.name (some .in_)) (inits (d.fields.map (fun f =>
          (rustSnake f.name, if f.rule = .required then (v (fieldVar f)).m .unwrap else v (fieldVar f)))))]))))))
        (.result (declRT T mod d .in_)) .value := by
    intro Γ' hslots hreader
    have hresult : HasTy E Γ' (Ex.std .ok (args [.structLit (rustPascal T d.name (some .in_)) (inits (d.fields.map (fun f =>
          (rustSnake f.name, if f.rule = .required then (v (fieldVar f)).m .unwrap else v (fieldVar f)))))])) (.result (declRT T mod d .in_)) .value := by
      refine .ok ?_
      unfold declRT
      rw [← hE.mod]
      refine .structLit (by rw [hE.items, hE.mod]; exact hD.struct hv .in_) ?_
      rw [if_neg (show ¬ NameSuffix.in_ = .atlas by nofun), List.nil_append]
      refine inits_ty fun f hf => ⟨rfl, _, by rw [hE.mod]; exact resolve_member (hD.looks f hf) .in_, ?_⟩
      unfold memberRT
      have h := hslots f hf
      dsimp only
      cases hr : f.rule <;> simp only [memberOptional, reduceCtorEq, decide_true, Bool.false_eq_true, if_true, if_false]
      · exact use_ty h
      · exact use_ty h
      · exact .unwrap (use_ty h)
    refine .seq (.loop (.letPair (.matchLines (header_ty hs hreader) (.cons .ok (use_ty (set_self _ _ _ _)) (.cons .err (breakAtEnd_ty rfl hr (set_self _ _ _ _)) .nil))
      (.result (.head _) (.tail _ (.head _)))) nofun (dispatch_ty (hE.inLoop true) hs hD hr hreader ?_))) (fun _ => rfl) (.blank ?_)
    · intro f hf el Γ'' m h1 h2
      exact .seq (.mutate ((h2 (fieldVar f) (by unfold fieldVar; nofun) (by unfold fieldVar; nofun) (by unfold fieldVar; nofun) (by unfold fieldVar; nofun) (by unfold fieldVar; nofun)).trans (hslots f hf)) .getOrInsert (use_ty h1)) nofun .done
    · cases hq : d.fields.filter (fun f => f.rule == .required) with
      | nil => exact hresult
      | cons f fs =>
        rw [List.isEmpty_cons, if_neg Bool.false_ne_true]
        refine .seq (.ifThen (.orLines (all_ty (l := (f :: fs).map (fun f => (v (fieldVar f)).m .isNone)) fun e he => ?_)) (.never (.diverge (.return_ hr (.errMissing hs))))) (fun _ => rfl) (.blank hresult)
        obtain ⟨g, hg, rfl⟩ := List.mem_map.mp he
        rw [← hq] at hg
        exact .isNone (.var (hslots g (List.mem_filter.mp hg).1)) .refl
  unfold structDeserialize
  dsimp only
  split
  · rename_i he
    refine main Γ (fun f hf => ?_) hreader
    rw [List.isEmpty_iff.mp he] at hf
    cases hf
  · exact structSlots_ty hE hD _ (fun _ h => h) hn fun Γ' h2 h3 => .blank (main Γ' h2 ((h3 .reader fun _ _ => (by unfold fieldVar; nofun)).trans hreader))

theorem structSize_ty (hE : Good T S mod E) (hD : DeclEnv T S s ns' mod look d) (hv : d.variant = .struct) {m : Bool}
    (hself : Γ .self = some (.ref (declRT T mod d .atlas), m)) : HasTy E Γ (.field (v .self) "_size".toList) .usize .value :=
  .copy .usize (.field (.var hself) (.ref .refl) (by rw [hE.items]; exact hD.struct hv .atlas) (by rw [if_pos rfl]; exact .head _) rfl)

/-! ### Choices -/

/-- The types of the components of a variant. -/
def variantRTs (T : CharTable) (mod : List Str) (look : Option Identifier → Identifier → NameSuffix → TypeId) (d : Declaration) (x : NameSuffix) (f : Field) : List RT :=
  (if x = .atlas then [.usize] else []) ++ (if x = .atlas ∨ f.type.variant ≠ .unit then [rt look x f.type.variant] else []) ++
  (if variantFallback x f.rule then [.box (declRT T mod d x)] else [])

theorem variantTypes_resolve {f : Field} (hL : Looks T S s ns' mod look f.type.variant) (x : NameSuffix) :
    (variantTypes T s ns' d x f).mapM (TypeEx.resolve mod) = some (variantRTs T mod look d x f) := by
  have h1 := resolve_rt x _ hL
  have h2 := resolve_self mod (rustPascal T d.name (some x))
  have h0 : TypeEx.resolve mod .usize = some .usize := rfl
  unfold variantTypes variantRTs declRT
  split <;> split <;> split <;>
    simp only [List.nil_append, List.append_nil, List.cons_append, List.mapM_cons, List.mapM_nil, h0, h1, h2, Option.bind_eq_bind, Option.bind_some, Option.pure_def]

theorem variant_mem {f : Field} (hf : f ∈ d.fields) (x : NameSuffix) : (rustPascal T f.name none, variantTypes T s ns' d x f) ∈
    d.fields.map (fun f => (rustPascal T f.name none, variantTypes T s ns' d x f)) := List.mem_map.mpr ⟨f, hf, rfl⟩

/-- The variables in patterns for messages. -/
theorem outBinders_ty {f : Field} (hL : Looks T S s ns' mod look f.type.variant) (wrap : RT → RT) (Γ : Vars) : ∃ Γ',
    Binds mod wrap (variantTypes T s ns' d .out f) (outBinders f) Γ Γ' ∧
    (f.type.variant ≠ .unit → Γ' .payload = some (wrap (rt look .out f.type.variant), false)) ∧
    (f.rule ≠ .required → Γ' .fallback = some (wrap (.box (declRT T mod d .out)), false)) ∧ ∀ w, w ≠ .payload → w ≠ .fallback → Γ' w = Γ w := by
  have h1 := resolve_rt .out _ hL
  have h2 : (TypeEx.box (.path ⟨0, [], rustPascal T d.name (some .out)⟩)).resolve mod = some (.box (declRT T mod d .out)) := resolve_self _ _
  unfold variantTypes outBinders
  by_cases hu : f.type.variant = .unit
  · rw [if_pos hu, if_neg nofun, if_neg (by rintro (h | h); exact nomatch h; exact h hu)]
    cases hr : f.rule <;> simp only [variantFallback, reduceCtorEq, ne_eq, not_false_eq_true, decide_true, Bool.false_eq_true, if_true, if_false, List.nil_append]
    · exact ⟨_, .bind h2 .nil, fun h => absurd hu h, fun _ => set_self _ _ _ _, fun w h h' => set_other h'⟩
    · exact ⟨_, .bind h2 .nil, fun h => absurd hu h, fun _ => set_self _ _ _ _, fun w h h' => set_other h'⟩
    · exact ⟨_, .nil, fun h => absurd hu h, fun h => absurd trivial h, fun w h h' => rfl⟩
  · rw [if_neg hu, if_neg nofun, if_pos (.inr hu)]
    cases hr : f.rule <;> simp only [variantFallback, reduceCtorEq, ne_eq, not_false_eq_true, decide_true, Bool.false_eq_true, if_true, if_false, List.nil_append,
      List.cons_append, List.append_nil]
    · exact ⟨_, .bind h1 (.bind h2 .nil), fun _ => (set_other (by nofun)).trans (set_self _ _ _ _), fun _ => set_self _ _ _ _,
        fun w h h' => (set_other h').trans (set_other h)⟩
    · exact ⟨_, .bind h1 (.bind h2 .nil), fun _ => (set_other (by nofun)).trans (set_self _ _ _ _), fun _ => set_self _ _ _ _,
        fun w h h' => (set_other h').trans (set_other h)⟩
    · exact ⟨_, .bind h1 .nil, fun _ => set_self _ _ _ _, fun h => absurd trivial h, fun w h _ => set_other h⟩

theorem outBinders_nodup (f : Field) : ((outBinders f).filterMap id).Nodup := by
  unfold outBinders
  split <;> split <;> decide

theorem params_ty : {l : List Ex} → {ts : List RT} → List.Forall₂ (fun e τ => HasTy E Γ e τ .value) l ts → HasParams E Γ (args l) (ts.map .type)
  | _, _, .nil => .nil
  | _, _, .cons h h' => one_param h (params_ty h')

theorem exhaustive_fields {arms : List Field → Arms} {n : Str} (h0 : ∀ f fs, ∃ r bs, (arms (f :: fs)).pats = .variant r n (rustPascal T f.name none) bs :: (arms fs).pats) :
    (fs : List Field) → ∀ f ∈ fs, ∃ r bs, .variant r n (rustPascal T f.name none) bs ∈ (arms fs).pats
  | g :: fs, f, hf => by
    obtain ⟨r, bs, h⟩ := h0 g fs
    rw [h]
    cases hf with
    | head => exact ⟨_, _, .head _⟩
    | tail _ hf =>
      obtain ⟨r', bs', h'⟩ := exhaustive_fields h0 fs f hf
      exact ⟨r', bs', .tail _ h'⟩

theorem exhaustive_choice (hE : Good T S mod E) (hD : DeclEnv T S s ns' mod look d) (hv : d.variant = .choice) (x : NameSuffix) {arms : List Field → Arms}
    (h0 : ∀ f fs, ∃ r bs, (arms (f :: fs)).pats = .variant r (rustPascal T d.name (some x)) (rustPascal T f.name none) bs :: (arms fs).pats) :
    Exhaustive E (declRT T mod d x) (arms d.fields).pats := by
  refine .enum (by rw [hE.items]; exact hD.choice hv x) fun y hy => ?_
  obtain ⟨f, hf, rfl⟩ := List.mem_map.mp hy
  exact exhaustive_fields h0 d.fields f hf

theorem choiceFromArms_ty (hE : Good T S mod E) (hD : DeclEnv T S s ns' mod look d) (hv : d.variant = .choice) : (fs : List Field) → fs ⊆ d.fields →
    HasArms E Γ (declRT T mod d .out) .value (choiceFromArms T d fs) (declRT T mod d .in_)
  | [], _ => .nil
  | f :: fs, hsub => by
    have hf := hsub List.mem_cons_self
    have hL := hD.looks f hf
    obtain ⟨Γ', h1, h2, h3, -⟩ := outBinders_ty (d := d) hL id Γ
    rw [choiceFromArms]
    refine .cons (Γ' := Γ') ?_ ?_ (choiceFromArms_ty hE hD hv fs (fun g hg => hsub (List.mem_cons_of_mem _ hg)))
    · unfold declRT
      rw [← hE.mod] at h1 ⊢
      exact .variant (by rw [hE.items, hE.mod]; exact hD.choice hv .out) (variant_mem hf .out) (outBinders_nodup f) h1
    · unfold declRT
      rw [← hE.mod]
      refine .variantLit (by rw [hE.items, hE.mod]; exact hD.choice hv .in_) (variant_mem hf .in_) (by rw [hE.mod]; exact variantTypes_resolve hL .in_) (params_ty ?_)
      have hfb : f.rule ≠ .required → HasTy E Γ' (.std .boxNew (args [(Ex.paren (.deref (v .fallback))).m .into])) (.box (declRT T mod d .in_)) .value :=
        fun h => .boxNew (.into (.move (.paren (.derefBox (.var (h3 h))))) (.impl (by rw [hE.impls]; exact hD.impls)))
      unfold variantRTs
      rw [if_neg (show ¬ NameSuffix.in_ = .atlas by nofun), List.nil_append]
      refine List.rel_append ?_ ?_
      · by_cases hu : f.type.variant = .unit
        · rw [if_pos hu, if_neg (by rintro (h | h); exact nomatch h; exact h hu)]
          exact .nil
        · rw [if_neg hu, if_pos (.inr hu)]
          exact .cons (intoInvocation_ty hE hL (use_ty (h2 hu))) .nil
      · cases hr : f.rule <;> simp only [variantFallback, reduceCtorEq, ne_eq, not_true_eq_false, decide_false, Bool.false_eq_true, if_true, if_false]
        · exact .nil
        · exact .cons (hfb (by rw [hr]; nofun)) .nil
        · exact .nil

theorem choiceFrom_ty (hE : Good T S mod E) (hD : DeclEnv T S s ns' mod look d) (hv : d.variant = .choice) {m : Bool}
    (hm : Γ .message = some (declRT T mod d .out, m)) : HasTy E Γ (.matchLines (v .message) (choiceFromArms T d d.fields)) (declRT T mod d .in_) .value :=
  .matchLines (use_ty hm) (choiceFromArms_ty hE hD hv _ (fun _ h => h)) (exhaustive_choice hE hD hv .out fun _ _ => ⟨_, _, rfl⟩)

theorem choiceAtlasArms_ty (hE : Good T S mod E) (hs : supers = E.mod.length) (hD : DeclEnv T S s ns' mod look d) (hv : d.variant = .choice) {k : Cat} : (fs : List Field) →
    fs ⊆ d.fields → HasArms E Γ (declRT T mod d .out) k (choiceAtlasArms T supers d fs) (declRT T mod d .atlas)
  | [], _ => .nil
  | f :: fs, hsub => by
    have hf := hsub List.mem_cons_self
    have hL := hD.looks f hf
    obtain ⟨Γ', h1, h2, h3, -⟩ := outBinders_ty (d := d) hL .ref Γ
    rw [choiceAtlasArms]
    refine .cons (Γ' := Γ') ?_ (.block ?_) (choiceAtlasArms_ty hE hs hD hv fs (fun g hg => hsub (List.mem_cons_of_mem _ hg)))
    · unfold declRT
      rw [← hE.mod] at h1 ⊢
      exact .variantRef (by rw [hE.items, hE.mod]; exact hD.choice hv .out) (variant_mem hf .out) (outBinders_nodup f) h1
    · have key : ∀ Γ'' : Vars, Γ'' .payload = some (.ref (rt look .out f.type.variant), false) → (f.rule ≠ .required → Γ'' .fallback = Γ' .fallback) →
          HasTy E Γ'' (let' .payloadAtlas (atlasCalculation supers true f.type.variant)
        (let' .payloadSize (.brace (let' .payloadAtlas (.ref (v .payloadAtlas)) (atlasLookup f.type.variant)))
        (if f.rule = .required then
          .variantLit (rustPascal T d.name (some .atlas)) (rustPascal T f.name none)
            (args [headerAndPayload supers f, v .payloadAtlas])
        else
          let' .fallbackAtlas ((v .fallback).m .atlas)
          (.variantLit (rustPascal T d.name (some .atlas)) (rustPascal T f.name none)
            (args [.bin .add (headerAndPayload supers f) ((v .fallbackAtlas).m .size), v .payloadAtlas,
              .std .boxNew (args [v .fallbackAtlas])]))))) (declRT T mod d .atlas) .value := by
        intro Γ'' hp hfb
        refine .letIn (atlasCalculation_ty _ hL true hE hs hp) (.letIn (.brace (.letIn (.ref (.var (set_self _ _ _ _))) (atlasLookup_ty hE hL (set_self _ _ _ _)))) ?_)
        have hitem : E.items (E.mod, rustPascal T d.name (some .atlas)) = some (.enum (rustPascal T d.name (some .atlas)) (d.fields.map (fun f => (rustPascal T f.name none, variantTypes T s ns' d .atlas f)))) := (by rw [hE.items, hE.mod]; exact hD.choice hv .atlas)
        have hres : (variantTypes T s ns' d .atlas f).mapM (TypeEx.resolve E.mod) = some (variantRTs T mod look d .atlas f) := (by rw [hE.mod]; exact variantTypes_resolve hL .atlas)
        have hres' : variantRTs T mod look d .atlas f = [.usize, rt look .atlas f.type.variant] ++ (if f.rule = .required then [] else [.box (declRT T mod d .atlas)]) := by
          unfold variantRTs
          cases f.rule <;> simp only [variantFallback, reduceCtorEq, ne_eq, not_false_eq_true, decide_true, Bool.false_eq_true, if_true, if_false, true_or, List.cons_append, List.nil_append]
        rw [hres'] at hres
        by_cases hr : f.rule = .required
        · rw [if_pos hr] at hres ⊢
          rw [declRT, ← hE.mod]
          refine .variantLit hitem (variant_mem hf .atlas) hres (one_param (headerAndPayload_ty hs (hD.index f hf) (set_self _ _ _ _)) (one_param (use_ty (m := false) ?_) .nil))
          look
        · rw [if_neg hr] at hres ⊢
          have e0 : Γ'' .fallback = some (.ref (.box (declRT T mod d .out)), false) := (hfb hr).trans (h3 hr)
          refine .letIn (.atlas (i := (mod, rustPascal T d.name (some .in_))) (.var (τ := .ref (.box (declRT T mod d .out))) (m := false) ?_) (.ref (.box .refl)) (by rw [hE.impls]; exact hD.impls)) ?_
          · look
          · have e1 := headerAndPayload_ty (E := E) (f := f) (Γ := ((Γ''.set .payloadAtlas (rt look .atlas f.type.variant) false).set .payloadSize .usize false).set .fallbackAtlas
              (.named (mod, rustPascal T d.name (some .atlas))) false) hs (hD.index f hf) (m := false) (by look)
            have e2 := HasTy.size (E := E) (e := v .fallbackAtlas) (Γ := ((Γ''.set .payloadAtlas (rt look .atlas f.type.variant) false).set .payloadSize .usize false).set .fallbackAtlas
              (.named (mod, rustPascal T d.name (some .atlas))) false) (.var (set_self _ _ _ _)) .refl (by rw [hE.impls]; exact hD.impls)
            rw [← hE.mod] at e1 e2
            rw [declRT, ← hE.mod]
            refine .variantLit hitem (variant_mem hf .atlas) hres (one_param (.bin .add e1 e2) (one_param (use_ty (m := false) ?_) (one_param (.boxNew (use_ty (m := false) ?_)) .nil)))
            · look
            · rw [hE.mod]
              exact set_self _ _ _ _
      unfold unitPayload
      by_cases hu : f.type.variant = .unit
      · rw [if_pos hu]
        refine .letIn (.ref (.lit .unit)) (key _ ?_ fun _ => set_other nofun)
        rw [hu]
        exact set_self _ _ _ _
      · rw [if_neg hu]
        exact key Γ' (h2 hu) fun _ => rfl

theorem choiceAtlas_ty (hE : Good T S mod E) (hs : supers = E.mod.length) (hD : DeclEnv T S s ns' mod look d) (hv : d.variant = .choice) {m : Bool}
    (hself : Γ .self = some (.ref (declRT T mod d .out), m)) :
    HasTy E Γ (.matchLines (.deref (v .self)) (choiceAtlasArms T supers d d.fields)) (declRT T mod d .atlas) .value :=
  .matchLines (.deref (.var hself)) (choiceAtlasArms_ty hE hs hD hv _ (fun _ h => h)) (exhaustive_choice hE hD hv .out fun _ _ => ⟨_, _, rfl⟩)

theorem choiceSerializeArms_ty (hE : Good T S mod E) (hs : supers = E.mod.length) (hD : DeclEnv T S s ns' mod look d) (hv : d.variant = .choice) {m : Bool}
    (hr : E.ret = some (.result .unit)) (hw : Γ .writer = some (.refMut .sink, m)) : (fs : List Field) → fs ⊆ d.fields →
    HasArms E Γ (.pair (.ref (declRT T mod d .out)) (.ref (declRT T mod d .atlas))) .value (choiceSerializeArms T supers d fs) (.result .unit)
  | [], _ => .cons .wild₂ (.never .panic) .nil
  | f :: fs, hsub => by
    have hf := hsub List.mem_cons_self
    have hL := hD.looks f hf
    obtain ⟨Γ', h1, h2, h3, h4⟩ := outBinders_ty (d := d) hL .ref Γ
    have ha := resolve_rt .atlas _ hL
    have hb : (TypeEx.box (.path ⟨0, [], rustPascal T d.name (some .atlas)⟩)).resolve mod = some (.box (declRT T mod d .atlas)) := resolve_self _ _
    obtain ⟨Γ'', g1, g2, g3, g4⟩ : ∃ Γ'', Binds mod .ref (variantTypes T s ns' d .atlas f)
        ([none, some .payloadAtlas] ++ (if f.rule = .required then [] else [some .fallbackAtlas])) Γ' Γ'' ∧
        Γ'' .payloadAtlas = some (.ref (rt look .atlas f.type.variant), false) ∧
        (f.rule ≠ .required → Γ'' .fallbackAtlas = some (.ref (.box (declRT T mod d .atlas)), false)) ∧ ∀ w, w ≠ .payloadAtlas → w ≠ .fallbackAtlas → Γ'' w = Γ' w := by
      unfold variantTypes
      cases f.rule <;> simp only [variantFallback, reduceCtorEq, ne_eq, not_false_eq_true, decide_true, Bool.false_eq_true, if_true, if_false, true_or, List.cons_append,
        List.nil_append, List.append_nil]
      · exact ⟨_, .skip (.bind ha (.bind hb .nil)), (set_other (by nofun)).trans (set_self _ _ _ _), fun _ => set_self _ _ _ _, fun w h h' => (set_other h').trans (set_other h)⟩
      · exact ⟨_, .skip (.bind ha (.bind hb .nil)), (set_other (by nofun)).trans (set_self _ _ _ _), fun _ => set_self _ _ _ _, fun w h h' => (set_other h').trans (set_other h)⟩
      · exact ⟨_, .skip (.bind ha .nil), set_self _ _ _ _, fun h => absurd trivial h, fun w h _ => set_other h⟩
    have hw' : Γ'' .writer = some (.refMut .sink, m) := (g4 _ (by nofun) (by nofun)).trans ((h4 _ (by nofun) (by nofun)).trans hw)
    rw [choiceSerializeArms]
    refine .cons (Γ' := Γ'') ?_ (.block ?_) (choiceSerializeArms_ty hE hs hD hv hr hw fs (fun g hg => hsub (List.mem_cons_of_mem _ hg)))
    · unfold declRT
      rw [← hE.mod] at h1 g1 ⊢
      refine .variants (by rw [hE.items, hE.mod]; exact hD.choice hv .out) (variant_mem hf .out) (by rw [hE.items, hE.mod]; exact hD.choice hv .atlas)
        (variant_mem hf .atlas) ?_ h1 g1
      unfold outBinders
      split <;> split <;> decide
    · refine headerThen_ty hE hs hL (hD.index f hf) hr hw' g2 ?_
      have hrest : HasTy E Γ'' (if f.rule = .required then .std .ok (args [.lit .unit]) else .method (v .fallback) .serializeWithAtlas (args [v .writer, v .fallbackAtlas]))
          (.result .unit) .value := by
        by_cases hq : f.rule = .required
        · rw [if_pos hq]
          exact .ok (.lit .unit)
        · rw [if_neg hq]
          exact .serializeWithAtlas (i := (mod, rustPascal T d.name (some .in_))) (.var ((g4 _ (by nofun) (by nofun)).trans (h3 hq))) (.ref (.box .refl)) (by rw [hE.impls]; exact hD.impls)
            (writer_arg hw' (.type (use_ty (g3 hq)) (.box .refl) .nil))
      by_cases hu : f.type.variant = .unit
      · rw [hu]
        exact hrest
      · exact serializationInvocation_ty _ hL true hE hs hr hw' ((g4 _ (by nofun) (by nofun)).trans (h2 hu)) (fun _ => ⟨_, g2⟩) hrest

theorem choiceSerialize_wild : (fs : List Field) → .wild₂ ∈ (choiceSerializeArms T supers d fs).pats
  | [] => .head _
  | _ :: fs => .tail _ (choiceSerialize_wild fs)

theorem choiceSerialize_ty (hE : Good T S mod E) (hs : supers = E.mod.length) (hD : DeclEnv T S s ns' mod look d) (hv : d.variant = .choice) {m m' m'' : Bool}
    (hr : E.ret = some (.result .unit)) (hself : Γ .self = some (.ref (declRT T mod d .out), m)) (hw : Γ .writer = some (.refMut .sink, m'))
    (ha : Γ .atlas = some (.ref (declRT T mod d .atlas), m'')) :
    HasTy E Γ (.matchLines (.pair (v .self) (v .atlas)) (choiceSerializeArms T supers d d.fields)) (.result .unit) .value :=
  .matchLines (.pair (use_ty hself) (use_ty ha)) (choiceSerializeArms_ty hE hs hD hv hr hw _ (fun _ h => h)) (.pair (choiceSerialize_wild _))

theorem choiceResult_ty (hE : Good T S mod E) (hs : supers = E.mod.length) (hD : DeclEnv T S s ns' mod look d) (hv : d.variant = .choice) {f : Field} (hf : f ∈ d.fields)
    {m m' : Bool} (hr : E.ret = some (.result (declRT T mod d .in_))) (h : Γ .reader = some (.refMut .source, m))
    (hp : Γ .payload = some (rt look .in_ f.type.variant, m')) : HasTy E Γ (choiceResult T supers d f) .unit .value := by
  have hL := hD.looks f hf
  have key : ∀ (Γ' : Vars) (l : List Ex), List.Forall₂ (fun e τ => HasTy E Γ' e τ .value) l (variantRTs T mod look d .in_ f) →
      HasTy E Γ' (.seq (.return_ (.std .ok (args [.variantLit (rustPascal T d.name (some .in_)) (rustPascal T f.name none) (args l)]))) .done) .unit .value := by
    intro Γ' l hl
    refine .never (.diverge (.return_ hr (.ok ?_)))
    unfold declRT
    rw [← hE.mod]
    exact .variantLit (by rw [hE.items, hE.mod]; exact hD.choice hv .in_) (variant_mem hf .in_) (by rw [hE.mod]; exact variantTypes_resolve hL .in_) (params_ty hl)
  have hpay : ∀ (Γ' : Vars) (m : Bool), Γ' .payload = some (rt look .in_ f.type.variant, m) → List.Forall₂ (fun e τ => HasTy E Γ' e τ .value)
      (if f.type.variant = .unit then [] else [v .payload]) (if NameSuffix.in_ = .atlas ∨ f.type.variant ≠ .unit then [rt look .in_ f.type.variant] else []) := by
    intro Γ' m hp
    by_cases hu : f.type.variant = .unit
    · rw [if_pos hu, if_neg (by rintro (h | h); exact nomatch h; exact h hu)]
      exact .nil
    · rw [if_neg hu, if_pos (.inr hu)]
      exact .cons (use_ty hp) .nil
  unfold choiceResult
  dsimp only
  by_cases ho : f.rule = .optional
  · rw [if_pos ho]
    refine .letIn (.boxNew (.try_ hr (.deserialize (o := (mod, rustPascal T d.name (some .out))) (a := (mod, rustPascal T d.name (some .atlas)))
      (i := (mod, rustPascal T d.name (some .in_))) ?_ (by rw [hE.impls]; exact hD.impls) (.reader (.refMut (.derefMut (.var h) nofun)) .source .nil)))) (key _ _ ?_)
    · rw [hE.mod]
      simp [TypeEx.resolve, rustResolve]
    · unfold variantRTs
      rw [if_neg (show ¬ NameSuffix.in_ = .atlas by nofun), List.nil_append, ho]
      exact List.rel_append (hpay _ m' ((set_other (by nofun)).trans hp)) (.cons (use_ty (set_self _ _ _ _)) .nil)
  · rw [if_neg ho]
    refine .seq (.try_ hr (.runtime (f := .finish) hs (.reader (.refMut (.derefMut (.var h) nofun)) .source .nil))) nofun (key _ _ ?_)
    unfold variantRTs
    have : variantFallback .in_ f.rule = false := by
      cases hq : f.rule <;> first | rfl | exact absurd hq ho
    rw [if_neg (show ¬ NameSuffix.in_ = .atlas by nofun), List.nil_append, this, if_neg Bool.false_ne_true, List.append_nil]
    exact hpay _ m' hp

theorem choiceDeserialize_ty (hE : Good T S mod E) (hs : supers = E.mod.length) (hD : DeclEnv T S s ns' mod look d) (hv : d.variant = .choice) {m : Bool}
    (hr : E.ret = some (.result (declRT T mod d .in_))) (h : Γ .reader = some (.refMut .source, m)) :
    HasTy E Γ (choiceDeserialize T supers s ns' d) (.result (declRT T mod d .in_)) .value := by
  unfold choiceDeserialize
  refine .never (.loopNever (.letPair (.try_ hr (header_ty hs h)) nofun (dispatch_ty (hE.inLoop false) hs hD hr h ?_)))
  intro f hf el Γ' m' h1 h2
  exact choiceResult_ty (E := { E.inLoop false with elem := el }) ⟨hE.1, hE.2, hE.3⟩ hs hD hv hf hr ((h2 _ (by nofun) (by nofun) (by nofun) (by nofun) (by nofun)).trans h) h1

theorem choiceSizeArms_ty (hE : Good T S mod E) (hD : DeclEnv T S s ns' mod look d) (hv : d.variant = .choice) {k : Cat} : (fs : List Field) → fs ⊆ d.fields →
    HasArms E Γ (declRT T mod d .atlas) k (choiceSizeArms T d fs) .usize
  | [], _ => .nil
  | f :: fs, hsub => by
    have hf := hsub List.mem_cons_self
    rw [choiceSizeArms]
    obtain ⟨Γ', h1, h2⟩ : ∃ Γ', Binds mod .ref (variantTypes T s ns' d .atlas f) ([some .size, none] ++ (if f.rule = .required then [] else [none])) Γ Γ' ∧
        Γ' .size = some (.ref .usize, false) := by
      unfold variantTypes
      cases f.rule <;> simp only [variantFallback, reduceCtorEq, ne_eq, not_false_eq_true, decide_true, Bool.false_eq_true, if_true, if_false, true_or, List.cons_append,
        List.nil_append, List.append_nil]
      · exact ⟨_, .bind rfl (.skip (.skip .nil)), set_self _ _ _ _⟩
      · exact ⟨_, .bind rfl (.skip (.skip .nil)), set_self _ _ _ _⟩
      · exact ⟨_, .bind rfl (.skip .nil), set_self _ _ _ _⟩
    refine .cons (Γ' := Γ') ?_ (copied_ty .usize h2) (choiceSizeArms_ty hE hD hv fs (fun g hg => hsub (List.mem_cons_of_mem _ hg)))
    unfold declRT
    rw [← hE.mod] at h1 ⊢
    refine .variantRef (by rw [hE.items, hE.mod]; exact hD.choice hv .atlas) (variant_mem hf .atlas) ?_ h1
    split <;> decide

theorem choiceSize_ty (hE : Good T S mod E) (hD : DeclEnv T S s ns' mod look d) (hv : d.variant = .choice) {m : Bool}
    (hself : Γ .self = some (.ref (declRT T mod d .atlas), m)) :
    HasTy E Γ (.matchLines (.deref (v .self)) (choiceSizeArms T d d.fields)) .usize .value :=
  .matchLines (.deref (.var hself)) (choiceSizeArms_ty hE hD hv _ (fun _ h => h)) (exhaustive_choice hE hD hv .atlas fun _ _ => ⟨_, _, rfl⟩)

end

end Typical.Gen

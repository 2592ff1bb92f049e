import Verif.Spec.SameCode
import Verif.Gen.RustFile
import Verif.Props.Identifier

/-!
# The generated Rust code depends only on what `SameCode` compares
-/

namespace Typical

theorem withSuffix_pascal {T : CharTable} (hT : T.Ascii) {a b : Identifier} (h : SameForms T a b) (x : Option NameSuffix) :
    (withSuffix T a x).pascalCase T = (withSuffix T b x).pascalCase T := by
  cases x with
  | none => exact h.pascal
  | some x =>
    show (splitWords T (a.original ++ ['_'] ++ x.text)).flatMap (capitalize T) = (splitWords T (b.original ++ ['_'] ++ x.text)).flatMap (capitalize T)
    rw [List.append_assoc, List.append_assoc]
    show (splitWords T (a.original ++ '_' :: x.text)).flatMap (capitalize T) = (splitWords T (b.original ++ '_' :: x.text)).flatMap (capitalize T)
    rw [splitWords_underscore T (Ascii.sep hT).1, splitWords_underscore T (Ascii.sep hT).1, List.flatMap_append, List.flatMap_append]
    exact congrArg (· ++ _) h.pascal

theorem rustSnake_same {T : CharTable} {a b : Identifier} (h : SameForms T a b) : rustSnake a = rustSnake b := by
  unfold rustSnake; rw [h.snake]
theorem rustPascal_same {T : CharTable} (hT : T.Ascii) {a b : Identifier} (h : SameForms T a b) (x : Option NameSuffix) :
    rustPascal T a x = rustPascal T b x := by
  unfold rustPascal; rw [withSuffix_pascal hT h]
theorem tsPascal_same {T : CharTable} (hT : T.Ascii) {a b : Identifier} (h : SameForms T a b) (x : Option NameSuffix) :
    tsPascal T a x = tsPascal T b x := by
  unfold tsPascal; rw [withSuffix_pascal hT h]
theorem tsCamel_same {T : CharTable} {a b : Identifier} (h : SameForms T a b) : tsCamel T a = tsCamel T b := by
  unfold tsCamel; rw [h.camel]

theorem lookup_target {i j : Identifier} (hij : i.snakeCase = j.snakeCase) {l l' : List (Identifier × Import)} (h : Each SameTarget l l') :
    (lookupIdent i l).map (·.namespace_) = (lookupIdent j l').map (·.namespace_) := by
  induction h with
  | nil => rfl
  | @cons a b _ _ h0 _ ih =>
    obtain ⟨a1, a2⟩ := a
    obtain ⟨b1, b2⟩ := b
    have hn : a1.snakeCase = b1.snakeCase := by simpa [SameName, Identifier.same] using h0.1
    rw [lookupIdent, lookupIdent, hn, hij]
    split
    · exact congrArg some h0.2.symm
    · exact ih

theorem same_unit {T : CharTable} {a b : TypeVariant} (h : SameTypeForms T a b) : (b = .unit) = (a = .unit) := by cases h <;> simp
theorem same_f64 {T : CharTable} {a b : TypeVariant} (h : SameTypeForms T a b) : (b = .f64) = (a = .f64) := by cases h <;> simp

theorem each_map {α β γ : Type} {R : α → β → Prop} {as : List α} {bs : List β} (h : Each R as bs) {f : α → γ} {g : β → γ}
    (hfg : ∀ a b, R a b → g b = f a) : bs.map g = as.map f := by
  induction h with
  | nil => rfl
  | cons h0 _ ih => rw [List.map_cons, List.map_cons, ih, hfg _ _ h0]

theorem each_flatMap {α β γ : Type} {R : α → β → Prop} {as : List α} {bs : List β} (h : Each R as bs) {f : α → List γ} {g : β → List γ}
    (hfg : ∀ a b, R a b → g b = f a) : bs.flatMap g = as.flatMap f := by
  induction h with
  | nil => rfl
  | cons h0 _ ih => rw [List.flatMap_cons, List.flatMap_cons, ih, hfg _ _ h0]

theorem each_filter {α β : Type} {R : α → β → Prop} {as : List α} {bs : List β} (h : Each R as bs) {p : α → Bool} {q : β → Bool}
    (hpq : ∀ a b, R a b → q b = p a) : Each R (as.filter p) (bs.filter q) := by
  induction h with
  | nil => exact .nil
  | cons h0 _ ih =>
    rw [List.filter_cons, List.filter_cons, hpq _ _ h0]
    split
    · exact .cons h0 ih
    · exact ih

theorem each_empty {α β : Type} {R : α → β → Prop} {as : List α} {bs : List β} (h : Each R as bs) : bs.isEmpty = as.isEmpty := by
  cases h <;> rfl

namespace Gen

section
variable {T : CharTable} (hT : T.Ascii) {s s' : Schema} (hs : SameCode T s s')

include hs in
theorem target_none_same {ns : Namespace} {i j : Identifier} (h : SameName i j) : targetNamespace s' ns (some j) = targetNamespace s ns (some i) := by
  have := lookup_target (i := i) (j := j) (by simpa [SameName, Identifier.same] using h) hs.imports
  unfold targetNamespace
  revert this
  dsimp only
  cases lookupIdent i s.imports <;> cases lookupIdent j s'.imports <;> simp
  intro h
  rw [h]

theorem sized_same {a b : TypeVariant} (h : SameTypeForms T a b) : sized b = sized a := by cases h <;> rfl
theorem innermost_same {a b : TypeVariant} (h : SameTypeForms T a b) : innermostCustom b = innermostCustom a := by
  induction h with
  | array _ ih => exact ih
  | _ => rfl
theorem convert_same {a b : TypeVariant} (h : SameTypeForms T a b) : convertElement b = convertElement a := by
  induction h with
  | array _ ih => rw [convertElement, convertElement, ih]
  | _ => rfl
theorem into_same {a b : TypeVariant} (h : SameTypeForms T a b) (e : Ex) : intoInvocation e b = intoInvocation e a := by
  cases h with
  | array h => rw [intoInvocation, intoInvocation, innermost_same h, convert_same h]
  | _ => rfl
theorem lookup_same {a b : TypeVariant} (h : SameTypeForms T a b) : atlasLookup b = atlasLookup a := by
  cases h with
  | array h => rw [atlasLookup, atlasLookup, sized_same h]
  | _ => rfl
theorem integer_same {a b : TypeVariant} (h : SameTypeForms T a b) : integerEncoded b = integerEncoded a := by cases h <;> rfl
theorem atlas_same {a b : TypeVariant} (h : SameTypeForms T a b) (k : Nat) : ∀ x, atlasCalculation k x b = atlasCalculation k x a := by
  induction h with
  | array h ih => intro x; rw [atlasCalculation, atlasCalculation, sized_same h, lookup_same h, ih]; simp only [same_unit h, same_f64 h]
  | _ => intro x; rfl
theorem ser_same {a b : TypeVariant} (h : SameTypeForms T a b) (k : Nat) :
    ∀ x r, serializationInvocation k x r b = serializationInvocation k x r a := by
  induction h with
  | array h ih => intro x r; rw [serializationInvocation, serializationInvocation, sized_same h, lookup_same h, ih]; simp only [same_unit h]
  | _ => intro x r; rfl

include hT hs in
theorem path_same {ns : Namespace} {i j : Option Identifier} {m n : Identifier} (h : SameTypeForms T (.custom i m) (.custom j n)) (d : NameSuffix) :
    typePath T s' ns j n d = typePath T s ns i m d := by
  unfold typePath
  cases h with
  | bare h => rw [rustPascal_same hT h]; rfl
  | qualified hi h => rw [rustPascal_same hT h, target_none_same hs hi]

include hT hs in
theorem typeOf_same {ns : Namespace} {d : NameSuffix} {a b : TypeVariant} (h : SameTypeForms T a b) : typeOf T s' ns d b = typeOf T s ns d a := by
  induction h with
  | array h ih => rw [typeOf, typeOf, ih, sized_same h]
  | bare h => rw [typeOf, typeOf, path_same hT hs (.bare h)]
  | qualified hi h => rw [typeOf, typeOf, path_same hT hs (.qualified hi h)]
  | _ => rfl

include hT hs in
theorem des_same {ns : Namespace} {a b : TypeVariant} (h : SameTypeForms T a b) (k : Nat) :
    ∀ x r, deserializationInvocation T k s' ns x r b = deserializationInvocation T k s ns x r a := by
  induction h with
  | array h ih =>
    intro x r
    rw [deserializationInvocation, deserializationInvocation, sized_same h]
    simp only [ih, typeOf_same hT hs h, same_unit h, same_f64 h]
  | bare h => intro x r; rw [deserializationInvocation, deserializationInvocation, path_same hT hs (.bare h)]
  | qualified hi h => intro x r; rw [deserializationInvocation, deserializationInvocation, path_same hT hs (.qualified hi h)]
  | _ => intro x r; rfl

theorem fieldVar_same {f f' : Field} (h : SameFieldForms T f f') : fieldVar f' = fieldVar f := by
  unfold fieldVar; rw [rustSnake_same h.name]

theorem snake_same {f f' : Field} (h : SameFieldForms T f f') : rustSnake f'.name = rustSnake f.name := (rustSnake_same h.name).symm
include hT in
theorem pascal_same {f f' : Field} (h : SameFieldForms T f f') : rustPascal T f'.name none = rustPascal T f.name none := (rustPascal_same hT h.name _).symm
include hT in
theorem declName_same {d d' : Declaration} (h : SameDeclForms T d d') (x : Option NameSuffix) : rustPascal T d'.name x = rustPascal T d.name x :=
  (rustPascal_same hT h.name _).symm

include hT hs in
theorem structItem_same {ns : Namespace} {d d' : Declaration} (h : SameDeclForms T d d') (x : NameSuffix) :
    structItem T s' ns d' x = structItem T s ns d x := by
  unfold structItem
  rw [declName_same hT h, each_map h.fields (fun f f' hf => by rw [snake_same hf, hf.rule, typeOf_same hT hs hf.type])]

include hT hs in
theorem choiceItem_same {ns : Namespace} {d d' : Declaration} (h : SameDeclForms T d d') (x : NameSuffix) :
    choiceItem T s' ns d' x = choiceItem T s ns d x := by
  unfold choiceItem
  rw [declName_same hT h]
  congr 1
  exact each_map h.fields (fun f f' hf => by
    unfold variantTypes
    simp only [pascal_same hT hf, declName_same hT h, hf.rule, typeOf_same hT hs hf.type, ne_eq, same_unit hf.type])

include hT in
theorem structFrom_same {d d' : Declaration} (h : SameDeclForms T d d') : structFrom T d' = structFrom T d := by
  unfold structFrom
  rw [declName_same hT h]
  congr 2
  exact each_map h.fields (fun f f' hf => by simp only [snake_same hf, hf.rule, into_same hf.type])

theorem header_same {f f' : Field} (h : SameFieldForms T f f') (k : Nat) : headerAndPayload k f' = headerAndPayload k f := by
  unfold headerAndPayload; rw [h.index, integer_same h.type]

theorem atlasLets_same {l l' : List Field} (h : Each (SameFieldForms T) l l') (k : Nat) (r : Ex) : structAtlasLets k r l' = structAtlasLets k r l := by
  induction h with
  | nil => rfl
  | cons h0 _ ih => simp only [structAtlasLets, fieldVar_same h0, snake_same h0, h0.rule, atlas_same h0.type, ih]

include hT in
theorem structAtlas_same {d d' : Declaration} (h : SameDeclForms T d d') (k : Nat) : structAtlas T k d' = structAtlas T k d := by
  unfold structAtlas
  rw [declName_same hT h, each_empty h.fields, each_map (f := structFieldSize k) h.fields (fun f f' hf => by
    unfold structFieldSize
    simp only [fieldVar_same hf, hf.rule, lookup_same hf.type, header_same hf]),
    each_map h.fields (fun f f' hf => by rw [snake_same hf, fieldVar_same hf])]
  simp only [atlasLets_same h.fields]

theorem headerThen_same {f f' : Field} (h : SameFieldForms T f f') (k : Nat) (r : Ex) : headerThen k f' r = headerThen k f r := by
  unfold headerThen; rw [h.index, integer_same h.type, lookup_same h.type]

theorem structSerialize_same {l l' : List Field} (h : Each (SameFieldForms T) l l') (k : Nat) : structSerialize k l' = structSerialize k l := by
  induction h with
  | nil => rfl
  | cons h0 _ ih => simp only [structSerialize, snake_same h0, h0.rule, headerThen_same h0, ser_same h0.type, ih]

include hT hs in
theorem arms_same {ns : Namespace} {u u' : Field → Ex} {l l' : List Field} (h : Each (SameFieldForms T) l l') (k : Nat)
    (hu : ∀ f f', SameFieldForms T f f' → u' f' = u f) : indexArms T k s' ns u' l' = indexArms T k s ns u l := by
  induction h with
  | nil => rfl
  | cons h0 _ ih => rw [indexArms, indexArms, h0.index, des_same hT hs h0.type, hu _ _ h0, ih]

include hT hs in
theorem slots_same {ns : Namespace} {l l' : List Field} (h : Each (SameFieldForms T) l l') (r : Ex) :
    structSlots T s' ns r l' = structSlots T s ns r l := by
  induction h with
  | nil => rfl
  | cons h0 _ ih => rw [structSlots, structSlots, fieldVar_same h0, typeOf_same hT hs h0.type, ih]

include hT hs in
theorem structDes_same {ns : Namespace} {d d' : Declaration} (h : SameDeclForms T d d') (k : Nat) :
    structDeserialize T k s' ns d' = structDeserialize T k s ns d := by
  have hr := each_filter (p := fun f => f.rule == .required) (q := fun f => f.rule == .required) h.fields (fun f f' hf => by rw [hf.rule])
  unfold structDeserialize
  rw [declName_same hT h, each_empty h.fields,
    each_map (g := fun f => (rustSnake f.name, if f.rule = .required then (v (fieldVar f)).m .unwrap else v (fieldVar f))) h.fields
      (fun f f' hf => by rw [snake_same hf, fieldVar_same hf, hf.rule])]
  dsimp only
  rw [each_empty hr, each_map (g := fun f => (v (fieldVar f)).m .isNone) hr (fun f f' hf => by rw [fieldVar_same hf]),
    arms_same hT hs (u := fun f => .seq (.mutate (fieldVar f) .getOrInsert (v .payload)) .done) h.fields k (fun f f' hf => by rw [fieldVar_same hf])]
  simp only [slots_same hT hs h.fields]

theorem binders_same {f f' : Field} (h : SameFieldForms T f f') : outBinders f' = outBinders f := by
  unfold outBinders; simp only [h.rule, same_unit h.type]

include hT in
theorem fromArms_same {d d' : Declaration} (h : SameDeclForms T d d') {l l' : List Field} (hl : Each (SameFieldForms T) l l') :
    choiceFromArms T d' l' = choiceFromArms T d l := by
  induction hl with
  | nil => rfl
  | cons h0 _ ih => simp only [choiceFromArms, declName_same hT h, pascal_same hT h0, binders_same h0, same_unit h0.type, h0.rule, into_same h0.type, ih]

include hT in
theorem atlasArms_same {d d' : Declaration} (h : SameDeclForms T d d') (k : Nat) {l l' : List Field} (hl : Each (SameFieldForms T) l l') :
    choiceAtlasArms T k d' l' = choiceAtlasArms T k d l := by
  induction hl with
  | nil => rfl
  | cons h0 _ ih =>
    simp only [choiceAtlasArms, unitPayload, declName_same hT h, pascal_same hT h0, binders_same h0, same_unit h0.type, h0.rule, atlas_same h0.type,
      lookup_same h0.type, header_same h0, ih]

include hT in
theorem serArms_same {d d' : Declaration} (h : SameDeclForms T d d') (k : Nat) {l l' : List Field} (hl : Each (SameFieldForms T) l l') :
    choiceSerializeArms T k d' l' = choiceSerializeArms T k d l := by
  induction hl with
  | nil => rfl
  | cons h0 _ ih =>
    simp only [choiceSerializeArms, declName_same hT h, pascal_same hT h0, binders_same h0, h0.rule, headerThen_same h0, ser_same h0.type, ih]

include hT in
theorem result_same {d d' : Declaration} (h : SameDeclForms T d d') (k : Nat) {f f' : Field} (hf : SameFieldForms T f f') :
    choiceResult T k d' f' = choiceResult T k d f := by
  unfold choiceResult
  simp only [declName_same hT h, pascal_same hT hf, hf.rule, same_unit hf.type]

include hT in
theorem sizeArms_same {d d' : Declaration} (h : SameDeclForms T d d') {l l' : List Field} (hl : Each (SameFieldForms T) l l') :
    choiceSizeArms T d' l' = choiceSizeArms T d l := by
  induction hl with
  | nil => rfl
  | cons h0 _ ih => simp only [choiceSizeArms, declName_same hT h, pascal_same hT h0, h0.rule, ih]

include hT hs in
theorem declCode_same {ns : Namespace} {d d' : Declaration} (h : SameDeclForms T d d') : declCode T s' ns d' = declCode T s ns d := by
  unfold declCode
  rw [h.variant]
  cases d.variant with
  | struct =>
    dsimp only
    simp only [declName_same hT h, structItem_same hT hs h, structFrom_same hT h, structAtlas_same hT h, structSerialize_same h.fields, structDes_same hT hs h]
  | choice =>
    dsimp only
    simp only [declName_same hT h, choiceItem_same hT hs h, fromArms_same hT h h.fields, atlasArms_same hT h _ h.fields, serArms_same hT h _ h.fields,
      choiceDeserialize, arms_same hT hs h.fields _ (fun f f' hf => result_same hT h _ hf), sizeArms_same hT h h.fields]

end

end Gen

/-! ### Trees of modules -/

mutual
/-- The same tree of modules. -/
inductive SameTree (T : CharTable) : Module → Module → Prop
  | mk {c c' s s'} : SameTrees T c c' → SameCode T s s' → SameTree T (.mk c s) (.mk c' s')
/-- The same trees of modules. -/
inductive SameTrees (T : CharTable) : Modules → Modules → Prop
  | nil : SameTrees T .nil .nil
  | cons {n m m' l l'} : SameTree T m m' → SameTrees T l l' → SameTrees T (.cons n m l) (.cons n m' l')
end

theorem SameTrees.get {T : CharTable} {k : Str} : {l l' : Modules} → SameTrees T l l' →
    (∃ m m', l.get k = some m ∧ l'.get k = some m' ∧ SameTree T m m') ∨ (l.get k = none ∧ l'.get k = none)
  | _, _, .nil => .inr ⟨rfl, rfl⟩
  | _, _, .cons (n := n) h hl => by
    rw [Modules.get, Modules.get]
    by_cases hk : n.snakeCase = k
    · rw [if_pos hk, if_pos hk]; exact .inl ⟨_, _, rfl, rfl, h⟩
    · rw [if_neg hk, if_neg hk]; exact SameTrees.get hl

theorem SameTrees.set {T : CharTable} {k : Str} {m m' : Module} (hm : SameTree T m m') : {l l' : Modules} → SameTrees T l l' →
    SameTrees T (l.set k m) (l'.set k m')
  | _, _, .nil => .nil
  | _, _, .cons (n := n) h hl => by
    rw [Modules.set, Modules.set]
    by_cases hk : n.snakeCase = k
    · rw [if_pos hk, if_pos hk]; exact .cons hm hl
    · rw [if_neg hk, if_neg hk]; exact .cons h (SameTrees.set hm hl)

theorem SameTrees.insert {T : CharTable} {k : Identifier} {m m' : Module} (hm : SameTree T m m') : {l l' : Modules} → SameTrees T l l' →
    SameTrees T (l.insert k m) (l'.insert k m')
  | _, _, .nil => .cons hm .nil
  | _, _, .cons (n := n) h hl => by
    rw [Modules.insert, Modules.insert]
    by_cases hk : strLt k.snakeCase n.snakeCase = true
    · rw [if_pos hk, if_pos hk]; exact .cons hm (.cons h hl)
    · rw [if_neg hk, if_neg hk]; exact .cons h (SameTrees.insert hm hl)

theorem SameTree.empty {T : CharTable} : SameTree T .empty .empty := .mk .nil ⟨.nil, .nil⟩

theorem insertSchema_same {T : CharTable} {s s' : Schema} (hs : SameCode T s s') : (ns : List Identifier) → {m m' : Module} → SameTree T m m' →
    SameTree T (insertSchema m ns s) (insertSchema m' ns s')
  | [], _, _, .mk hc _ => .mk hc hs
  | i :: ns, _, _, .mk hc h0 => by
    rw [insertSchema, insertSchema]
    rcases SameTrees.get (k := i.snakeCase) hc with ⟨m, m', e, e', hm⟩ | ⟨e, e'⟩
    · rw [e, e']; exact .mk (hc.set (insertSchema_same hs ns hm)) h0
    · rw [e, e']; exact .mk (hc.insert (insertSchema_same hs ns .empty)) h0

theorem buildTree_same {T : CharTable} {S S' : Schemas} (h : SameFiles T S S') : SameTree T (buildTree S) (buildTree S') := by
  unfold buildTree
  have : ∀ {m m' : Module}, SameTree T m m' → SameTree T (S.foldl (fun m e => insertSchema m e.1.components e.2) m)
      (S'.foldl (fun m e => insertSchema m e.1.components e.2) m') := by
    unfold SameFiles at h
    induction h with
    | nil => exact id
    | cons h0 _ ih =>
      intro m m' hm
      rw [List.foldl_cons, List.foldl_cons, h0.1]
      exact ih (insertSchema_same h0.2 _ hm)
  exact this .empty

namespace Gen

mutual
theorem moduleText_same {T : CharTable} (hT : T.Ascii) (ind : Nat) (ns : List Identifier) : {m m' : Module} → SameTree T m m' →
    moduleText T ind ns m' = moduleText T ind ns m
  | _, _, .mk hc hs => by
    rw [moduleText, moduleText, modulesText_same hT ind ns _ hc, each_empty hs.declarations,
      each_map hs.declarations (fun d d' hd => by rw [declCode_same hT hs hd])]
theorem modulesText_same {T : CharTable} (hT : T.Ascii) (ind : Nat) (ns : List Identifier) (more : Bool) : {l l' : Modules} → SameTrees T l l' →
    modulesText T ind ns more l' = modulesText T ind ns more l
  | _, _, .nil => rfl
  | _, _, .cons h .nil => by
    simp only [modulesText, moduleText_same hT _ _ h]
  | _, _, .cons h (.cons h1 hl) => by
    rw [modulesText, modulesText, moduleText_same hT _ _ h, modulesText_same hT _ _ _ (.cons h1 hl)]
end

theorem nonEmpty_same {T : CharTable} {m m' : Module} (h : SameTree T m m') : Module.nonEmpty m' = Module.nonEmpty m := by
  cases h with
  | mk hc hs =>
    cases hc with
    | nil => show (!_) = (!_); rw [each_empty hs.declarations]
    | cons _ _ => rfl

theorem rustText_same {T : CharTable} (hT : T.Ascii) (version : Str) {S S' : Schemas} (h : SameFiles T S S') :
    rustText T version S' = rustText T version S := by
  unfold rustText
  rw [nonEmpty_same (buildTree_same h), moduleText_same hT 0 [] (buildTree_same h)]

end Gen

end Typical

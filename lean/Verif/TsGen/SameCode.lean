import Verif.Gen.SameCode
import Verif.TsGen.Print

/-!
# The generated TypeScript code depends only on what `SameCode` compares
-/

namespace Typical.TsGen

section
variable {T : CharTable} (hT : T.Ascii) {s s' : Schema} (hs : SameCode T s s')

include hs in
theorem target_none_same {ns : Namespace} {i j : Identifier} (h : SameName i j) : targetNamespace s' ns (some j) = targetNamespace s ns (some i) := by
  have := lookup_target (i := i) (j := j) (by simpa [SameName, Identifier.same] using h) hs.imports
  unfold targetNamespace
  revert this
  dsimp only
  cases lookupIdent i s.imports <;> cases lookupIdent j s'.imports <;> simp
  intro h
  rw [h]

theorem sized_same {a b : TypeVariant} (h : SameTypeForms T a b) : sized b = sized a := by cases h <;> rfl
theorem lookup_same {a b : TypeVariant} (h : SameTypeForms T a b) : atlasLookup b = atlasLookup a := by
  cases h with
  | array h => rw [atlasLookup, atlasLookup, sized_same h]
  | _ => rfl
theorem integer_same {a b : TypeVariant} (h : SameTypeForms T a b) : integerEncoded b = integerEncoded a := by cases h <;> rfl

include hT hs in
theorem path_same {ns : Namespace} {i j : Option Identifier} {m n : Identifier} (h : SameTypeForms T (.custom i m) (.custom j n)) :
    customPath T s' ns j n = customPath T s ns i m := by
  unfold customPath namespacePath
  cases h with
  | bare h => rw [tsPascal_same hT h]; rfl
  | qualified hi h => rw [tsPascal_same hT h, target_none_same hs hi]

include hT hs in
theorem customText_same {ns : Namespace} {i j : Option Identifier} {m n : Identifier} (h : SameTypeForms T (.custom i m) (.custom j n))
    (x : NameSuffix) : customText T s' ns j n x = customText T s ns i m x := by
  unfold customText namespacePath
  cases h with
  | bare h => rw [tsPascal_same hT h]; rfl
  | qualified hi h => rw [tsPascal_same hT h, target_none_same hs hi]

include hT hs in
theorem typeText_same {ns : Namespace} {x : NameSuffix} {a b : TypeVariant} (h : SameTypeForms T a b) : typeText T s' ns x b = typeText T s ns x a := by
  induction h with
  | array h ih => rw [typeText, typeText, ih, sized_same h]
  | bare h => exact customText_same hT hs (.bare h) x
  | qualified hi h => exact customText_same hT hs (.qualified hi h) x
  | _ => rfl

include hT hs in
theorem atlas_same {ns : Namespace} {a b : TypeVariant} (h : SameTypeForms T a b) : ∀ x, atlasCalculation T s' ns x b = atlasCalculation T s ns x a := by
  induction h with
  | array h ih => intro x; rw [atlasCalculation, atlasCalculation, sized_same h, lookup_same h, ih]; simp only [same_unit h, same_f64 h]
  | bare h => intro x; rw [atlasCalculation, atlasCalculation, path_same hT hs (.bare h)]
  | qualified hi h => intro x; rw [atlasCalculation, atlasCalculation, path_same hT hs (.qualified hi h)]
  | _ => intro x; rfl

include hT hs in
theorem ser_same {ns : Namespace} {a b : TypeVariant} (h : SameTypeForms T a b) : ∀ x, serialization T s' ns x b = serialization T s ns x a := by
  induction h with
  | array h ih => intro x; rw [serialization, serialization, sized_same h, lookup_same h, ih]; simp only [same_unit h]
  | bare h => intro x; rw [serialization, serialization, path_same hT hs (.bare h)]
  | qualified hi h => intro x; rw [serialization, serialization, path_same hT hs (.qualified hi h)]
  | _ => intro x; rfl

include hT hs in
theorem des_same {ns : Namespace} {a b : TypeVariant} (h : SameTypeForms T a b) : ∀ x, deserialization T s' ns x b = deserialization T s ns x a := by
  induction h with
  | array h ih => intro x; rw [deserialization, deserialization, sized_same h, ih, typeText_same hT hs h]; simp only [same_unit h]
  | bare h => intro x; rw [deserialization, deserialization, path_same hT hs (.bare h)]
  | qualified hi h => intro x; rw [deserialization, deserialization, path_same hT hs (.qualified hi h)]
  | _ => intro x; rfl

theorem camel_same {f f' : Field} (h : SameFieldForms T f f') : tsCamel T f'.name = tsCamel T f.name := (tsCamel_same h.name).symm
theorem local_same {f f' : Field} (h : SameFieldForms T f f') : local_ T f' = local_ T f := by unfold local_; rw [camel_same h]
theorem message_same {f f' : Field} (h : SameFieldForms T f f') : messageField T f' = messageField T f := by unfold messageField; rw [camel_same h]
theorem headerSize_same {f f' : Field} (h : SameFieldForms T f f') : headerSize f' = headerSize f := by
  unfold headerSize; rw [h.index, integer_same h.type]
theorem writeHeader_same {f f' : Field} (h : SameFieldForms T f f') : writeHeader f' = writeHeader f := by
  unfold writeHeader; rw [h.index, integer_same h.type]
include hT in
theorem declName_same {d d' : Declaration} (h : SameDeclForms T d d') (x : Option NameSuffix) : tsPascal T d'.name x = tsPascal T d.name x :=
  (tsPascal_same hT h.name _).symm

include hT hs in
theorem structText_same {ns : Namespace} {d d' : Declaration} (h : SameDeclForms T d d') (ind : Nat) (x : NameSuffix) :
    structText T s' ns d' ind x = structText T s ns d ind x := by
  unfold structText
  rw [declName_same hT h, each_flatMap h.fields (fun f f' hf => by rw [camel_same hf, hf.rule, typeText_same hT hs hf.type])]

theorem each_length {α β : Type} {R : α → β → Prop} {as : List α} {bs : List β} (h : Each R as bs) : bs.length = as.length := by
  induction h with
  | nil => rfl
  | cons _ _ ih => rw [List.length_cons, List.length_cons, ih]

include hT hs in
theorem choiceText_same {ns : Namespace} {d d' : Declaration} (h : SameDeclForms T d d') (ind : Nat) (x : NameSuffix) :
    choiceText T s' ns d' ind x = choiceText T s ns d ind x := by
  unfold choiceText
  rw [declName_same hT h, each_empty h.fields, each_length h.fields,
    each_flatMap h.fields (fun f f' hf => by rw [camel_same hf, hf.rule, typeText_same hT hs hf.type])]

theorem declare_same {l l' : List Field} (h : Each (SameFieldForms T) l l') : declareLocals T l' = declareLocals T l := by
  unfold declareLocals
  rw [each_empty h, each_map (f := local_ T) h (fun f f' hf => local_same hf)]

theorem inits_same {l l' : List Field} (h : Each (SameFieldForms T) l l') : localInits T l' = localInits T l := by
  induction h with
  | nil => rfl
  | cons h0 _ ih => rw [localInits, localInits, camel_same h0, local_same h0, ih]

include hT hs in
theorem structAtlas_same {ns : Namespace} {l l' : List Field} (h : Each (SameFieldForms T) l l') : structAtlas T s' ns l' = structAtlas T s ns l := by
  unfold structAtlas
  rw [each_empty h, declare_same h, inits_same h, each_flatMap (f := fun f => [.blank, structFieldAtlas T s ns f]) h (fun f f' hf => by
    unfold structFieldAtlas
    simp only [atlas_same hT hs hf.type, local_same hf, lookup_same hf.type, headerSize_same hf, message_same hf, hf.rule])]

include hT hs in
theorem structSerialize_same {ns : Namespace} {l l' : List Field} (h : Each (SameFieldForms T) l l') :
    structSerialize T s' ns l' = structSerialize T s ns l := by
  unfold structSerialize
  rw [each_flatMap (f := fun f => [structFieldSerialize T s ns f, .blank]) h (fun f f' hf => by
    unfold structFieldSerialize
    simp only [ser_same hT hs hf.type, camel_same hf, lookup_same hf.type, writeHeader_same hf, message_same hf, hf.rule])]

include hT hs in
theorem structCases_same {ns : Namespace} {l l' : List Field} (h : Each (SameFieldForms T) l l') : structCases T s' ns l' = structCases T s ns l := by
  induction h with
  | nil => rfl
  | cons h0 _ ih => rw [structCases, structCases, h0.index, des_same hT hs h0.type, local_same h0, ih]

theorem missing_same {l l' : List Field} (h : Each (SameFieldForms T) l l') : missingConditions T l' = missingConditions T l := by
  unfold missingConditions
  exact each_map (each_filter h (fun f f' hf => by rw [hf.rule])) (fun f f' hf => by rw [local_same hf])

theorem any_same {l l' : List Field} (h : Each (SameFieldForms T) l l') :
    l'.any (fun f => decide (f.rule = .required)) = l.any (fun f => decide (f.rule = .required)) := by
  induction h with
  | nil => rfl
  | cons h0 _ ih => rw [List.any_cons, List.any_cons, ih, h0.rule]

include hT hs in
theorem structDeserialize_same {ns : Namespace} {l l' : List Field} (h : Each (SameFieldForms T) l l') :
    structDeserialize T s' ns l' = structDeserialize T s ns l := by
  unfold structDeserialize structLoop
  rw [declare_same h, each_empty h, structCases_same hT hs h, any_same h, missing_same h, inits_same h]

include hT hs in
theorem choiceAtlas_same {ns : Namespace} {l l' : List Field} (h : Each (SameFieldForms T) l l') : choiceAtlas T s' ns l' = choiceAtlas T s ns l := by
  unfold choiceAtlas
  rw [each_map (f := choiceFieldAtlas T s ns) h (fun f f' hf => by
    unfold choiceFieldAtlas
    simp only [atlas_same hT hs hf.type, camel_same hf, lookup_same hf.type, headerSize_same hf, message_same hf, hf.rule])]

include hT hs in
theorem choiceSerialize_same {ns : Namespace} {n n' : Identifier} (hn : SameForms T n n') {l l' : List Field} (h : Each (SameFieldForms T) l l') :
    choiceSerialize T s' ns n' l' = choiceSerialize T s ns n l := by
  unfold choiceSerialize
  rw [each_map (f := choiceFieldSerialize T s ns n) h (fun f f' hf => by
    unfold choiceFieldSerialize
    simp only [ser_same hT hs hf.type, camel_same hf, lookup_same hf.type, writeHeader_same hf, message_same hf, hf.rule, typeText_same hT hs hf.type,
      tsPascal_same hT hn])]

theorem result_same {f f' : Field} (h : SameFieldForms T f f') : choiceResult T f' = choiceResult T f := by
  unfold choiceResult
  simp only [h.rule, camel_same h]

include hT hs in
theorem choiceCases_same {ns : Namespace} {l l' : List Field} (h : Each (SameFieldForms T) l l') : choiceCases T s' ns l' = choiceCases T s ns l := by
  induction h with
  | nil => rfl
  | cons h0 _ ih => rw [choiceCases, choiceCases, h0.index, des_same hT hs h0.type, result_same h0, ih]

include hT hs in
theorem declCode_same {ns : Namespace} {d d' : Declaration} (h : SameDeclForms T d d') : declCode T s' ns d' = declCode T s ns d := by
  have hb : (declCode T s' ns d').body = (declCode T s ns d).body := by
    funext f
    unfold declCode
    dsimp only
    rw [h.variant]
    cases f <;> cases d.variant <;> dsimp only
    all_goals first
      | (unfold sizeFunction; rw [each_empty h.fields])
      | (unfold serializeFunction; simp only [each_empty h.fields]; done)
      | exact structAtlas_same hT hs h.fields
      | exact choiceAtlas_same hT hs h.fields
      | exact structSerialize_same hT hs h.fields
      | exact choiceSerialize_same hT hs h.name h.fields
      | exact structDeserialize_same hT hs h.fields
      | (unfold choiceDeserialize choiceLoop; rw [choiceCases_same hT hs h.fields])
  have ht : (declCode T s' ns d').types = (declCode T s ns d).types := by
    funext ind
    unfold declCode
    dsimp only
    rw [h.variant]
    cases d.variant <;> simp only [structText_same hT hs h, choiceText_same hT hs h]
  have hn : (declCode T s' ns d').name = (declCode T s ns d).name := declName_same hT h none
  have hx : (declCode T s' ns d').typeName = (declCode T s ns d).typeName := funext (fun x => declName_same hT h (some x))
  cases hd : declCode T s ns d
  cases hd' : declCode T s' ns d'
  rw [hd, hd'] at hb ht hn hx
  dsimp only at hb ht hn hx
  rw [hb, ht, hn, hx]

end

mutual
theorem moduleText_same {T : CharTable} (hT : T.Ascii) (ind : Nat) (ns : List Identifier) : {m m' : Module} → SameTree T m m' →
    moduleText T ind ns m' = moduleText T ind ns m
  | _, _, .mk hc hs => by
    rw [moduleText, moduleText, modulesText_same hT ind ns _ hc, each_empty hs.declarations,
      each_map hs.declarations (fun d d' hd => by rw [declCode_same hT hs hd])]
theorem modulesText_same {T : CharTable} (hT : T.Ascii) (ind : Nat) (ns : List Identifier) (more : Bool) : {l l' : Modules} → SameTrees T l l' →
    modulesText T ind ns more l' = modulesText T ind ns more l
  | _, _, .nil => rfl
  | _, _, .cons h .nil => by
    simp only [modulesText, moduleText_same hT _ _ h]
  | _, _, .cons h (.cons h1 hl) => by
    rw [modulesText, modulesText, moduleText_same hT _ _ h, modulesText_same hT _ _ _ (.cons h1 hl)]
end

theorem tsText_same {T : CharTable} (hT : T.Ascii) (version : Str) {S S' : Schemas} (h : SameFiles T S S') :
    tsText T version S' = tsText T version S := by
  unfold tsText
  rw [Gen.nonEmpty_same (buildTree_same h), moduleText_same hT 0 [] (buildTree_same h)]

end Typical.TsGen

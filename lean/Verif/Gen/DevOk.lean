import Verif.Gen.DevMain
import Verif.Gen.Named

/-!
# Helper: generated code does not ignore errors of devices
-/

namespace Typical.Gen

theorem args_ok {cat : Bool} {l : Level} : {es : List Ex} → (∀ e ∈ es, e.Ok cat l) → (args es).Ok cat l
  | [], _ => trivial
  | e :: es, h => ⟨h e List.mem_cons_self, args_ok fun e he => h e (List.mem_cons_of_mem _ he)⟩

theorem inits_ok {cat : Bool} {l : Level} : {es : List (Str × Ex)} → (∀ e ∈ es, e.2.Ok cat l) → (inits es).Ok cat l
  | [], _ => trivial
  | e :: es, h => ⟨h e List.mem_cons_self, inits_ok fun e he => h e (List.mem_cons_of_mem _ he)⟩

/-- Unfold the conditions on the syntax. -/
macro "okay" "[" ls:Lean.Parser.Tactic.simpLemma,* "]" : tactic =>
  `(tactic| simp only [Ex.Ok, Args.Ok, Inits.Ok, Arms.Ok, args, v, Ex.m, let', letMut, tryThen, Method.isPure, RuntimeFn.isPure, Level.arg, Level.tried, true_and, and_true,
    and_self, true_or, or_true, reduceCtorEq, ne_eq, not_false_eq_true, $ls,*])

section
variable {cat : Bool} {T : CharTable} {s : Schema} {ns : Namespace} {supers : Nat}

theorem Level.arg_arg (l : Level) : l.arg.arg = l.arg := by cases l <;> rfl

theorem convertElement_ok (l : Level) : (t : TypeVariant) → (convertElement t).Ok cat l
  | .array _ t => by rw [convertElement]; okay [convertElement_ok .pure t]
  | .bool | .bytes | .custom _ _ | .f64 | .s64 | .string | .u64 | .unit => by rw [convertElement]; okay []; all_goals nofun

theorem intoInvocation_ok {l : Level} {e : Ex} (he : ∀ l, e.Ok cat l) (t : TypeVariant) : (intoInvocation e t).Ok cat l := by
  unfold intoInvocation
  split
  · split
    · okay [he, convertElement_ok]
    · okay [he]
  · okay [he]

theorem atlasU64_ok {l : Level} {f : Bool} : (atlasU64 supers f).Ok cat l := by
  unfold atlasU64
  cases f <;> okay [Bool.false_eq_true, if_true, if_false]

theorem atlasLookup_ok {l : Level} (t : TypeVariant) : (atlasLookup t).Ok cat l := by
  unfold atlasLookup
  split
  · split <;> okay []
  · okay []
  · okay []

theorem atlasCalculation_ok (l : Level) (f : Bool) : (t : TypeVariant) → (atlasCalculation supers f t).Ok cat l
  | .array _ t => by
    rw [atlasCalculation]
    split
    · okay [atlasCalculation_ok .pure false t, atlasLookup_ok]
    · split
      · okay [atlasU64_ok]
      · split
        · okay []
        · okay [atlasCalculation_ok .pure false t]
  | .bool => by rw [atlasCalculation]; cases f <;> okay [Bool.false_eq_true, if_true, if_false]
  | .bytes => by rw [atlasCalculation]; okay []
  | .string => by rw [atlasCalculation]; okay []
  | .custom _ _ => by rw [atlasCalculation]; okay []
  | .f64 => by rw [atlasCalculation]; cases f <;> okay [Bool.false_eq_true, if_true, if_false]
  | .s64 => by rw [atlasCalculation]; okay [atlasU64_ok]
  | .u64 => by rw [atlasCalculation]; exact atlasU64_ok
  | .unit => by rw [atlasCalculation]; okay []

theorem u64Serialization_ok {l : Level} (hl : l ≠ .pure) {f : Bool} : (u64Serialization supers f).Ok cat l := by
  unfold u64Serialization
  cases l <;> first | exact absurd rfl hl | (cases f <;> okay [Bool.false_eq_true, if_true, if_false])

theorem serializationInvocation_ok (l : Level) (hl : l ≠ .pure) (f : Bool) (rest : Ex) (hr : rest.Ok cat l) : (t : TypeVariant) →
    (serializationInvocation supers f rest t).Ok cat l
  | .array _ t => by
    have ih := serializationInvocation_ok .guarded nofun false .done trivial t
    have hl' : l.arg = .guarded := by cases l <;> first | rfl | exact absurd rfl hl
    rw [serializationInvocation]
    split
    · okay [hr, hl', ih, atlasLookup_ok]
    · split
      · okay [hr, hl', u64Serialization_ok (l := .guarded) nofun]
      · okay [hr, hl', ih]
  | .bool => by
    have hl' : l.arg = .guarded := by cases l <;> first | rfl | exact absurd rfl hl
    rw [serializationInvocation]; okay [hr, hl', u64Serialization_ok (l := .guarded) nofun]
  | .bytes => by
    have hl' : l.arg = .guarded := by cases l <;> first | rfl | exact absurd rfl hl
    rw [serializationInvocation]; okay [hr, hl']
  | .custom _ _ => by
    have hl' : l.arg = .guarded := by cases l <;> first | rfl | exact absurd rfl hl
    rw [serializationInvocation]; okay [hr, hl']
  | .f64 => by
    have hl' : l.arg = .guarded := by cases l <;> first | rfl | exact absurd rfl hl
    rw [serializationInvocation]; cases f <;> okay [hr, hl', Bool.false_eq_true, if_true, if_false]
  | .s64 => by
    have hl' : l.arg = .guarded := by cases l <;> first | rfl | exact absurd rfl hl
    rw [serializationInvocation]; okay [hr, hl', u64Serialization_ok (l := .guarded) nofun]
  | .string => by
    have hl' : l.arg = .guarded := by cases l <;> first | rfl | exact absurd rfl hl
    rw [serializationInvocation]; okay [hr, hl']
  | .u64 => by
    have hl' : l.arg = .guarded := by cases l <;> first | rfl | exact absurd rfl hl
    rw [serializationInvocation]; okay [hr, hl', u64Serialization_ok (l := .guarded) nofun]
  | .unit => by rw [serializationInvocation]; exact hr

theorem u64Deserialization_ok {l : Level} (hl : l ≠ .pure) {f : Bool} {rest : Ex} (hr : rest.Ok cat l) : (u64Deserialization supers f rest).Ok cat l := by
  have hl' : l.arg = .guarded := by cases l <;> first | rfl | exact absurd rfl hl
  unfold u64Deserialization
  cases f <;> okay [hr, hl', Bool.false_eq_true, if_true, if_false]

theorem breakAtEnd_ok {l : Level} {x : Bool} : (breakAtEnd x).Ok cat l := by
  unfold breakAtEnd
  cases x <;> okay [Bool.false_eq_true, if_true, if_false]

theorem breakAtEnd_catch {w : Var} {b : Ex} {x : Bool} : (Arms.cons (.ok w) b (.cons (.err .err) (breakAtEnd x) .nil)).Catch := ⟨_, _, _, rfl⟩

theorem deserializationInvocation_ok (l : Level) (hl : l ≠ .pure) (f : Bool) (rest : Ex) (hr : rest.Ok true l) : (t : TypeVariant) →
    (deserializationInvocation T supers s ns f rest t).Ok true l
  | .array _ t => by
    have hl' : l.arg = .guarded := by cases l <;> first | rfl | exact absurd rfl hl
    have ih := fun (l : Level) (hl : l ≠ .pure) (rest : Ex) (hr : rest.Ok true l) => deserializationInvocation_ok l hl false rest hr t
    rw [deserializationInvocation]
    split
    · okay [hr, hl', ih .guarded nofun (.var .payload) trivial, breakAtEnd_ok, breakAtEnd_catch]
    · split
      · refine u64Deserialization_ok hl ?_
        okay [hr]
      · have h1 := ih .tail nofun (.std .ok (args [v .payload])) (by okay [])
        okay [hr, hl', breakAtEnd_ok, breakAtEnd_catch]
        refine ⟨h1, ?_⟩
        split <;> okay [hr, hl', breakAtEnd_ok, breakAtEnd_catch]
  | .bool => by rw [deserializationInvocation]; exact u64Deserialization_ok hl (by okay [hr])
  | .bytes => by
    have hl' : l.arg = .guarded := by cases l <;> first | rfl | exact absurd rfl hl
    rw [deserializationInvocation]; okay [hr, hl']
  | .custom _ _ => by
    have hl' : l.arg = .guarded := by cases l <;> first | rfl | exact absurd rfl hl
    rw [deserializationInvocation]; okay [hr, hl']
  | .f64 => by
    have hl' : l.arg = .guarded := by cases l <;> first | rfl | exact absurd rfl hl
    rw [deserializationInvocation]; cases f <;> okay [hr, hl', Bool.false_eq_true, if_true, if_false]
  | .s64 => by rw [deserializationInvocation]; exact u64Deserialization_ok hl (by okay [hr])
  | .string => by
    have hl' : l.arg = .guarded := by cases l <;> first | rfl | exact absurd rfl hl
    rw [deserializationInvocation]; okay [hr, hl']
  | .u64 => by rw [deserializationInvocation]; exact u64Deserialization_ok hl hr
  | .unit => by rw [deserializationInvocation]; okay [hr]

/-! ### Structs -/

theorem structFrom_ok {d : Declaration} {l : Level} : (structFrom T d).Ok cat l := by
  unfold structFrom
  simp only [Ex.Ok]
  refine inits_ok fun e he => ?_
  obtain ⟨f, -, rfl⟩ := List.mem_map.mp he
  dsimp only
  split
  · okay []
    exact intoInvocation_ok (by intro l; okay []) _
  · okay []
    exact intoInvocation_ok (by intro l; okay []) _
  · exact intoInvocation_ok (by intro l; okay []) _

theorem structAtlasLets_ok {l : Level} {rest : Ex} (hr : rest.Ok cat l) : (fs : List Field) → (structAtlasLets supers rest fs).Ok cat l
  | [] => hr
  | f :: fs => by
    rw [structAtlasLets]
    have ih := structAtlasLets_ok hr fs
    simp only [let', Ex.Ok]
    refine ⟨?_, ih⟩
    split <;> okay [atlasCalculation_ok]

theorem structFieldSize_ok {l : Level} {f : Field} : (structFieldSize supers f).Ok cat l := by
  unfold structFieldSize headerAndPayload
  split <;> okay [atlasLookup_ok]

theorem structAtlas_ok {l : Level} {d : Declaration} : (structAtlas T supers d).Ok cat l := by
  unfold structAtlas
  have h : (Ex.structLit (rustPascal T d.name (some .atlas)) (.cons "_size".toList (.sumLines (args (d.fields.map (structFieldSize supers))))
      (inits (d.fields.map (fun f => (rustSnake f.name, v (fieldVar f))))))).Ok cat l := by
    simp only [Ex.Ok, Inits.Ok]
    refine ⟨args_ok fun e he => ?_, inits_ok fun e he => ?_⟩
    · obtain ⟨f, -, rfl⟩ := List.mem_map.mp he
      exact structFieldSize_ok
    · obtain ⟨f, -, rfl⟩ := List.mem_map.mp he
      trivial
  dsimp only
  split
  · exact h
  · exact structAtlasLets_ok (by simp only [Ex.Ok] at h ⊢; exact h) _

theorem headerThen_ok {l : Level} (hl : l ≠ .pure) {f : Field} {rest : Ex} (hr : rest.Ok cat l) : (headerThen supers f rest).Ok cat l := by
  have hl' : l.arg = .guarded := by cases l <;> first | rfl | exact absurd rfl hl
  unfold headerThen
  okay [hr, hl', atlasLookup_ok]

theorem structSerialize_ok : (fs : List Field) → (structSerialize supers fs).Ok cat .tail
  | [] => by rw [structSerialize]; okay []
  | f :: fs => by
    rw [structSerialize]
    have ih := structSerialize_ok fs
    have hs := headerThen_ok (cat := cat) (supers := supers) (l := .guarded) nofun (f := f)
      (serializationInvocation_ok (supers := supers) .guarded nofun true .done trivial f.type.variant)
    simp only [Ex.Ok]
    refine ⟨?_, ih⟩
    split <;> okay [hs]

theorem indexArms_ok {l : Level} (hl : l ≠ .pure) {use : Field → Ex} (hu : ∀ f, (use f).Ok true l) : (fs : List Field) →
    (indexArms T supers s ns use fs).Ok true l
  | [] => by
    have hl' : l.arg = .guarded := by cases l <;> first | rfl | exact absurd rfl hl
    rw [indexArms]; okay [hl']
  | f :: fs => by
    rw [indexArms]
    have ih := indexArms_ok hl hu fs
    okay [ih, deserializationInvocation_ok l hl true (use f) (hu f) f.type.variant]

theorem dispatch_ok {l : Level} {arms : Arms} (h : arms.Ok true l) : (dispatch arms).Ok true l := by
  unfold dispatch
  okay [h]

theorem structSlots_ok {l : Level} {rest : Ex} (hr : rest.Ok cat l) : (fs : List Field) → (structSlots T s ns rest fs).Ok cat l
  | [] => hr
  | f :: fs => by rw [structSlots]; okay [structSlots_ok hr fs]

theorem structDeserialize_ok {d : Declaration} : (structDeserialize T supers s ns d).Ok true .tail := by
  have hr : (Ex.std .ok (args [.structLit (rustPascal T d.name (some .in_)) (inits (d.fields.map (fun f =>
      (rustSnake f.name, if f.rule = .required then (v (fieldVar f)).m .unwrap else v (fieldVar f)))))])).Ok true .tail := by
    okay []
    refine inits_ok fun e he => ?_
    obtain ⟨f, -, rfl⟩ := List.mem_map.mp he
    dsimp only
    split <;> okay []
  have ho : ∀ fs : List Field, (args (fs.map (fun f => (v (fieldVar f)).m .isNone))).Ok true .guarded := fun fs => args_ok fun e he => by
    obtain ⟨f, -, rfl⟩ := List.mem_map.mp he
    okay []
  have hd := dispatch_ok (indexArms_ok (T := T) (supers := supers) (s := s) (ns := ns) (l := .guarded) nofun
    (use := fun f => .seq (.mutate (fieldVar f) .getOrInsert (v .payload)) .done) (fun f => by okay []) d.fields)
  unfold structDeserialize
  generalize Ex.std .ok (args [.structLit (rustPascal T d.name (some .in_)) (inits (d.fields.map (fun f =>
      (rustSnake f.name, if f.rule = .required then (v (fieldVar f)).m .unwrap else v (fieldVar f)))))]) = result at hr ⊢
  dsimp only
  have hk : (if (d.fields.filter (fun f => f.rule == .required)).isEmpty = true then result else
    .seq (.ifThen (.orLines (args ((d.fields.filter (fun f => f.rule == .required)).map (fun f => (v (fieldVar f)).m .isNone))))
      (.seq (.return_ (.errMissing supers)) .done)) (.blank result)).Ok true .tail := by
    split
    · exact hr
    · have := ho (d.fields.filter (fun f => f.rule == .required))
      okay [hr]
      exact this
  generalize (if (d.fields.filter (fun f => f.rule == .required)).isEmpty = true then result else
    .seq (.ifThen (.orLines (args ((d.fields.filter (fun f => f.rule == .required)).map (fun f => (v (fieldVar f)).m .isNone))))
      (.seq (.return_ (.errMissing supers)) .done)) (.blank result)) = check at hk ⊢
  generalize dispatch (indexArms T supers s ns (fun f => .seq (.mutate (fieldVar f) .getOrInsert (v .payload)) .done) d.fields) = disp at hd ⊢
  split
  · okay [hk, hd, breakAtEnd_ok, breakAtEnd_catch]
  · refine structSlots_ok ?_ _
    okay [hk, hd, breakAtEnd_ok, breakAtEnd_catch]

/-! ### Choices -/

theorem choiceFromArms_ok {d : Declaration} {l : Level} : (fs : List Field) → (choiceFromArms T d fs).Ok cat l
  | [] => trivial
  | f :: fs => by
    rw [choiceFromArms]
    refine ⟨?_, choiceFromArms_ok fs⟩
    simp only [Ex.Ok]
    refine args_ok fun e he => ?_
    rw [List.mem_append] at he
    rcases he with he | he
    · split at he
      · cases he
      · obtain rfl := List.mem_singleton.mp he
        exact intoInvocation_ok (by intro l; okay []) _
    · split at he
      · obtain rfl := List.mem_singleton.mp he
        okay []
      · cases he

theorem choiceAtlasArms_ok {d : Declaration} {l : Level} : (fs : List Field) → (choiceAtlasArms T supers d fs).Ok cat l
  | [] => trivial
  | f :: fs => by
    rw [choiceAtlasArms]
    refine ⟨?_, choiceAtlasArms_ok fs⟩
    unfold unitPayload headerAndPayload
    simp only [Ex.Ok]
    split <;> split <;> okay [atlasCalculation_ok, atlasLookup_ok]

theorem choiceSerializeArms_ok {d : Declaration} : (fs : List Field) → (choiceSerializeArms T supers d fs).Ok cat .tail
  | [] => by rw [choiceSerializeArms]; okay []
  | f :: fs => by
    rw [choiceSerializeArms]
    refine ⟨?_, choiceSerializeArms_ok fs⟩
    simp only [Ex.Ok]
    refine headerThen_ok (l := .tail) nofun (serializationInvocation_ok .tail nofun true _ ?_ _)
    split <;> okay []

theorem choiceResult_ok {d : Declaration} {f : Field} : (choiceResult T supers d f).Ok true .guarded := by
  unfold choiceResult
  dsimp only
  have hp : ∀ l : List Ex, (∀ e ∈ l, ∃ x, e = v x) → (args l).Ok true .guarded := fun l h => args_ok fun e he => by
    obtain ⟨x, rfl⟩ := h e he
    trivial
  have h1 : ∀ e ∈ (if f.type.variant = .unit then [] else [v .payload]), ∃ x, e = v x := by
    split
    · nofun
    · intro e he
      exact ⟨_, List.mem_singleton.mp he⟩
  split
  · have := hp ((if f.type.variant = .unit then [] else [v .payload]) ++ [v .fallback]) (by
      intro e he
      rcases List.mem_append.mp he with he | he
      · exact h1 e he
      · exact ⟨_, List.mem_singleton.mp he⟩)
    generalize (if f.type.variant = .unit then [] else [v .payload]) ++ [v .fallback] = as at this ⊢
    simp only [Ex.Ok, let', tryThen, args, Args.Ok, Level.arg, Level.tried, v, this, and_self]
  · have := hp _ h1
    generalize (if f.type.variant = .unit then [] else [v .payload]) = as at this ⊢
    simp only [Ex.Ok, let', tryThen, args, Args.Ok, Level.arg, Level.tried, v, this, and_self, or_true]

theorem choiceDeserialize_ok {d : Declaration} : (choiceDeserialize T supers s ns d).Ok true .tail := by
  have hd := dispatch_ok (indexArms_ok (T := T) (supers := supers) (s := s) (ns := ns) (l := .guarded) nofun
    (use := choiceResult T supers d) (fun f => choiceResult_ok) d.fields)
  unfold choiceDeserialize
  generalize dispatch _ = disp at hd ⊢
  okay [hd]

theorem choiceSizeArms_ok {d : Declaration} {l : Level} : (fs : List Field) → (choiceSizeArms T d fs).Ok cat l
  | [] => trivial
  | f :: fs => by
    rw [choiceSizeArms]
    refine ⟨?_, choiceSizeArms_ok fs⟩
    okay []

end

/-! ### Programs -/

theorem declCode_ok {T : CharTable} {s : Schema} {ns : Namespace} {d : Declaration} {name : Str} {f : Fn} {e : Ex} (h : (declCode T s ns d).fn name f = some e)
    {cat : Bool} (hc : f = .deserializeFromReaderRef → cat = true) : e.Ok cat f.level := by
  unfold declCode at h
  dsimp only at h
  cases hv : d.variant <;> cases f <;> rw [hv] at h <;> simp only [DeclCode.fn] at h <;> split at h <;> first | cases h | skip
  all_goals (try (obtain rfl := hc rfl))
  all_goals simp only [Fn.level]
  · exact structAtlas_ok
  · exact structSerialize_ok _
  · exact structFrom_ok
  · exact structDeserialize_ok
  · okay []
  · okay [choiceAtlasArms_ok]
  · okay [choiceSerializeArms_ok]
  · okay [choiceFromArms_ok]
  · exact choiceDeserialize_ok
  · okay [choiceSizeArms_ok]

/-- Generated code does not ignore errors of devices. -/
theorem program_ok (T : CharTable) (S : Schemas) : (program T S).Ok := by
  intro t f e h cat hc
  unfold program at h
  split at h
  · cases h
  · obtain ⟨d, -, h⟩ := List.exists_of_findSome?_eq_some h
    exact declCode_ok h hc

theorem traitSize_ok {cat : Bool} : traitSize.Ok cat .pure := by unfold traitSize; okay []

theorem traitSerialize_ok {cat : Bool} : traitSerialize.Ok cat .tail := by unfold traitSerialize; okay []

theorem traitDeserialize_ok : traitDeserialize.Ok true .tail := by unfold traitDeserialize; okay []

end Typical.Gen

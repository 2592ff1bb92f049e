import Verif.Gen.MovesDecl
import Verif.Gen.MovesSound
import Verif.Props.RustTyping

/-!
# Property C91: the generated Rust functions do not use values which were moved

For every schema without errors (and without the collisions of names of C51-C53 and C64), the body of each generated function is accepted by the check of
`Verif.Spec.RustMoves`.
-/

namespace Typical

open Gen

/-- **C91.** Each function of each declaration is in the generated program, and it does not use a value which was moved. -/
theorem C91_functions {T : CharTable} {S : Schemas} (hA : Accepted T S) {k : List Str × Str} {ns : Namespace} {s : Schema} {d : Declaration} (hd : S.Declares k ns s d)
    (f : Fn) : ∃ e, program T S (keyType (outType T ns d) (inType T ns d) (atlasType T ns d) f) f = some e ∧
      NoUseAfterMove (paramTypes (outType T ns d) (inType T ns d) (atlasType T ns d) f) e := by
  obtain ⟨ns', look, -, h2, -, -⟩ := declEnv hA.loaded hA.wellFormed hA.names hd
  refine ⟨(declCode T s ns' d).body f, (by have h3 := h2 f; cases f <;> exact h3), ?_⟩
  have hn : d.variant = .struct → (d.fields.map (fun f => rustSnake f.name)).Nodup := fun hv => by
    have := hA.names.members _ hd.1 _ hd.2.1 hv
    unfold rustFieldNames at this
    exact (List.nodup_append.mp this).2.1
  unfold NoUseAfterMove declCode
  cases hv : d.variant with
  | struct =>
    cases f
    · exact structAtlas_flow T _ d _ rfl (hn hv)
    · exact ⟨_, structSerialize_flow _ d.fields _ rfl rfl⟩
    · exact structFrom_flow T d _ rfl (hn hv)
    · exact structDeserialize_flow T _ s ns' d _ (hn hv)
    · exact ⟨[], by simp [DeclCode.body, flow, Ex.place, usePlace, paramTypes, RT.moves]⟩
  | choice =>
    cases f
    · exact choiceAtlas_flow T _ d _ rfl
    · exact choiceSerialize_flow T _ d _ rfl rfl
    · exact choiceFrom_flow T d _
    · exact choiceDeserialize_flow T _ s ns' d _
    · exact choiceSize_flow T d _ rfl

/-- **C91 (traits).** So do the functions of the traits. -/
theorem C91_traits (o i : TypeId) :
    NoUseAfterMove [(.self, .ref (.named o), false)] traitSize ∧
    NoUseAfterMove [(.self, .ref (.named o), false), (.writer, .sink, true)] traitSerialize ∧
    NoUseAfterMove [(.reader, .source, true)] traitDeserialize := by
  refine ⟨⟨[], ?_⟩, ⟨[], ?_⟩, ⟨[], ?_⟩⟩ <;>
    simp [traitSize, traitSerialize, traitDeserialize, flow, flowArgs, Method.takes, Method.params, takesFirst, usePlace, Ex.use, Use.moves, Gen.set, hide, leave]

/-- **C91 (soundness of the classification).** What the check takes to be copied is copied: if the type checker gives the value of an expression a type, and the
check says that using this value does not move it, then the type implements `Copy`. For parameters: so do their types. -/
theorem C91_copied {E : TyEnv} {Γ : Vars} {e : Ex} {τ : RT} (h : HasTy E Γ e τ .value) {κ : Var → Bool} (hκ : Gen.Agrees κ Γ) (hu : e.use κ = .copied) :
    IsCopy τ := use_sound h κ hκ hu trivial

theorem C91_parameters {τ : RT} (h : τ.moves = false) : IsCopy τ := stays_moves h

/-! ### There are such schemas -/

/-- A declaration of the schemas in the examples of C67, with arrays, messages in messages and all three rules. -/
example (f : Fn) : ∃ e, program asciiTable exampleSchemas (keyType (outType asciiTable ⟨[ident "main"]⟩ exampleMain.declarations[0])
      (inType asciiTable ⟨[ident "main"]⟩ exampleMain.declarations[0]) (atlasType asciiTable ⟨[ident "main"]⟩ exampleMain.declarations[0]) f) f = some e ∧
    NoUseAfterMove (paramTypes (outType asciiTable ⟨[ident "main"]⟩ exampleMain.declarations[0]) (inType asciiTable ⟨[ident "main"]⟩ exampleMain.declarations[0])
      (atlasType asciiTable ⟨[ident "main"]⟩ exampleMain.declarations[0]) f) e :=
  C91_functions exampleSchemas_accepted exampleShape_declared f

/-! ### The check rejects wrong programs -/

/-- `let payload = message; (message, payload)` -/
example (o : TypeId) : ¬ NoUseAfterMove [(.message, .named o, false)] (.letIn false .payload (.var .message) (.pair (.var .message) (.var .payload))) := by
  rintro ⟨M, h⟩
  simp [flow, usePlace, Ex.use, Use.ofBool, RT.moves, hide, Gen.set, Use.moves, Place.meets] at h

/-- Moving a member, and then the whole; moving two members is possible. -/
example (o : TypeId) : ¬ NoUseAfterMove [(.message, .named o, false)] (.pair (.field (.var .message) "a".toList) (.var .message)) := by
  rintro ⟨M, h⟩
  simp [flow, usePlace, Ex.place, RT.moves, Place.meets] at h

example (o : TypeId) : NoUseAfterMove [(.message, .named o, false)] (.pair (.field (.var .message) ['a']) (.field (.var .message) ['b'])) := by
  refine ⟨[(.message, some ['b']), (.message, some ['a'])], ?_⟩
  simp [flow, usePlace, Ex.place, RT.moves, Place.meets]

/-- Moving in a loop what was defined outside. -/
example (o : TypeId) : ¬ NoUseAfterMove [(.message, .named o, false)] (.loop (.seq (.method (.var .message) .into .nil) .done)) := by
  rintro ⟨M, h⟩
  simp [flow, flowArgs, usePlace, RT.moves, Method.takes, again] at h

/-- Mutable references are moved into a tuple, but borrowed again in a call. -/
example : ¬ NoUseAfterMove [(.writer, .refMut .sink, false)] (.pair (.var .writer) (.var .writer)) := by
  rintro ⟨M, h⟩
  simp [flow, usePlace, RT.moves, Place.meets] at h

example : NoUseAfterMove [(.writer, .refMut .sink, false)] (.pair (.runtime 0 .serializeVarint (.cons (.lit (.u64 1)) (.cons (.var .writer) .nil)))
    (.runtime 0 .serializeVarint (.cons (.lit (.u64 2)) (.cons (.var .writer) .nil)))) := by
  refine ⟨[], ?_⟩
  simp [flow, flowArgs, takesFirst, RuntimeFn.signature, usePlace]

/-- Using a reference twice is possible. -/
example (o : TypeId) : NoUseAfterMove [(.message, .ref (.named o), false)] (.pair (.var .message) (.var .message)) := by
  refine ⟨[], ?_⟩
  simp [flow, usePlace, RT.moves]

end Typical

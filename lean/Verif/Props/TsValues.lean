import Verif.TsGen.ValuesExist
import Verif.Props.GeneratedTypeScript

/-!
# Property C72, continued: which messages can be given to the generated TypeScript code
-/

namespace Typical

open TsGen

/-- **C72 (messages).** Suppose that no field of a choice has the name of a property which all objects inherit (like `toString`). Then the contents of
the values of the `Out` type are exactly the messages of the wire type: every message is the content of a value, whose arrays and buffers can be allocated
in any given heap; and every value is a message. -/
theorem C72_values {T : CharTable} {S : Schemas} (hA : TsAccepted T S)
    (hp : ∀ e ∈ S, ∀ d ∈ e.2.declarations, d.variant = .choice → ∀ f ∈ d.fields, ¬ IsWord objectPrototype (tsCamel T f.name))
    {k : List Str × Str} {c : CTy} (hc : S.Denotes k c) (h : List Obj) (t : Tree) :
    (∃ h' v, h <+: h' ∧ JsHolds T S .out (fun r => h'[r]?) k v t) ↔ ∃ m : c.Msg .out, c.tree m = t := by
  obtain ⟨N, hN, rfl⟩ := named_exists (T := T) hc
  constructor
  · rintro ⟨h', v, -, hv⟩
    obtain ⟨m, -, e⟩ := JsHolds.msg hA.loaded hA.wellFormed.names hv N hN
    exact ⟨m, e.symm⟩
  · rintro ⟨m, rfl⟩
    obtain ⟨v, h', p, hv⟩ := Named.exist hA.names.fields hp hN m h
    exact ⟨h', v, p, hv⟩

/-- **C72 (inherited properties).** The condition on names is needed: if the first field of a choice has the name of a property which all objects
inherit, then every value of the `Out` type is taken for this field, whatever other properties it has. -/
theorem C72_inherited {T : CharTable} {S : Schemas} (hA : TsAccepted T S) {k : List Str × Str} {ns : Namespace} {s : Schema} {d : Declaration}
    (hd : S.Declares k ns s d) (hv : d.variant = .choice) {f : Field} {fs : List Field} (hf : d.fields = f :: fs)
    (hi : IsWord objectPrototype (tsCamel T f.name)) {h : List Obj} {v : Val} {t : Tree} (hh : JsHolds T S .out (fun r => h[r]?) k v t) :
    ∃ t' l, t = .fields ((f.index, t') :: l) := by
  have key : ∀ {o : List (Str × Val)} {g : Field} {ns' s' d'}, S.Declares k ns' s' d' → JsSelects T d'.fields g o .out → g = f := by
    intro o g ns' s' d' hd' hg
    obtain ⟨-, -, rfl⟩ := Declares.unique hA.loaded hA.wellFormed.names hd hd'
    obtain ⟨w, hw, e⟩ := hi
    have hin : hasProperty (o.map (·.1)) (tsCamel T f.name) = true := by
      unfold hasProperty
      rw [Bool.or_eq_true]
      exact .inr (List.any_eq_true.mpr ⟨w, hw, by rw [e]; exact beq_self_eq_true _⟩)
    have hg : d.fields.find? (fun g => hasProperty (o.map (·.1)) (tsCamel T g.name)) = some g := hg
    rw [hf, List.find?_cons, hin] at hg
    exact (Option.some.inj hg).symm
  cases hh with
  | struct h1 h2 _ _ =>
    obtain ⟨-, -, rfl⟩ := Declares.unique hA.loaded hA.wellFormed.names hd h1
    rw [hv] at h2
    cases h2
  | last h1 _ h3 _ _ _ => cases key h1 h3; exact ⟨_, _, rfl⟩
  | more h1 _ h3 _ _ _ _ _ => cases key h1 h3; exact ⟨_, _, rfl⟩

/-- `choice c { to_string = 0 b: U64 = 1 }`: the code is accepted, and `{ b: 7n, toString: null }` is a value which is taken for `toString`. -/
def inheritedSchemas : Schemas :=
  [(⟨[ident "main"]⟩, ⟨[], [], [⟨⟨0, 0⟩, [], .choice, ident "c",
    [exampleField "to_string" .required .unit 0, exampleField "b" .required .u64 1], []⟩]⟩)]

example : TsAccepted asciiTable inheritedSchemas :=
  C72_names asciiTable_ascii _ (by constructor <;> decide +kernel) (by decide +kernel) (clearSchemas_spec (by decide +kernel))

example : JsHolds asciiTable inheritedSchemas .out (fun r => ([] : List Obj)[r]?) (["main".toList], "c".toList)
    (.obj [("b".toList, .big 7), ("toString".toList, .null)]) (.fields [(0, .unit)]) :=
  .last (f := exampleField "to_string" .required .unit 0) ⟨.head _, .head _, by decide +kernel⟩ rfl
    (by show List.find? _ _ = _; decide +kernel) rfl
    (by show member (tsCamel asciiTable (ident "to_string")) _ = _
        rw [show tsCamel asciiTable (ident "to_string") = "toString".toList by decide +kernel]; rfl) .unit

/-- The condition of `C72_values` is met by the example. -/
example : ∀ e ∈ exampleSchemas, ∀ d ∈ e.2.declarations, d.variant = .choice → ∀ f ∈ d.fields, ¬ IsWord objectPrototype (tsCamel asciiTable f.name) := by
  have : ∀ e ∈ exampleSchemas, ∀ d ∈ e.2.declarations, d.variant = .choice → ∀ f ∈ d.fields,
      objectPrototype.all (fun k => !(k.toList == tsCamel asciiTable f.name)) = true := by decide +kernel
  rintro e he d hd hv f hf ⟨w, hw, e⟩
  have := List.all_eq_true.mp (this _ he d hd hv f hf) w hw
  rw [e, beq_self_eq_true] at this
  cases this

end Typical

import Verif.TsGen.TypeConverse
import Verif.Props.GeneratedTsFile
import Verif.Props.TsValues

/-!
# Property C87: the declared TypeScript types

What the type checker of TypeScript lets programs pass to the generated functions, and use of the results.
-/

namespace Typical

open TsGen

/-- `v` is a value of the type `name`, in the namespace of the declaration. -/
def HasTsType (T : CharTable) (S : Schemas) (strict : Bool) (h : Nat → Option Obj) (ns : Namespace) (name : Str) (v : Val) : Prop :=
  (TsTy.ref [] name).Has (tsEnv T S) strict h (modulePath T ns.components) v

/-- `NameIn`, `NameOut` -/
def tsIn (T : CharTable) (d : Declaration) : Str := tsPascal T d.name (some .in_)
def tsOut (T : CharTable) (d : Declaration) : Str := tsPascal T d.name (some .out)

/-- **C87 (names).** Types have different names, and references lead to the types which are meant, under the same conditions as for C72. -/
theorem C87_names {T : CharTable} (hT : T.Ascii) (S : Schemas) (hl : S.Loaded) (hv : validate S = .ok []) (h : ClearNames T S) : TsGen.TypeNames T S :=
  h.typeNames hT hl hv

/-- **C87 (definitions).** The three types of each declaration are defined. -/
theorem C87_defined {T : CharTable} {S : Schemas} (hA : TsAccepted T S) (hT : TsGen.TypeNames T S) {k : List Str × Str} {ns : Namespace} {s : Schema} {d : Declaration}
    (hd : S.Declares k ns s d) {name : Str} (hn : name = tsIn T d ∨ name = tsOut T d ∨ name = tsPascal T d.name (some .atlas)) :
    ∃ def_, (tsEnv T S).types (modulePath T ns.components, name) = some def_ := by
  rcases hn with rfl | rfl | rfl
  · exact ⟨_, types_defined hA.loaded hA.names hT hd .in_⟩
  · exact ⟨_, types_defined hA.loaded hA.names hT hd .out⟩
  · exact ⟨_, types_defined hA.loaded hA.names hT hd .atlas⟩

theorem declCode_types {T : CharTable} {s : Schema} {ns : Namespace} {d : Declaration} (ind : Nat) (x : NameSuffix) :
    (declDef T s ns d x).text ind (tsPascal T d.name (some x)) <:+: (TsGen.declCode T s ns d).text ind := by
  have hm : (declDef T s ns d x).text ind (tsPascal T d.name (some x)) ∈ (TsGen.declCode T s ns d).types ind := by
    cases hv : d.variant with
    | struct =>
      rw [← structText_eq _ _ _ _ _ _ hv]
      unfold TsGen.declCode
      dsimp only
      rw [hv]
      cases x
      · exact .head _
      · exact .tail _ (.tail _ (.head _))
      · exact .tail _ (.head _)
    | choice =>
      rw [← choiceText_eq _ _ _ _ _ _ hv]
      unfold TsGen.declCode
      dsimp only
      rw [hv]
      cases x
      · exact .head _
      · exact .tail _ (.tail _ (.head _))
      · exact .tail _ (.head _)
  obtain ⟨a, b, e⟩ := List.append_of_mem hm
  unfold DeclCode.text
  rw [e]
  simp only [List.flatMap_append, List.flatMap_cons, List.append_assoc]
  exact ⟨a.flatMap (· ++ "\n".toList), _, by rw [List.append_assoc]⟩

mutual
theorem moduleDecls_text (T : CharTable) {e : List Identifier × Schema × Declaration} : (m : Module) → (ind : Nat) → (ns : List Identifier) → e ∈ moduleDecls ns m →
    ∃ path : List Str, modulePath T e.1 = modulePath T ns ++ path ∧ Inside "export namespace ".toList "  ".toList
      (fun i t => (TsGen.declCode T e.2.1 ⟨e.1⟩ e.2.2).text i <:+: t) ind path (TsGen.moduleText T ind ns m)
  | .mk children schema, ind, ns, h => by
    rw [moduleDecls] at h
    rw [TsGen.moduleText]
    rcases List.mem_append.mp h with h | h
    · obtain ⟨n, path, h1, inner, h2, h3⟩ := modulesDecls_text T children ind ns (!schema.declarations.isEmpty) h
      exact ⟨n :: path, h1, inner, infix_left h2, h3⟩
    · obtain ⟨d, hd, rfl⟩ := List.mem_map.mp h
      exact ⟨[], (List.append_nil _).symm, infix_right (infix_joinWith _ (List.mem_map.mpr ⟨d, hd, rfl⟩))⟩
theorem modulesDecls_text (T : CharTable) {e : List Identifier × Schema × Declaration} : (ms : Modules) → (ind : Nat) → (ns : List Identifier) → (more : Bool) →
    e ∈ modulesDecls ns ms → ∃ (n : Str) (path : List Str), modulePath T e.1 = modulePath T ns ++ (n :: path) ∧ Inside "export namespace ".toList "  ".toList
      (fun i t => (TsGen.declCode T e.2.1 ⟨e.1⟩ e.2.2).text i <:+: t) ind (n :: path) (TsGen.modulesText T ind ns more ms)
  | .nil, _, _, _, h => by rw [modulesDecls] at h; cases h
  | .cons name child rest, ind, ns, more, h => by
    rw [modulesDecls] at h
    unfold TsGen.modulesText
    rcases List.mem_append.mp h with h | h
    · obtain ⟨path, h1, h2⟩ := moduleDecls_text T child (ind + 1) (ns ++ [name]) h
      refine ⟨tsPascal T name none, path, ?_, _, ?_, h2⟩
      · rw [h1]; simp [modulePath]
      · rw [tsBlockText_line, List.append_assoc "export namespace ".toList]
        exact infix_left (infix_left List.infix_rfl)
    · obtain ⟨n, path, h1, inner, h2, h3⟩ := modulesDecls_text T rest ind ns more h
      exact ⟨n, path, h1, inner, infix_right h2, h3⟩
end

theorem inside_mono {keyword step : Str} {P Q : Nat → Str → Prop} (h : ∀ i t, P i t → Q i t) : {l : List Str} → {ind : Nat} → {text : Str} →
    Inside keyword step P ind l text → Inside keyword step Q ind l text
  | [], _, _, h' => h _ _ h'
  | _ :: _, _, _, ⟨inner, h1, h2⟩ => ⟨inner, h1, inside_mono h h2⟩

theorem inside_infix {keyword step : Str} {P : Nat → Str → Prop} (h : ∀ i t u, t <:+: u → P i t → P i u) : {l : List Str} → {ind : Nat} → {text text' : Str} →
    text <:+: text' → Inside keyword step P ind l text → Inside keyword step P ind l text'
  | [], _, _, _, hi, h' => h _ _ _ hi h'
  | _ :: _, _, _, _, hi, ⟨inner, h1, h2⟩ => ⟨inner, h1.trans hi, h2⟩

/-- **C87 (the text).** Each of these definitions is in the text of the generated file, in the namespaces which the path says. -/
theorem C87_printed (T : CharTable) (version : Str) (S : Schemas) (path : List Str) (name : Str) (def_ : TsDef) (h : (tsEnv T S).types (path, name) = some def_) :
    Inside "export namespace ".toList "  ".toList (fun ind text => def_.text ind name <:+: text) 0 path (tsText T version S) := by
  unfold tsEnv at h
  dsimp only at h
  rw [Option.map_eq_some_iff] at h
  obtain ⟨e, he, rfl⟩ := h
  have hk := List.find?_some he
  have hm := List.mem_of_find?_eq_some he
  obtain ⟨⟨l, s, d⟩, hd, hx⟩ := List.mem_flatMap.mp hm
  obtain ⟨x, -, rfl⟩ := List.mem_map.mp hx
  rw [beq_iff_eq] at hk
  obtain ⟨rfl, rfl⟩ := Prod.mk.inj hk
  obtain ⟨p, h1, h2⟩ := moduleDecls_text T (buildTree S) 0 [] hd
  dsimp only at h1
  change _ = p at h1
  dsimp only
  rw [h1]
  have hne : Gen.Module.nonEmpty (buildTree S) = true := by
    revert hd
    cases buildTree S with
    | mk children schema =>
      cases children with
      | cons _ _ _ => intro _; rfl
      | nil =>
        intro hm
        rw [moduleDecls, modulesDecls, List.nil_append] at hm
        obtain ⟨d, hd, -⟩ := List.mem_map.mp hm
        rw [Gen.Module.nonEmpty]
        cases hs : schema.declarations with
        | nil => rw [hs] at hd; cases hd
        | cons _ _ => rfl
  rw [tsText, if_pos hne]
  exact inside_infix (fun i t u htu hi => hi.trans htu) (infix_right List.infix_rfl) (inside_mono (fun i t hi => (declCode_types i x).trans hi) h2)

/-- **C87 (results).** What `deserialize` returns is an error, or a value of the declared `In` type without other properties, and with integers in the range of the
type in the schema. -/
theorem C87_returned {T : CharTable} {S : Schemas} (hA : TsAccepted T S) (hT : TsGen.TypeNames T S) {k : List Str × Str} {c : CTy} (hc : S.Denotes k c) {ns : Namespace}
    {s : Schema} {d : Declaration} (hd : S.Declares k ns s d) {h : List Obj} {x : Val} {before b after : Bytes} (hi : JsInput h x before b after)
    {scratch : Nat → UInt8} {r : Out} {h' : List Obj} {scratch' : Nat → UInt8}
    (hr : Calls (program T S) (declPath T ns.components d) .deserialize [x] h scratch r h' scratch') :
    (∃ e, r = .val (.err e)) ∨ ∃ y, r = .val y ∧ HasTsType T S true (fun r => h'[r]?) ns (tsIn T d) y := by
  rcases C73_deserialize hA hc hd hi scratch with ⟨m, y, h₁, sc₁, -, -, h1, h2⟩ | ⟨e, h₁, sc₁, -, -, -, h2⟩
  · obtain ⟨rfl, rfl, rfl⟩ := C72_unique hr h2
    right
    refine ⟨y, rfl, ?_⟩
    obtain ⟨ns', s', d', hd', h3⟩ := JsHolds.has hA.loaded hA.names hT hA.wellFormed h1
    obtain ⟨rfl, rfl, rfl⟩ := Declares.unique hA.loaded hA.wellFormed.names hd hd'
    refine TsTy.Has.heap (fun r o hr => ?_) h3
    split at hr
    · exact hr
    · cases hr
  · obtain ⟨rfl, -, -⟩ := C72_unique hr h2
    exact .inl ⟨e, rfl⟩

/-- **C87 (arguments).** Suppose that no field of a choice has the name of a property which all objects inherit. Then every value of the declared `Out` type, without other
properties and with integers in range, is a message: it has a content, and, if its encoding is shorter than 2^64 bytes, `size` and
`serialize` return the size and the encoding. -/
theorem C87_accepted {T : CharTable} {S : Schemas} (hA : TsAccepted T S) (hT : TsGen.TypeNames T S)
    (hp : ∀ e ∈ S, ∀ d ∈ e.2.declarations, d.variant = .choice → ∀ f ∈ d.fields, ¬ IsWord objectPrototype (tsCamel T f.name))
    {k : List Str × Str} {c : CTy} (hc : S.Denotes k c) {ns : Namespace} {s : Schema} {d : Declaration} (hd : S.Declares k ns s d) {h : List Obj} {v : Val}
    (hv : HasTsType T S true (fun r => h[r]?) ns (tsOut T d) v) :
    ∃ t, JsHolds T S .out (fun r => h[r]?) k v t ∧ ((t.wire false).length < 2 ^ 64 → ∀ scratch,
      (∃ h', h <+: h' ∧ Calls (program T S) (declPath T ns.components d) .size [v] h scratch (.val (.num (t.wire false).length)) h' scratch) ∧
      ∃ h' r, h <+: h' ∧ h.length ≤ r ∧ h'[r]? = some (.buf (t.wire false)) ∧
        Calls (program T S) (declPath T ns.components d) .serialize [v] h scratch (.val (.buf r)) h' scratch) := by
  obtain ⟨t, ht⟩ := (has_holds hA.loaded hA.names hT hA.wellFormed hp hv).1 k ns s d [] hd rfl (lookup_self (types_defined hA.loaded hA.names hT hd .out))
  exact ⟨t, ht, fun hsz scratch => C72_serialize hA hc hd ht hsz scratch⟩

/-- **C87 (messages).** Conversely, every message is a value of the declared `Out` type. -/
theorem C87_messages {T : CharTable} {S : Schemas} (hA : TsAccepted T S) (hT : TsGen.TypeNames T S) {k : List Str × Str} {ns : Namespace} {s : Schema} {d : Declaration}
    (hd : S.Declares k ns s d) {h : Nat → Option Obj} {v : Val} {t : Tree} (hv : JsHolds T S .out h k v t) : HasTsType T S false h ns (tsOut T d) v := by
  obtain ⟨ns', s', d', hd', h3⟩ := JsHolds.has hA.loaded hA.names hT hA.wellFormed hv
  obtain ⟨rfl, rfl, rfl⟩ := Declares.unique hA.loaded hA.wellFormed.names hd hd'
  exact h3

/-! ### Values with other properties -/

/-- `choice c { a: U64 = 0 b: String = 1 }` -/
def looseSchemas : Schemas :=
  [(⟨[ident "main"]⟩, ⟨[], [], [⟨⟨0, 0⟩, [], .choice, ident "c", [exampleField "a" .required .u64 0, exampleField "b" .required .string 1], []⟩]⟩)]

def looseMain : Schema := ⟨[], [], [⟨⟨0, 0⟩, [], .choice, ident "c", [exampleField "a" .required .u64 0, exampleField "b" .required .string 1], []⟩]⟩

theorem looseSchemas_accepted : TsAccepted asciiTable looseSchemas ∧ TsGen.TypeNames asciiTable looseSchemas :=
  ⟨C72_names asciiTable_ascii _ (by constructor <;> decide +kernel) (by decide +kernel) (clearSchemas_spec (by decide +kernel)),
    C87_names asciiTable_ascii _ (by constructor <;> decide +kernel) (by decide +kernel) (clearSchemas_spec (by decide +kernel))⟩

theorem looseSchemas_declares : looseSchemas.Declares (["main".toList], "c".toList) ⟨[ident "main"]⟩ looseMain looseMain.declarations[0] :=
  ⟨.head _, .head _, by decide +kernel⟩

/-- **C87 (other properties).** Without the condition on other properties it is false: for `choice c { a: U64 = 0 b: String = 1 }`, `{ a: '', b: '' }` is a value of the
type `{ a: bigint } | { b: string }`, and is taken for an `a`, which is not an integer. -/
theorem C87_other_properties : TsAccepted asciiTable looseSchemas ∧ TsGen.TypeNames asciiTable looseSchemas ∧
    looseSchemas.Declares (["main".toList], "c".toList) ⟨[ident "main"]⟩ looseMain looseMain.declarations[0] ∧
    HasTsType asciiTable looseSchemas false (fun _ => none) ⟨[ident "main"]⟩ (tsOut asciiTable looseMain.declarations[0]) (.obj [("a".toList, .str []), ("b".toList, .str [])]) ∧
    ¬ ∃ t, JsHolds asciiTable looseSchemas .out (fun _ => none) (["main".toList], "c".toList) (.obj [("a".toList, .str []), ("b".toList, .str [])]) t := by
  have hA := looseSchemas_accepted
  have ha : tsCamel asciiTable (ident "a") = "a".toList := by decide +kernel
  have hb : tsCamel asciiTable (ident "b") = "b".toList := by decide +kernel
  refine ⟨hA.1, hA.2, looseSchemas_declares, ?_, ?_⟩
  · have hty := types_defined hA.1.loaded hA.1.names hA.2 looseSchemas_declares .out
    refine .ref (fun _ => .str []) (lookup_self hty) hty (props := [("b".toList, .string)]) ?_ ?_ ?_ nofun
    · refine List.mem_append_left _ (List.mem_map.mpr ⟨exampleField "b" .required .string 1, .tail _ (.head _), ?_⟩)
      show [(tsCamel asciiTable (ident "b"), TsTy.string)] = _
      rw [hb]
    · intro n t hn
      cases List.mem_singleton.mp hn
      rfl
    · intro n t hn
      cases List.mem_singleton.mp hn
      exact .string ⟨[], rfl⟩
  · rintro ⟨t, ht⟩
    have key : ∀ {g : Field} {ns' s' d'}, looseSchemas.Declares (["main".toList], "c".toList) ns' s' d' →
        JsSelects asciiTable d'.fields g [("a".toList, .str []), ("b".toList, .str [])] .out → g = exampleField "a" .required .u64 0 := by
      intro g ns' s' d' hd' hg
      obtain ⟨-, -, rfl⟩ := Declares.unique hA.1.loaded hA.1.wellFormed.names looseSchemas_declares hd'
      change List.find? _ [exampleField "a" .required .u64 0, exampleField "b" .required .string 1] = some g at hg
      rw [List.find?_cons_of_pos (by show hasProperty _ (tsCamel asciiTable (ident "a")) = true; rw [ha]; decide +kernel)] at hg
      exact (Option.some.inj hg).symm
    have no : ∀ {ns s v t}, member (tsCamel asciiTable (exampleField "a" .required .u64 0).name) [("a".toList, .str []), ("b".toList, .str [])] = some v →
        ¬ JsType asciiTable looseSchemas .out (fun _ => none) ns s .u64 v t := by
      intro ns s v t hm ht
      rw [show tsCamel asciiTable (exampleField "a" .required .u64 0).name = "a".toList from ha] at hm
      cases hm
      generalize hx : Val.str [] = x at ht
      cases ht with
      | scalar w h => cases h; cases hx
    cases ht with
    | struct h1 h2 =>
      obtain ⟨-, -, rfl⟩ := Declares.unique hA.1.loaded hA.1.wellFormed.names looseSchemas_declares h1
      cases h2
    | last h1 _ h3 _ h5 h6 => cases key h1 h3; exact no h5 h6
    | more h1 _ h3 _ h5 h6 _ _ => cases key h1 h3; exact no h5 h6

/-! ### Examples -/

/-- The hypotheses of `C87_accepted` are met: `{ b: '' }` is a strict value. -/
example : HasTsType asciiTable looseSchemas true (fun _ => none) ⟨[ident "main"]⟩ (tsOut asciiTable looseMain.declarations[0]) (.obj [("b".toList, .str [])]) := by
  have hA := looseSchemas_accepted
  have hb : tsCamel asciiTable (ident "b") = "b".toList := by decide +kernel
  have hty := types_defined hA.1.loaded hA.1.names hA.2 looseSchemas_declares .out
  refine .ref (fun _ => .str []) (lookup_self hty) hty (props := [("b".toList, .string)]) ?_ ?_ ?_ fun _ n hn => hn
  · refine List.mem_append_left _ (List.mem_map.mpr ⟨exampleField "b" .required .string 1, .tail _ (.head _), ?_⟩)
    show [(tsCamel asciiTable (ident "b"), TsTy.string)] = _
    rw [hb]
  · intro n t hn
    cases List.mem_singleton.mp hn
    rfl
  · intro n t hn
    cases List.mem_singleton.mp hn
    exact .string ⟨[], rfl⟩

/-- The conditions on names are met by the example with several files. -/
example : TsGen.TypeNames asciiTable exampleSchemas := C87_names asciiTable_ascii _ exampleSchemas_loaded (by decide +kernel) (clearSchemas_spec (by decide +kernel))

/-- The text of the definitions. -/
example : (declDef asciiTable looseMain ⟨[ident "main"]⟩ looseMain.declarations[0] .in_).text 1 "CIn".toList =
    "  export type CIn =\n    | { $field: 'a'; a: bigint }\n    | { $field: 'b'; b: string };\n".toList := by decide +kernel

end Typical

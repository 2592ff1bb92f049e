import Verif.Spec.RustTyping

/-!
# Specification: the signatures of the generated Rust functions

Written from `/repo/README.md` (the generated API) and the headings in lines 616-974 and 1062-1408 of `/repo/src/generate_rust.rs`. For each of the
functions: the types of its parameters and its result, and how this is written in Rust.
`o`, `i` and `a` are the types of messages to be written, of messages which are read, and of atlases.
-/

namespace Typical.Gen

/-- `Self` -/
def selfType (o i a : TypeId) : Fn → TypeId
  | .atlas => o
  | .serializeWithAtlas => o
  | .from_ => i
  | .deserializeFromReaderRef => i
  | .size => a

/-- The parameters. -/
def paramTypes (o _i a : TypeId) : Fn → List (Var × RT × Bool)
  | .atlas => [(.self, .ref (.named o), false)]
  | .serializeWithAtlas => [(.self, .ref (.named o), false), (.writer, .refMut .sink, false), (.atlas, .ref (.named a), false)]
  | .from_ => [(.message, .named o, false)]
  | .deserializeFromReaderRef => [(.reader, .refMut .source, false)]
  | .size => [(.self, .ref (.named a), false)]

/-- The result. -/
def resultType (_o i a : TypeId) : Fn → RT
  | .atlas => .named a
  | .serializeWithAtlas => .result .unit
  | .from_ => .named i
  | .deserializeFromReaderRef => .result (.named i)
  | .size => .usize

/-- The heading of the `impl` block. -/
def implText (o i a : Str) : Fn → Str
  | .atlas => "impl ".toList ++ o
  | .serializeWithAtlas => "impl ".toList ++ o
  | .from_ => "impl From<".toList ++ o ++ "> for ".toList ++ i
  | .deserializeFromReaderRef => "impl ".toList ++ i
  | .size => "impl ".toList ++ a

/-- The signature, in a block with the indentation `ind`. -/
def signatureText (ind : Nat) (o _i a : Str) : Fn → Str
  | .atlas => "pub fn atlas(&self) -> ".toList ++ a
  | .serializeWithAtlas => "pub fn serialize_with_atlas<T: ::std::io::Write>(\n".toList ++
      indent (ind + 1) ++ "&self,\n".toList ++ indent (ind + 1) ++ "writer: &mut T,\n".toList ++ indent (ind + 1) ++ "atlas: &".toList ++ a ++ ",\n".toList ++
      indent ind ++ ") -> ::std::io::Result<()>".toList
  | .from_ => "fn from(message: ".toList ++ o ++ ") -> Self".toList
  | .deserializeFromReaderRef => "pub fn deserialize_from_reader_ref<T: ::std::io::BufRead>(\n".toList ++
      indent (ind + 1) ++ "reader: &mut T,\n".toList ++ indent ind ++ ") -> ::std::io::Result<Self>".toList
  | .size => "pub fn size(&self) -> usize".toList

/-- Variables with their types. -/
def Vars.ofList (l : List (Var × RT × Bool)) : Vars := l.foldl (fun Γ x => Γ.set x.1 x.2.1 x.2.2) Vars.empty

/-- In the module `mod`, a function with this type `Self`, these parameters, this type of results and this body is accepted. -/
def FnOk (items : Items) (impls : TypeId → TypeId → TypeId → Prop) (mod : List Str) (self : TypeId) (params : List (Var × RT × Bool)) (ret : RT) (body : Ex) : Prop :=
  HasTy ⟨items, impls, mod, .named self, some ret, false, none⟩ (Vars.ofList params) body ret .value

/-- Every type which is mentioned is defined. -/
inductive RT.Defined (E : Items) : RT → Prop
  | usize : Defined E .usize
  | bool : Defined E .bool
  | f64 : Defined E .f64
  | i64 : Defined E .i64
  | u64 : Defined E .u64
  | u8 : Defined E .u8
  | unit : Defined E .unit
  | string : Defined E .string
  | vec {t} : Defined E t → Defined E (.vec t)
  | option {t} : Defined E t → Defined E (.option t)
  | box {t} : Defined E t → Defined E (.box t)
  | pair {t u} : Defined E t → Defined E u → Defined E (.pair t u)
  | named {id i} : E id = some i → Defined E (.named id)

/-- The definition of a type is accepted: names of members or variants are distinct, and paths lead to types. -/
def ItemOk (E : Items) (mod : List Str) : Item → Prop
  | .struct _ members => (members.map Prod.fst).Nodup ∧ ∀ m ∈ members, ∃ τ, m.2.resolve mod = some τ ∧ τ.Defined E
  | .enum _ variants => (variants.map Prod.fst).Nodup ∧ ∀ v ∈ variants, ∀ t ∈ v.2, ∃ τ, t.resolve mod = some τ ∧ τ.Defined E

/-- A value of this type has a value of the type `id` inside it, and not behind a pointer. -/
inductive RT.Inline (id : TypeId) : RT → Prop
  | named : Inline id (.named id)
  | option {t} : Inline id t → Inline id (.option t)
  | left {t u} : Inline id t → Inline id (.pair t u)
  | right {t u} : Inline id u → Inline id (.pair t u)

/-- By its definition, values of the type `id` have values of the type `id'` inside them. -/
def Items.Inline (E : Items) (id id' : TypeId) : Prop :=
  match E id with
  | some (.struct _ members) => ∃ m ∈ members, ∃ τ, m.2.resolve id.1 = some τ ∧ τ.Inline id'
  | some (.enum _ variants) => ∃ v ∈ variants, ∃ t ∈ v.2, ∃ τ, t.resolve id.1 = some τ ∧ τ.Inline id'
  | none => False

end Typical.Gen

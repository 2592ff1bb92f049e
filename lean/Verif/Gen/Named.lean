import Verif.Gen.Sem
import Verif.Gen.RustGen
import Verif.Front.Scopes
import Verif.Spec.Values

/-!
# Types with the names in generated code, and the values which represent messages

`NCTy`, `NTy`, `NFields` are wire types (`CTy`, `Ty`, `Fields`) together with the names of generated types, members and variants.
`enc` is the Rust value which represents a message, `encAtlas` the value which represents an atlas.
-/

namespace Typical.Gen

/-- The module of a declaration's types, and their names. -/
structure DeclName where
  mod : List Str
  name : NameSuffix → Str

/-- A generated type. -/
def DeclName.id (n : DeclName) (x : NameSuffix) : TypeId := (n.mod, n.name x)

/-- The names of a field: as a member of a struct, as a variant of a choice. -/
structure FieldName where
  member : Str
  variant : Str

mutual
/-- Composite types, with names. -/
inductive NCTy
  | bytes
  | string
  | units
  | scalars (s : Scalar)
  | array (c : NCTy)
  | struct (name : DeclName) (fields : NFields)
  | choice (name : DeclName) (fields : NFields)
/-- Types of fields, with names. -/
inductive NTy
  | unit
  | scalar (s : Scalar)
  | comp (c : NCTy)
/-- Fields, with names. -/
inductive NFields
  | nil
  | cons (name : FieldName) (index : Nat) (rule : Rule) (ty : NTy) (rest : NFields)
end

mutual
/-- Forget the names. -/
def NCTy.erase : NCTy → CTy
  | .bytes => .bytes
  | .string => .string
  | .units => .units
  | .scalars s => .scalars s
  | .array c => .array c.erase
  | .struct _ fs => .struct fs.erase
  | .choice _ fs => .choice fs.erase
def NTy.erase : NTy → Ty
  | .unit => .unit
  | .scalar s => .scalar s
  | .comp c => .comp c.erase
def NFields.erase : NFields → Fields
  | .nil => .nil
  | .cons _ i r t rest => .cons i r t.erase rest.erase
end

/-- The value of a member of a struct which is an `Option` if `b`. -/
def encSlot {α : Type} (f : α → Val) : (b : Bool) → Slot b α → Val
  | true, none => .none
  | true, some a => .some (f a)
  | false, a => f a

/-- The value of a choice: `f` gives the name and the payload (if any) of a variant, which is followed by the fallback (if any). -/
def encChain {α β : Type} (t : TypeId) (f : α → Str × List Val) (g : β → Str × List Val) : Chain α β → Val
  | .last b => .variant t (g b).1 (g b).2
  | .more a rest => .variant t (f a).1 ((f a).2 ++ [encChain t f g rest])

mutual
/-- The value which represents a message. -/
def NCTy.enc (d : Dir) : (c : NCTy) → c.erase.Msg d → Val
  | .bytes, m => .bytes m
  | .string, m => .str m.bytes
  | .units, n => .vec (List.replicate (UInt64.toNat n) .unit)
  | .scalars s, m => .vec (List.map (encScalar s) m)
  | .array c, m => .vec (List.map (NCTy.enc d c) m)
  | .struct n fs, m => .struct (n.id (suffix d)) (NFields.encStruct d fs m)
  | .choice n fs, m => encChain (n.id (suffix d)) (NFields.encSel d fs) (NFields.encSel d fs) m
/-- The value which represents the payload of a field. -/
def NTy.enc (d : Dir) : (t : NTy) → t.erase.Msg d → Val
  | .unit, _ => .unit
  | .scalar s, v => encScalar s v
  | .comp c, m => NCTy.enc d c m
/-- The members of a struct. -/
def NFields.encStruct (d : Dir) : (fs : NFields) → fs.erase.Struct d → List (Str × Val)
  | .nil, _ => []
  | .cons n _ r t rest, m => (n.member, encSlot (NTy.enc d t) (r.mayOmit d) m.1) :: NFields.encStruct d rest m.2
/-- A variant of a choice, without the fallback. Variants of type `Unit` have no payload. -/
def NFields.encSel (d : Dir) {fb : Bool} : (fs : NFields) → fs.erase.Sel d fb → Str × List Val
  | .nil, e => e.elim
  | .cons n _ _ .unit _, .inl _ => (n.variant, [])
  | .cons n _ _ (.scalar s) _, .inl p => (n.variant, [encScalar s p.val])
  | .cons n _ _ (.comp c) _, .inl p => (n.variant, [NCTy.enc d c p.val])
  | .cons _ _ _ _ rest, .inr p => NFields.encSel d rest p
end

/-- The value of a choice's atlas. -/
def encAtlasChain {α β : Type} (t : TypeId) (f : α → Str × List Val) (g : β → Str × List Val) : Chain (Nat × α) (Nat × β) → Val
  | .last b => .variant t (g b.2).1 (.usize b.1 :: (g b.2).2)
  | .more a rest => .variant t (f a.2).1 (.usize a.1 :: ((f a.2).2 ++ [encAtlasChain t f g rest]))

mutual
/-- The value which represents an atlas. -/
def NCTy.encAtlas : (c : NCTy) → c.erase.Atlas → Val
  | .bytes, a => .usize a
  | .string, a => .usize a
  | .units, a => .usize a
  | .scalars _, a => .usize a
  | .array c, a => .pair (.usize a.1) (.vec (List.map (NCTy.encAtlas c) a.2))
  | .struct n fs, a => .struct (n.id .atlas) (("_size".toList, .usize a.1) :: NFields.encAtlasStruct fs a.2)
  | .choice n fs, a => encAtlasChain (n.id .atlas) (NFields.encAtlasSel fs) (NFields.encAtlasSel fs) a
/-- The value which represents the atlas of a field. -/
def NTy.encAtlas : (t : NTy) → t.erase.Atlas → Val
  | .unit, a => .usize a
  | .scalar _, a => .usize a
  | .comp c, a => NCTy.encAtlas c a
/-- The members of a struct's atlas, besides `_size`. -/
def NFields.encAtlasStruct : (fs : NFields) → fs.erase.AtlasStruct → List (Str × Val)
  | .nil, _ => []
  | .cons n _ r t rest, a => (n.member, encSlot (NTy.encAtlas t) (r.mayOmit .out) a.1) :: NFields.encAtlasStruct rest a.2
/-- The variant of a choice's atlas, without size and fallback. -/
def NFields.encAtlasSel {fb : Bool} : (fs : NFields) → fs.erase.AtlasSel fb → Str × List Val
  | .nil, e => e.elim
  | .cons n _ _ t _, .inl p => (n.variant, [NTy.encAtlas t p.val])
  | .cons _ _ _ _ rest, .inr p => NFields.encAtlasSel rest p
end

/-! ### From schemas to types with names -/

/-- The names of the types of a declaration in the module `ns`. -/
def declName (T : CharTable) (ns : Namespace) (d : Declaration) : DeclName :=
  ⟨ns.components.map rustSnake, fun x => rustPascal T d.name (some x)⟩

/-- The names of a field. -/
def fieldName (T : CharTable) (f : Field) : FieldName := ⟨rustSnake f.name, rustPascal T f.name none⟩

mutual
/-- The declaration identified by `k` is `c`. Like `Schemas.Denotes`, with names. -/
inductive Named (T : CharTable) (S : Schemas) : List Str × Str → NCTy → Prop
  | struct {k ns s d fs} : S.Declares k ns s d → d.variant = .struct → NamedFields T S ns s d.fields fs →
    Named T S k (.struct (declName T ns d) fs)
  | choice {k ns s d fs} : S.Declares k ns s d → d.variant = .choice → NamedFields T S ns s d.fields fs →
    Named T S k (.choice (declName T ns d) fs)
/-- Fields which occur in the file `s`. -/
inductive NamedFields (T : CharTable) (S : Schemas) : Namespace → Schema → List Field → NFields → Prop
  | nil {ns s} : NamedFields T S ns s [] .nil
  | cons {ns s f t fs Fs} : NamedType T S ns s f.type.variant t → NamedFields T S ns s fs Fs →
    NamedFields T S ns s (f :: fs) (.cons (fieldName T f) f.index f.rule t Fs)
/-- A type expression which occurs in the file `s`. -/
inductive NamedType (T : CharTable) (S : Schemas) : Namespace → Schema → TypeVariant → NTy → Prop
  | bool {ns s} : NamedType T S ns s .bool (.scalar .bool)
  | f64 {ns s} : NamedType T S ns s .f64 (.scalar .f64)
  | s64 {ns s} : NamedType T S ns s .s64 (.scalar .s64)
  | u64 {ns s} : NamedType T S ns s .u64 (.scalar .u64)
  | unit {ns s} : NamedType T S ns s .unit .unit
  | bytes {ns s} : NamedType T S ns s .bytes (.comp .bytes)
  | string {ns s} : NamedType T S ns s .string (.comp .string)
  | units {ns s r} : NamedType T S ns s (.array r .unit) (.comp .units)
  | scalars {ns s r inner sc} : NamedType T S ns s inner (.scalar sc) → NamedType T S ns s (.array r inner) (.comp (.scalars sc))
  | array {ns s r inner c} : NamedType T S ns s inner (.comp c) → NamedType T S ns s (.array r inner) (.comp (.array c))
  | custom {ns s i n k c} : s.RefersTo ns i n k → Named T S k c → NamedType T S ns s (.custom i n) (.comp c)
end

/-! ### Programs -/

/-- The child with this name, as it is written. -/
def _root_.Typical.Modules.findText (name : Str) : Modules → Option (Identifier × Module)
  | .nil => none
  | .cons i m rest => if rustSnake i = name then some (i, m) else rest.findText name

/-- The module with this path, as it is written: its namespace and its schema. -/
def _root_.Typical.Module.findText (ns : List Identifier) : Module → List Str → Option (List Identifier × Schema)
  | .mk _ schema, [] => some (ns, schema)
  | .mk children _, name :: path =>
    match children.findText name with
    | none => none
    | some (i, m) => m.findText (ns ++ [i]) path

/-- The function of the type with this name. -/
def DeclCode.fn (c : DeclCode) (name : Str) : Fn → Option Ex
  | .atlas => if name = c.name .out then some c.atlas else none
  | .serializeWithAtlas => if name = c.name .out then some c.serializeWithAtlas else none
  | .from_ => if name = c.name .out then some c.from_ else none
  | .deserializeFromReaderRef => if name = c.name .in_ then some c.deserializeFromReaderRef else none
  | .size => if name = c.name .atlas then some c.size else none

/-- The generated program: the functions of the types in the generated modules. -/
def program (T : CharTable) (S : Schemas) : Prog := fun t f =>
  match (buildTree S).findText [] t.1 with
  | none => none
  | some (ns, schema) => schema.declarations.findSome? (fun d => (declCode T schema ⟨ns⟩ d).fn t.2 f)

/-- Names in the generated code do not collide: in each module, the names of modules and types are distinct; so are the
members of each struct, and the variants of each choice; and a reference to a type is written like its definition. -/
structure NamesOk (T : CharTable) (S : Schemas) : Prop where
  items : ∀ path m, (buildTree S).find path = some m → (m.rustItems T).Nodup
  members : ∀ e ∈ S, ∀ d ∈ e.2.declarations, d.variant = .struct → (rustFieldNames .atlas d.fields).Nodup
  variants : ∀ e ∈ S, ∀ d ∈ e.2.declarations, d.variant = .choice → (rustVariantNames T d.fields).Nodup
  references : ∀ e ∈ S, ∀ d ∈ e.2.declarations, ∀ f ∈ d.fields, ∀ i n k, f.type.variant.Mentions i n → e.2.RefersTo e.1 i n k →
    ∀ ns s d', S.Declares k ns s d' → ∀ x, rustPascal T n (some x) = rustPascal T d'.name (some x)

end Typical.Gen

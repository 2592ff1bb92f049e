import Verif.TsGen.RuntimeProof
import Verif.Gen.Named
import Verif.Gen.Ev

/-!
# Types with the names in generated TypeScript code, and the values which represent messages

`NCTy`, `NTy`, `NFields` (from `Verif.Gen.Named`) are wire types together with names. `rep` relates messages to values, whose arrays and buffers
are in a heap; `atl` relates atlases to values.
-/

namespace Typical.TsGen

open Gen (NCTy NTy NFields DeclName FieldName Ev)

/-- The path of the namespace of a declaration, and the names of its types. -/
def declName (T : CharTable) (ns : Namespace) (d : Declaration) : DeclName :=
  ⟨declPath T ns.components d, fun x => tsPascal T d.name (some x)⟩

/-- The name of a field. -/
def fieldName (T : CharTable) (f : Field) : FieldName := ⟨tsCamel T f.name, tsCamel T f.name⟩

mutual
/-- The declaration identified by `k` is `c`. Like `Schemas.Denotes`, with names. -/
inductive Named (T : CharTable) (S : Schemas) : List Str × Str → NCTy → Prop
  | struct {k ns s d fs} : S.Declares k ns s d → d.variant = .struct → NamedFields T S ns s d.fields fs →
    Named T S k (.struct (declName T ns d) fs)
  | choice {k ns s d fs} : S.Declares k ns s d → d.variant = .choice → NamedFields T S ns s d.fields fs →
    Named T S k (.choice (declName T ns d) fs)
/-- Fields which occur in the file `s`. -/
inductive NamedFields (T : CharTable) (S : Schemas) : Namespace → Schema → List Field → NFields → Prop
  | nil {ns s} : NamedFields T S ns s [] .nil
  | cons {ns s f t fs Fs} : NamedType T S ns s f.type.variant t → NamedFields T S ns s fs Fs →
    NamedFields T S ns s (f :: fs) (.cons (fieldName T f) f.index f.rule t Fs)
/-- A type expression which occurs in the file `s`. -/
inductive NamedType (T : CharTable) (S : Schemas) : Namespace → Schema → TypeVariant → NTy → Prop
  | bool {ns s} : NamedType T S ns s .bool (.scalar .bool)
  | f64 {ns s} : NamedType T S ns s .f64 (.scalar .f64)
  | s64 {ns s} : NamedType T S ns s .s64 (.scalar .s64)
  | u64 {ns s} : NamedType T S ns s .u64 (.scalar .u64)
  | unit {ns s} : NamedType T S ns s .unit .unit
  | bytes {ns s} : NamedType T S ns s .bytes (.comp .bytes)
  | string {ns s} : NamedType T S ns s .string (.comp .string)
  | units {ns s r} : NamedType T S ns s (.array r .unit) (.comp .units)
  | scalars {ns s r inner sc} : NamedType T S ns s inner (.scalar sc) → NamedType T S ns s (.array r inner) (.comp (.scalars sc))
  | array {ns s r inner c} : NamedType T S ns s inner (.comp c) → NamedType T S ns s (.array r inner) (.comp (.array c))
  | custom {ns s i n k c} : s.RefersTo ns i n k → Named T S k c → NamedType T S ns s (.custom i n) (.comp c)
end

/-- The types of fields have a property. -/
inductive FieldsHave (T : CharTable) (Q : TypeVariant → NTy → Prop) : List Field → NFields → Prop
  | nil : FieldsHave T Q [] .nil
  | cons {f t l fs} : Q f.type.variant t → FieldsHave T Q l fs →
    FieldsHave T Q (f :: l) (.cons (fieldName T f) f.index f.rule t fs)

section
variable {T : CharTable} {S : Schemas} {QC : NCTy → Prop} {QT : Namespace → Schema → TypeVariant → NTy → Prop}
  (struct : ∀ k ns s d fs, S.Declares k ns s d → d.variant = .struct → NamedFields T S ns s d.fields fs →
    FieldsHave T (fun tv t => NamedType T S ns s tv t ∧ QT ns s tv t) d.fields fs → QC (.struct (declName T ns d) fs))
  (choice : ∀ k ns s d fs, S.Declares k ns s d → d.variant = .choice → NamedFields T S ns s d.fields fs →
    FieldsHave T (fun tv t => NamedType T S ns s tv t ∧ QT ns s tv t) d.fields fs → QC (.choice (declName T ns d) fs))
  (unit : ∀ ns s, QT ns s .unit .unit)
  (scalar : ∀ ns s tv sc, NamedType T S ns s tv (.scalar sc) → QT ns s tv (.scalar sc))
  (bytes : ∀ ns s, QT ns s .bytes (.comp .bytes))
  (string : ∀ ns s, QT ns s .string (.comp .string))
  (units : ∀ ns s r, QT ns s (.array r .unit) (.comp .units))
  (scalars : ∀ ns s r inner sc, NamedType T S ns s inner (.scalar sc) → QT ns s inner (.scalar sc) →
    QT ns s (.array r inner) (.comp (.scalars sc)))
  (array : ∀ ns s r inner c, NamedType T S ns s inner (.comp c) → QT ns s inner (.comp c) →
    QT ns s (.array r inner) (.comp (.array c)))
  (custom : ∀ ns s i n k c, s.RefersTo ns i n k → Named T S k c → QC c → QT ns s (.custom i n) (.comp c))
include struct choice unit scalar bytes string units scalars array custom

mutual
theorem Named.induct {k : List Str × Str} {c : NCTy} : Named T S k c → QC c
  | .struct hd hv hf => struct _ _ _ _ _ hd hv hf (NamedFields.induct hf)
  | .choice hd hv hf => choice _ _ _ _ _ hd hv hf (NamedFields.induct hf)
theorem NamedFields.induct {ns : Namespace} {s : Schema} {l : List Field} {fs : NFields} : NamedFields T S ns s l fs →
    FieldsHave T (fun tv t => NamedType T S ns s tv t ∧ QT ns s tv t) l fs
  | .nil => .nil
  | .cons h1 h2 => .cons ⟨h1, NamedType.induct h1⟩ (NamedFields.induct h2)
theorem NamedType.induct {ns : Namespace} {s : Schema} {tv : TypeVariant} {t : NTy} : NamedType T S ns s tv t → QT ns s tv t
  | .bool => scalar _ _ _ _ .bool
  | .f64 => scalar _ _ _ _ .f64
  | .s64 => scalar _ _ _ _ .s64
  | .u64 => scalar _ _ _ _ .u64
  | .unit => unit _ _
  | .bytes => bytes _ _
  | .string => string _ _
  | .units => units _ _ _
  | .scalars h => scalars _ _ _ _ _ h (NamedType.induct h)
  | .array h => array _ _ _ _ _ h (NamedType.induct h)
  | .custom h1 h2 => custom _ _ _ _ _ _ h1 h2 (Named.induct h2)
end
end

/-! ### Heaps -/

/-- A part of a heap. -/
abbrev Part := Nat → Option Obj

/-- A heap contains a part. -/
def Part.In (H : Part) (h : List Obj) : Prop := ∀ k o, H k = some o → h[k]? = some o

/-- A part contains a part. -/
def Part.Le (H H' : Part) : Prop := ∀ k o, H k = some o → H' k = some o

/-- The objects of a heap from a reference on. -/
def from_ (p : Nat) (h : List Obj) : Part := fun k => if p ≤ k then h[k]? else none

theorem Part.Le.refl (H : Part) : H.Le H := fun _ _ h => h
theorem Part.Le.trans {A B C : Part} (h : A.Le B) (h' : B.Le C) : A.Le C := fun k o hk => h' k o (h k o hk)

theorem Part.In.prefix {H : Part} {h g : List Obj} (hH : H.In h) (hg : h <+: g) : H.In g := by
  intro k o hk
  obtain ⟨t, rfl⟩ := hg
  have := hH k o hk
  rw [List.getElem?_append_left (List.getElem?_eq_some_iff.mp this).1]
  exact this

theorem Part.In.lt {H : Part} {h : List Obj} (hH : H.In h) {k : Nat} {o : Obj} (hk : H k = some o) : k < h.length :=
  (List.getElem?_eq_some_iff.mp (hH k o hk)).1

theorem Part.In.set {H : Part} {h : List Obj} (hH : H.In h) {r : Nat} (hr : H r = none) (o : Obj) : H.In (h.set r o) := by
  intro k x hk
  have : r ≠ k := fun e => by rw [e, hk] at hr; cases hr
  rw [List.getElem?_set_ne this]
  exact hH k x hk

theorem Part.Le.in_ {H H' : Part} {h : List Obj} (h1 : H.Le H') (h2 : H'.In h) : H.In h := fun k o hk => h2 k o (h1 k o hk)

theorem from_in (p : Nat) (h : List Obj) : (from_ p h).In h := by
  intro k o hk
  unfold from_ at hk
  split at hk
  · exact hk
  · cases hk

theorem from_le {p q : Nat} {h g : List Obj} (hp : q ≤ p) (hg : h <+: g) : (from_ p h).Le (from_ q g) := by
  intro k o hk
  unfold from_ at hk
  split at hk
  · next hle =>
    have : Part.In (fun k => h[k]?) g := Part.In.prefix (H := fun k => h[k]?) (fun _ _ h => h) hg
    unfold from_
    rw [if_pos (by omega)]
    exact this k o hk
  · cases hk

theorem from_set_le {p r : Nat} {h : List Obj} (hr : r < p) (o : Obj) : (from_ p h).Le (from_ p (h.set r o)) := by
  intro k x hk
  unfold from_ at hk ⊢
  split at hk
  · next hle =>
    rw [if_pos hle, List.getElem?_set_ne (by omega)]
    exact hk
  · cases hk

theorem from_none {p r : Nat} (hr : r < p) (h : List Obj) : from_ p h r = none := by
  unfold from_; rw [if_neg (by omega)]

theorem prefix_append (h : List Obj) (t : List Obj) : h <+: h ++ t := List.prefix_append h t

theorem prefix_set {h g : List Obj} (hg : h <+: g) {r : Nat} (hr : h.length ≤ r) (o : Obj) : h <+: g.set r o := by
  obtain ⟨t, rfl⟩ := hg
  rw [List.set_append_right _ _ hr]
  exact List.prefix_append _ _

theorem prefix_length {h g : List Obj} (hg : h <+: g) : h.length ≤ g.length := hg.length_le

theorem prefix_get {h g : List Obj} (hg : h <+: g) {k : Nat} {o : Obj} (hk : h[k]? = some o) : g[k]? = some o :=
  Part.In.prefix (H := fun k => h[k]?) (fun _ _ h => h) hg k o hk

/-! ### Representation of messages -/

/-- The value of a scalar. -/
def encScalar : (s : Scalar) → s.Val → Val
  | .bool, b => .bool b
  | .s64, v => .big (Int64.toInt v)
  | .u64, v => .big (UInt64.toNat v)
  | .f64, v => encF64 v

/-- The value of a property which can be `undefined` if `b`. -/
def slotRep {α : Type} (f : α → Val → Prop) : (b : Bool) → Slot b α → Val → Prop
  | true, none, v => v = .undef
  | true, some a, v => f a v
  | false, a, v => f a v

/-- The value of a choice: `f` tells what the object is, apart from the fallback. -/
def chainRep {α β : Type} (f : α → List (Str × Val) → Prop) (g : β → List (Str × Val) → Prop) : Chain α β → Val → Prop
  | .last b, v => ∃ l, v = .obj l ∧ g b l
  | .more a rest, v => ∃ l w, v = .obj l ∧ f a l ∧ member "$fallback".toList l = some w ∧ chainRep f g rest w

/-- The names of the fields. -/
def _root_.Typical.Gen.NFields.names : NFields → List Str
  | .nil => []
  | .cons n _ _ _ rest => n.member :: rest.names

mutual
/-- The value represents the message. The code may get objects with more properties than it looks at; those it returns have exactly the
properties which are in their type. -/
def cRep (d : Dir) (H : Part) : (c : NCTy) → c.erase.Msg d → Val → Prop
  | .bytes, m, v => ∃ r, v = .buf r ∧ H r = some (.buf m)
  | .string, m, v => v = .str m.bytes
  | .units, n, v => ∃ r, v = .arr r ∧ H r = some (.arr (List.replicate (UInt64.toNat n) .null))
  | .scalars s, m, v => ∃ r, v = .arr r ∧ H r = some (.arr (List.map (encScalar s) m))
  | .array c, m, v => ∃ r l, v = .arr r ∧ H r = some (.arr l) ∧ List.Forall₂ (cRep d H c) m l
  | .struct _ fs, m, v => ∃ l, v = .obj l ∧ (d = .inn → l.map (·.1) = fs.names) ∧ sRep d H fs m l
  | .choice _ fs, m, v => chainRep (selRep d H fs) (selRep d H fs) m v
/-- The payload of a field. -/
def tRep (d : Dir) (H : Part) : (t : NTy) → t.erase.Msg d → Val → Prop
  | .unit, _, v => v = .null
  | .scalar s, m, v => v = encScalar s m
  | .comp c, m, v => cRep d H c m v
/-- The properties of a struct. -/
def sRep (d : Dir) (H : Part) : (fs : NFields) → fs.erase.Struct d → List (Str × Val) → Prop
  | .nil, _, _ => True
  | .cons n _ r t rest, m, l =>
    (∃ v, member n.member l = some v ∧ slotRep (tRep d H t) (r.mayOmit d) m.1 v) ∧ sRep d H rest m.2 l
/-- The properties of a choice, apart from the fallback. -/
def selRep (d : Dir) (H : Part) {fb : Bool} : (fs : NFields) → fs.erase.Sel d fb → List (Str × Val) → Prop
  | .nil, e, _ => e.elim
  | .cons n _ _ t _, .inl p, l => (∃ v, member n.member l = some v ∧ tRep d H t p.val v) ∧
    (d = .inn → l.map (·.1) = "$field".toList :: n.member :: (if fb then ["$fallback".toList] else []) ∧
      member "$field".toList l = some (.text n.member))
  | .cons n _ _ _ rest, .inr p, l => (d = .out → hasProperty (l.map (·.1)) n.member = false) ∧ selRep d H rest p l
end

/-- A number. -/
abbrev natV (n : Nat) : Val := .num n

/-- The value of a choice's atlas. -/
def atlChain {α β : Type} (f : α → List (Str × Val) → Prop) (g : β → List (Str × Val) → Prop) : Chain (Nat × α) (Nat × β) → Val → Prop
  | .last b, v => ∃ l, v = .obj l ∧ member "$size".toList l = some (natV b.1) ∧ g b.2 l
  | .more a rest, v => ∃ l w, v = .obj l ∧ member "$size".toList l = some (natV a.1) ∧ f a.2 l ∧ member "$fallback".toList l = some w ∧
    atlChain f g rest w

mutual
/-- The value represents the atlas. -/
def cAtl (H : Part) : (c : NCTy) → Ts.CAtlas c.erase → Val → Prop
  | .bytes, a, v => v = natV a
  | .string, a, v => ∃ r, v = .typed r 0 (List.length (α := UInt8) a) ∧ H r = some (.buf a)
  | .units, a, v => v = natV a
  | .scalars _, a, v => v = natV a
  | .array c, a, v => ∃ r l, v = .obj [("$size".toList, natV a.1), ("$elements".toList, .arr r)] ∧ H r = some (.arr l) ∧
      List.Forall₂ (cAtl H c) a.2 l
  | .struct _ fs, a, v => ∃ l, v = .obj l ∧ member "$size".toList l = some (natV a.1) ∧ sAtl H fs a.2 l
  | .choice _ fs, a, v => atlChain (selAtl H fs) (selAtl H fs) a v
/-- The atlas of a field. -/
def tAtl (H : Part) : (t : NTy) → Ts.TAtlas t.erase → Val → Prop
  | .unit, a, v => v = natV a
  | .scalar _, a, v => v = natV a
  | .comp c, a, v => cAtl H c a v
/-- The properties of a struct's atlas, besides `$size`. -/
def sAtl (H : Part) : (fs : NFields) → Ts.AtlasStruct fs.erase → List (Str × Val) → Prop
  | .nil, _, _ => True
  | .cons n _ r t rest, a, l =>
    (∃ v, member n.member l = some v ∧ slotRep (tAtl H t) (r.mayOmit .out) a.1 v) ∧ sAtl H rest a.2 l
/-- The properties of a choice's atlas, besides `$size` and `$fallback`. -/
def selAtl (H : Part) {fb : Bool} : (fs : NFields) → Ts.AtlasSel fb fs.erase → List (Str × Val) → Prop
  | .nil, e, _ => e.elim
  | .cons n _ _ t _, .inl p, l => ∃ v, member n.member l = some v ∧ tAtl H t p.val v
  | .cons _ _ _ _ rest, .inr p, l => selAtl H rest p l
end

end Typical.TsGen

import Verif.Gen.Ev

/-!
# Helper: induction over types with names
-/

namespace Typical.Gen

/-- The types of fields have a property. -/
inductive FieldsHave (T : CharTable) (Q : TypeVariant → NTy → Prop) : List Field → NFields → Prop
  | nil : FieldsHave T Q [] .nil
  | cons {f t l fs} : Q f.type.variant t → FieldsHave T Q l fs →
    FieldsHave T Q (f :: l) (.cons (fieldName T f) f.index f.rule t fs)

section
variable {T : CharTable} {S : Schemas} {QC : NCTy → Prop} {QT : Namespace → Schema → TypeVariant → NTy → Prop}
  (struct : ∀ k ns s d fs, S.Declares k ns s d → d.variant = .struct → NamedFields T S ns s d.fields fs →
    FieldsHave T (fun tv t => NamedType T S ns s tv t ∧ QT ns s tv t) d.fields fs → QC (.struct (declName T ns d) fs))
  (choice : ∀ k ns s d fs, S.Declares k ns s d → d.variant = .choice → NamedFields T S ns s d.fields fs →
    FieldsHave T (fun tv t => NamedType T S ns s tv t ∧ QT ns s tv t) d.fields fs → QC (.choice (declName T ns d) fs))
  (unit : ∀ ns s, QT ns s .unit .unit)
  (scalar : ∀ ns s tv sc, NamedType T S ns s tv (.scalar sc) → QT ns s tv (.scalar sc))
  (bytes : ∀ ns s, QT ns s .bytes (.comp .bytes))
  (string : ∀ ns s, QT ns s .string (.comp .string))
  (units : ∀ ns s r, QT ns s (.array r .unit) (.comp .units))
  (scalars : ∀ ns s r inner sc, NamedType T S ns s inner (.scalar sc) → QT ns s inner (.scalar sc) →
    QT ns s (.array r inner) (.comp (.scalars sc)))
  (array : ∀ ns s r inner c, NamedType T S ns s inner (.comp c) → QT ns s inner (.comp c) →
    QT ns s (.array r inner) (.comp (.array c)))
  (custom : ∀ ns s i n k c, s.RefersTo ns i n k → Named T S k c → QC c → QT ns s (.custom i n) (.comp c))
include struct choice unit scalar bytes string units scalars array custom

mutual
theorem Named.induct {k : List Str × Str} {c : NCTy} : Named T S k c → QC c
  | .struct hd hv hf => struct _ _ _ _ _ hd hv hf (NamedFields.induct hf)
  | .choice hd hv hf => choice _ _ _ _ _ hd hv hf (NamedFields.induct hf)
theorem NamedFields.induct {ns : Namespace} {s : Schema} {l : List Field} {fs : NFields} : NamedFields T S ns s l fs →
    FieldsHave T (fun tv t => NamedType T S ns s tv t ∧ QT ns s tv t) l fs
  | .nil => .nil
  | .cons h1 h2 => .cons ⟨h1, NamedType.induct h1⟩ (NamedFields.induct h2)
theorem NamedType.induct {ns : Namespace} {s : Schema} {tv : TypeVariant} {t : NTy} : NamedType T S ns s tv t → QT ns s tv t
  | .bool => scalar _ _ _ _ .bool
  | .f64 => scalar _ _ _ _ .f64
  | .s64 => scalar _ _ _ _ .s64
  | .u64 => scalar _ _ _ _ .u64
  | .unit => unit _ _
  | .bytes => bytes _ _
  | .string => string _ _
  | .units => units _ _ _
  | .scalars h => scalars _ _ _ _ _ h (NamedType.induct h)
  | .array h => array _ _ _ _ _ h (NamedType.induct h)
  | .custom h1 h2 => custom _ _ _ _ _ _ h1 h2 (Named.induct h2)
end
end

end Typical.Gen

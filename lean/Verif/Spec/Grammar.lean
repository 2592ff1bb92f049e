import Verif.Front.Parser

/-!
# Specification: the grammar of schemas

Which sequences of tokens are which schemas. From the model this uses only the data types, `fileStem` (which
stands for `Path::file_stem` of the Rust standard library) and `strBefore` (the order of strings).
-/

namespace Typical

/-- From the start of the first token to the end of the last. -/
def span (ts : List Token) : SourceRange :=
  match ts.head?, ts.getLast? with
  | some a, some b => ⟨a.sourceRange.start, b.sourceRange.stop⟩
  | _, _ => ⟨0, 0⟩

/-- The types which are one keyword. -/
def keywordTypes : List (TokVariant × TypeVariant) :=
  [(.bool, .bool), (.bytes, .bytes), (.f64, .f64), (.s64, .s64), (.string, .string), (.u64, .u64), (.unit, .unit)]

/-- `type ::= keyword | name | import '.' name | '[' type ']'` -/
inductive TypeSyntax : List Token → SchemaType → Prop
  | keyword {t v} : (t.variant, v) ∈ keywordTypes → TypeSyntax [t] ⟨span [t], v⟩
  | name {t n} : t.variant = .identifier n → TypeSyntax [t] ⟨span [t], .custom none n⟩
  | qualified {a d t m n} : a.variant = .identifier m → d.variant = .dot → t.variant = .identifier n →
    TypeSyntax [a, d, t] ⟨span [a, d, t], .custom (some m) n⟩
  | array {l ts r inner} : l.variant = .leftSquare → TypeSyntax ts inner → r.variant = .rightSquare →
    TypeSyntax (l :: ts ++ [r]) ⟨span (l :: ts ++ [r]), .array inner.sourceRange inner.variant⟩

/-- `comment?` -/
inductive CommentSyntax : List Token → List Str → Prop
  | absent : CommentSyntax [] []
  | present {t ps} : t.variant = .comment ps → CommentSyntax [t] ps

/-- `('asymmetric' | 'optional')?` -/
inductive RuleSyntax : List Token → Rule → Prop
  | required : RuleSyntax [] .required
  | asymmetric {t} : t.variant = .asymmetric → RuleSyntax [t] .asymmetric
  | optional {t} : t.variant = .optional → RuleSyntax [t] .optional

/-- `(':' type)?`, `unit` if absent; in that case the range is empty and at the start of the next token, `e`. -/
inductive FieldTypeSyntax (e : Token) : List Token → SchemaType → Prop
  | absent : FieldTypeSyntax e [] ⟨⟨e.sourceRange.start, e.sourceRange.start⟩, .unit⟩
  | present {c ts ty} : c.variant = .colon → TypeSyntax ts ty → FieldTypeSyntax e (c :: ts) ty

/-- `field ::= comment? rule? name (':' type)? '=' integer` -/
inductive FieldSyntax : List Token → Field → Prop
  | mk {c r n ty e k comment rule name type index} : CommentSyntax c comment → RuleSyntax r rule →
    n.variant = .identifier name → FieldTypeSyntax e ty type → e.variant = .equals → k.variant = .integer index →
    FieldSyntax (c ++ r ++ n :: ty ++ [e, k]) ⟨span (c ++ r ++ n :: ty ++ [e, k]), comment, rule, name, type, index⟩

/-- Zero or more. -/
inductive Many {α : Type} (G : List Token → α → Prop) : List Token → List α → Prop
  | nil : Many G [] []
  | cons {ts a us as} : G ts a → Many G us as → Many G (ts ++ us) (a :: as)

/-- `('deleted' integer*)?`, without repetitions; the set of the integers. -/
inductive DeletedSyntax : List Token → List Nat → Prop
  | absent : DeletedSyntax [] []
  | present {d ks ns set} : d.variant = .deleted → ks.map Token.variant = ns.map TokVariant.integer → ns.Nodup →
    set.Perm ns → set.Pairwise (· < ·) → DeletedSyntax (d :: ks) set

/-- `'struct' | 'choice'` -/
def KeywordSyntax (t : Token) (v : DeclVariant) : Prop :=
  (t.variant = .struct ∧ v = .struct) ∨ (t.variant = .choice ∧ v = .choice)

/-- `declaration ::= comment? ('struct' | 'choice') name '{' field* deleted? '}'` -/
inductive DeclSyntax : List Token → Declaration → Prop
  | mk {c k n l fs del r comment variant name fields deleted} : CommentSyntax c comment → KeywordSyntax k variant →
    n.variant = .identifier name → l.variant = .leftCurly → Many FieldSyntax fs fields → DeletedSyntax del deleted →
    r.variant = .rightCurly →
    DeclSyntax (c ++ [k, n, l] ++ fs ++ del ++ [r])
      ⟨span (c ++ [k, n, l] ++ fs ++ del ++ [r]), comment, variant, name, fields, deleted⟩

/-- `import ::= 'import' path ('as' name)?`; without a name it is named after the file. -/
inductive ImportSyntax (T : CharTable) : List Token → Identifier × Import → Prop
  | named {i p a n path name} : i.variant = .import → p.variant = .path path → a.variant = .as →
    n.variant = .identifier name → ImportSyntax T [i, p, a, n] (name, ⟨span [i, p, a, n], path, none⟩)
  | unnamed {i p path stem} : i.variant = .import → p.variant = .path path → fileStem path = some stem →
    ImportSyntax T [i, p] (Identifier.ofStr T stem, ⟨span [i, p], path, none⟩)

/-- A comment before a declaration is separated from it: there is more than a line break between them. -/
def Separated (comment next : Token) : Prop := comment.sourceRange.stop + 1 < next.sourceRange.start

/-- `schema ::= comment? import* declaration*`. No two imports have the same name. A comment before the first declaration is
the comment of the schema iff it is separated from the declaration. -/
inductive SchemaSyntax (T : CharTable) : List Token → Schema → Prop
  | mk {c is ds comment written imports decls} : CommentSyntax c comment → Many (ImportSyntax T) is written →
    (written.map (fun i => i.1.snakeCase)).Nodup → imports.Perm written →
    imports.Pairwise (fun a b => strBefore a.1.snakeCase b.1.snakeCase = true) → Many DeclSyntax ds decls →
    (∀ t u us, is ++ ds = u :: us → c = [t] → u.variant = .struct ∨ u.variant = .choice → Separated t u) →
    (∀ t u us ps, c = [] → is ++ ds = t :: u :: us → t.variant = .comment ps → ¬ Separated t u) →
    SchemaSyntax T (c ++ is ++ ds) ⟨comment, imports, decls⟩

end Typical

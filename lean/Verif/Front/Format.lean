import Verif.Front.Parser

/-!
# Model of the formatter: `/repo/src/schema.rs` lines 124-306

`textwrap::fill`, which breaks the paragraphs of comments into lines, is a parameter `F`: `F width text`.
-/

namespace Typical

/-- A line without the carriage return at its end. -/
def stripCr (l : Str) : Str := if l.getLast? = some '\r' then l.dropLast else l

/-- `str::lines`: the parts between line feeds, without a carriage return before the line feed; there is no last line after a
final line feed. -/
def strLines (s : Str) : List Str :=
  let parts := splitOn '\n' s
  parts.dropLast.map stripCr ++ (parts.getLast?.toList.filter (fun l => !l.isEmpty))

/-- One paragraph of a comment: lines 130-132. `MAX_COLUMNS` is 79: line 18. -/
def writeParagraph (F : Nat → Str → Str) (ind : Str) (p : Str) : Str :=
  (strLines (F (79 - ind.length - 2) p)).flatMap (fun line => ind ++ "# ".toList ++ line ++ ['\n'])

/-- `write_comment`: lines 124-137. -/
def writeComment (F : Nat → Str → Str) (ind : Str) : List Str → Str
  | [] => []
  | [p] => writeParagraph F ind p
  | p :: q :: ps => writeParagraph F ind p ++ (ind ++ "#\n".toList) ++ writeComment F ind (q :: ps)

/-- `TypeVariant::write`: lines 270-306. -/
def writeType (T : CharTable) : TypeVariant → Str
  | .array _ inner => ['['] ++ writeType T inner ++ [']']
  | .bool => "Bool".toList
  | .bytes => "Bytes".toList
  | .custom (some m) n => m.snakeCase ++ ['.'] ++ n.pascalCase T
  | .custom none n => n.pascalCase T
  | .f64 => "F64".toList
  | .s64 => "S64".toList
  | .string => "String".toList
  | .u64 => "U64".toList
  | .unit => "Unit".toList

/-- Lines 240-250, without the indentation. -/
def writeRule : Rule → Str
  | .asymmetric => "asymmetric ".toList
  | .optional => "optional ".toList
  | .required => []

/-- The indentation of fields. -/
def indent4 : Str := "    ".toList

/-- `Field::write`: lines 237-261. -/
def writeField (T : CharTable) (F : Nat → Str → Str) (f : Field) : Str :=
  writeComment F indent4 f.comment ++ indent4 ++ writeRule f.rule ++ f.name.snakeCase ++
    (if f.type.variant = .unit then [] else ": ".toList ++ writeType T f.type.variant) ++ " = ".toList ++ showNat f.index ++
    ['\n']

/-- The loop over the fields: lines 199-209. `previous` is `previous_field_has_comment`; `first` is `i == 0`. -/
def writeFields (T : CharTable) (F : Nat → Str → Str) (first previous : Bool) : List Field → Str
  | [] => []
  | f :: fs =>
    (if (previous || !f.comment.isEmpty) && !first then ['\n'] else []) ++ writeField T F f ++
      writeFields T F false (!f.comment.isEmpty) fs

/-- Lines 211-221. -/
def writeDeleted (d : Declaration) : Str :=
  (if !d.fields.isEmpty && !d.deleted.isEmpty then ['\n'] else []) ++
    (if !d.deleted.isEmpty then indent4 ++ "deleted".toList ++ d.deleted.flatMap (fun n => [' '] ++ showNat n) ++ ['\n'] else [])

/-- `DeclarationVariant::write`: lines 227-234. -/
def writeKeyword : DeclVariant → Str
  | .struct => "struct".toList
  | .choice => "choice".toList

/-- `Declaration::write`: lines 190-224. -/
def writeDeclaration (T : CharTable) (F : Nat → Str → Str) (d : Declaration) : Str :=
  writeComment F [] d.comment ++ writeKeyword d.variant ++ " ".toList ++ d.name.pascalCase T ++ " {\n".toList ++
    writeFields T F true false d.fields ++ writeDeleted d ++ "}\n".toList

/-- `Import::write`: lines 167-186. -/
def writeImport (T : CharTable) (name : Identifier) (imp : Import) : Str :=
  "import '".toList ++ imp.path ++ "'".toList ++
    (if (fileStem imp.path).map (fun stem => (Identifier.ofStr T stem).same name) = some true then []
      else " as ".toList ++ name.snakeCase) ++ ['\n']

/-- The loop over the declarations: lines 152-160. -/
def writeDeclarations (T : CharTable) (F : Nat → Str → Str) (skip : Bool) : List Declaration → Str
  | [] => []
  | d :: ds => (if skip then [] else ['\n']) ++ writeDeclaration T F d ++ writeDeclarations T F false ds

/-- `Schema::write` (and `Display`): lines 139-163. -/
def format (T : CharTable) (F : Nat → Str → Str) (s : Schema) : Str :=
  writeComment F [] s.comment ++
    (if !s.comment.isEmpty && (!s.imports.isEmpty || !s.declarations.isEmpty) then ['\n'] else []) ++
    s.imports.flatMap (fun i => writeImport T i.1 i.2) ++ writeDeclarations T F s.imports.isEmpty s.declarations

end Typical

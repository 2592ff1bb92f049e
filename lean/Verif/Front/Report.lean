import Verif.Front.Listing
import Verif.Front.Loader
import Verif.Front.Validator

/-!
# Model of what is printed if loading or validating fails

`/repo/src/error.rs` lines 14-87 (`Error`, `throw`), `/repo/src/format.rs` lines 10-20 (`code_str`), the messages of
`/repo/src/tokenizer.rs`, `/repo/src/parser.rs`, `/repo/src/schema_loader.rs` and `/repo/src/validator.rs`, and
`/repo/src/main.rs` lines 136, 141 and 225 (`merge_errors`). `none` is a panic, which can only come from a listing or a slice.

Not modelled, and so parameters (`Wording`): the texts of errors of the operating system, which symbol (grapheme cluster) was
unexpected, the text of a path in the form the user has written it, which import asked for a file which cannot be read, and the
names of the types on a cycle (`Namespace.PascalCase`).
-/

namespace Typical

/-- The colours: those of listings, `.red().bold()`, and `.magenta()`. -/
structure Style where
  colors : Colors
  redBold : Str → Str
  magenta : Str → Str

/-- No colours. -/
def Style.plain : Style := ⟨.none, id, id⟩

/-- `code_str`: `/repo/src/format.rs` lines 10-20. -/
def Style.code (P : Style) (s : Str) : Str := if P.colors.on then P.magenta s else '`' :: (s ++ ['`'])

/-- `throw`, without the reason: `/repo/src/error.rs` lines 42-84. -/
def throwText (P : Style) (message : Str) (path : Option Str) (lst : Option Str) : Str :=
  match path with
  | some path =>
    match lst with
    | some lst =>
      if lst = [] then P.redBold "[Error]".toList ++ ' ' :: P.magenta ('[' :: P.code path ++ [']']) ++ ' ' :: message
      else P.redBold "[Error]".toList ++ ' ' :: P.magenta ('[' :: P.code path ++ [']']) ++ ' ' :: message ++ ['\n', '\n'] ++ lst
    | none => P.redBold "[Error]".toList ++ ' ' :: P.magenta ('[' :: P.code path ++ [']']) ++ ' ' :: message
  | none =>
    match lst with
    | some lst =>
      if lst = [] then P.redBold "[Error]".toList ++ ' ' :: message
      else P.redBold "[Error]".toList ++ ' ' :: message ++ ['\n', '\n'] ++ lst
    | none => P.redBold "[Error]".toList ++ ' ' :: message

/-- `Display` of an error with a reason: `/repo/src/error.rs` lines 20-34. -/
def withReason (P : Style) (text : Str) (reason : Option Str) : Str :=
  match reason with
  | some reason => text ++ ['\n', '\n'] ++ P.colors.blueBold "Reason:".toList ++ ' ' :: reason
  | none => text

/-- `Path::to_string_lossy` for a relative path. -/
def pathText (path : List Str) : Str := joinWith ['/'] path

/-- `Path::to_string_lossy` for a path in its canonical form. -/
def FPath.text (p : FPath) : Str := if p.absolute then '/' :: pathText p.parts else pathText p.parts

/-! ## Validation -/

/-- The file and the range which a validation error lists. A cycle has none. -/
def VErr.place : VErr → Option (Namespace × SourceRange)
  | .duplicateDeclaration ns r _ => some (ns, r)
  | .duplicateFieldName ns r _ => some (ns, r)
  | .duplicateFieldIndex ns r _ => some (ns, r)
  | .deletedIndex ns r _ => some (ns, r)
  | .indexTooLarge ns r _ => some (ns, r)
  | .indexGap ns r _ => some (ns, r)
  | .noImport ns r _ => some (ns, r)
  | .noType ns r _ _ => some (ns, r)
  | .cycle _ => none

/-- The messages: `/repo/src/validator.rs` lines 46-49, 63-66, 76-79, 89-92, 102-106, 128-131, 210-213, 228-236, 271-283. -/
def VErr.message (P : Style) (typeText : TypeKey → Str) : VErr → Str
  | .duplicateDeclaration _ _ name => "A declaration named ".toList ++ P.code name.original ++ " already exists in this file.".toList
  | .duplicateFieldName _ _ name => "A field named ".toList ++ P.code name.original ++ " already exists in this declaration.".toList
  | .duplicateFieldIndex _ _ i => "A field with index ".toList ++ P.code (showNat i) ++ " already exists in this declaration.".toList
  | .deletedIndex _ _ i => "Field index ".toList ++ P.code (showNat i) ++ " is marked as deleted in this declaration.".toList
  | .indexTooLarge _ _ i => "Field index ".toList ++ P.code (showNat i) ++ " is too large. The maximum field index is ".toList ++
      P.code (showNat maxFieldIndex) ++ ".".toList
  | .indexGap _ _ i => "Field index gap found. Unused index ".toList ++ P.code (showNat i) ++ " is not marked as deleted.".toList
  | .noImport _ _ name => "There is no import named ".toList ++ P.code name.original ++ " in this file.".toList
  | .noType _ _ (some i) name => "There is no type named ".toList ++ P.code name.original ++ " in import ".toList ++
      P.code i.original ++ ".".toList
  | .noType _ _ none name => "There is no type named ".toList ++ P.code name.original ++ " in this file.".toList
  | .cycle path => "Cycle detected: ".toList ++ joinWith " \u2192 ".toList (path.map (fun k => P.code (typeText k))) ++ ".".toList

/-- One error. In the code the path and the text of the file are those of the loop over the files; here they are looked up by the
namespace which the error contains. -/
def VErr.report (T : CharTable) (P : Style) (typeText : TypeKey → Str) (S : List (Namespace × LoadedFile)) (e : VErr) : Option Str :=
  match e.place with
  | none => some (throwText P (e.message P typeText) none none)
  | some (ns, r) =>
    match S.find? (fun x => x.1.key == ns.key) with
    | none => none
    | some x => (listing T P.colors x.2.contents r).map
        (fun l => throwText P (e.message P typeText) (some (pathText x.2.path)) (some l))

/-- The texts of all of them, if none panics. -/
def allTexts {α : Type} (f : α → Option Str) : List α → Option (List Str)
  | [] => some []
  | a :: as =>
    match f a, allTexts f as with
    | some t, some ts => some (t :: ts)
    | _, _ => none

/-- What is printed if these validation errors are found: `/repo/src/main.rs` lines 141 and 394-400. -/
def validationText (T : CharTable) (P : Style) (typeText : TypeKey → Str) (S : List (Namespace × LoadedFile)) (es : List VErr) :
    Option Str :=
  (allTexts (VErr.report T P typeText S) es).map (mergeErrors T)

/-! ## Loading -/

/-- The texts which are not modelled. -/
structure Wording where
  /-- The grapheme cluster at an offset: `/repo/src/tokenizer.rs` lines 355-369. -/
  symbol : Str → Nat → Str
  /-- The error of the operating system, if there is one. -/
  reason : LoadErr → Option Str
  /-- The import which asked for a file, as the path and the listing: `/repo/src/schema_loader.rs` lines 229-236. -/
  origin : List Str → Option (Str × Str)
  /-- The path of an import, with the directory of the file: line 184. -/
  importText : List Str → Import → Str
  /-- The path given by the user. -/
  given : Str
  /-- The namespace of a file: line 250. -/
  namespaceText : List Str → Str

/-- The messages of `/repo/src/tokenizer.rs`: lines 191, 200, 238-241, 264-267, 373. -/
def LexErr.message (P : Style) (W : Wording) (source : Str) (e : LexErr) : Option Str :=
  match e.kind with
  | .emptyIdentifier => some "Identifiers cannot be empty.".toList
  | .underscore => some "Identifiers cannot begin with `_`.".toList
  | .integerTooLarge => (slice source e.sourceRange.start e.sourceRange.stop).map
      (fun n => "Integer ".toList ++ P.code n ++ " must be less than 2^64.".toList)
  | .unterminatedPath => some ("Path starting here must be terminated by a ".toList ++ P.code ['\''] ++ ".".toList)
  | .unexpectedSymbol => some ("Unexpected symbol ".toList ++ P.code (W.symbol source e.sourceRange.start) ++ ".".toList)

/-- The tokens which the parser was given: `/repo/src/schema_loader.rs` lines 131-168. -/
def tokensIn (T : CharTable) (source : Str) : List Token :=
  match tokenize T source with
  | .ok toks => toks
  | .error _ => []

/-- The token at the position of the error. The model of the parser keeps the range and not the position; no two tokens have the same
range, and none has the range of the end of the file. -/
def ParseErr.token (toks : List Token) (e : ParseErr) : Option Token := toks.find? (fun t => t.sourceRange == e.sourceRange)

/-- What was expected. The model of the parser writes quotes where the code uses `code_str`: `/repo/src/parser.rs` lines 115 and 131. -/
def expectationText (P : Style) (what : String) : Str :=
  match what.toList with
  | '`' :: rest => P.code rest.dropLast
  | w => w

/-- The messages of `/repo/src/parser.rs`: lines 63-85, 215, 282-285, 414-417, 548. (In lines 215 there always is a token.) -/
def ParseErr.message (P : Style) (toks : List Token) (e : ParseErr) : Str :=
  match e.kind with
  | .expected what =>
    if toks = [] then "Expected ".toList ++ expectationText P what ++ ", but the file is empty.".toList
    else
      match e.token toks with
      | none => "Expected ".toList ++ expectationText P what ++ " at the end of the file.".toList
      | some t => "Expected ".toList ++ expectationText P what ++ ", but encountered ".toList ++ P.code t.variant.show ++ ".".toList
  | .unexpected =>
    match e.token toks with
    | none => "Unexpected .".toList
    | some t => "Unexpected ".toList ++ P.code t.variant.show ++ ".".toList
  | .duplicateImport name => "An import named ".toList ++ P.code name.original ++ " already exists in this file.".toList
  | .duplicateDeleted i => "Index ".toList ++ P.code (showNat i) ++ " is already marked as deleted.".toList
  | .unnamedImport => "Unable to infer a name for this import.".toList

/-- An error with a listing of a range of a file. -/
def listedReport (T : CharTable) (P : Style) (source : Str) (path : List Str) (message : Option Str) (r : SourceRange) : Option Str :=
  match message, listing T P.colors source r with
  | some m, some l => some (throwText P m (some (pathText path)) (some l))
  | _, _ => none

/-- The texts of the errors which one `LoadErr` stands for: `/repo/src/schema_loader.rs` lines 52-60, 78-89, 99-106, 131-149, 154-168,
188-198, 212-221, 245-254. -/
def LoadErr.report (T : CharTable) (P : Style) (W : Wording) (E : LoadEnv) (e : LoadErr) : Option (List Str) :=
  match e with
  | .notAFile => some [withReason P (throwText P (P.code W.given ++ " is not a file.".toList) none none) (W.reason e)]
  | .unreadable path => some [withReason P (throwText P ("Unable to load ".toList ++ P.code (pathText path) ++ ".".toList)
      ((W.origin path).map Prod.fst) ((W.origin path).map Prod.snd)) (W.reason e)]
  | .lexical path es =>
    match E.fs.read (E.base.join (.rel path)) with
    | none => none
    | some source => allTexts (fun x => listedReport T P source path (LexErr.message P W source x) x.sourceRange) es
  | .syntactic path es =>
    match E.fs.read (E.base.join (.rel path)) with
    | none => none
    | some source => allTexts (fun x => listedReport T P source path (some (ParseErr.message P (tokensIn T source) x)) x.sourceRange) es
  | .unresolved path imp =>
    match E.fs.read (E.base.join (.rel path)) with
    | none => none
    | some source =>
      (listedReport T P source path (some ("Unable to load ".toList ++ P.code (W.importText path imp) ++ ".".toList))
        imp.sourceRange).map (fun t => [withReason P t (W.reason e)])
  | .outside path imp target =>
    match E.fs.read (E.base.join (.rel path)) with
    | none => none
    | some source =>
      (listedReport T P source path (some (P.code (FPath.text ⟨true, target⟩) ++ " is not a descendant of ".toList ++
        P.code (FPath.text ⟨true, E.canonicalBase⟩) ++ ", which is the base directory for this run.".toList))
        imp.sourceRange).map (fun t => [t])
  | .conflict path other => some [throwText P ("This file conflicts with ".toList ++ P.code (pathText other) ++
      ", since both correspond to the same namespace ".toList ++ P.code (W.namespaceText path) ++ ".".toList) (some (pathText path)) none]

/-- The texts of all errors of the loader, if none panics. -/
def loadTexts (T : CharTable) (P : Style) (W : Wording) (E : LoadEnv) : List LoadErr → Option (List Str)
  | [] => some []
  | e :: es =>
    match LoadErr.report T P W E e, loadTexts T P W E es with
    | some ts, some rest => some (ts ++ rest)
    | _, _ => none

/-- What is printed if these errors are found while loading: `/repo/src/main.rs` lines 136, 225 and 394-400. -/
def loadText (T : CharTable) (P : Style) (W : Wording) (E : LoadEnv) (es : List LoadErr) : Option Str :=
  (loadTexts T P W E es).map (mergeErrors T)

end Typical

import Verif.Front.Report
import Verif.Spec.Listing
import Verif.Spec.Loader

/-!
# Specification: what the user is told about an error

From the model this uses the colours (`Style`), the texts of messages (`VErr.message`, …), and functions on strings.
-/

namespace Typical

/-- `l` shows exactly the lines of the source which the range touches, each once and in order, with the characters in the range
highlighted. -/
def Lists (T : CharTable) (C : Colors) (source : Str) (r : SourceRange) (l : Str) : Prop :=
  ∃ (shown : List Shown) (gutter : Nat), l = joinWith ['\n'] (renderAll C gutter shown) ∧
    (∀ sh ∈ shown, ∃ pre line, Shows T source r sh pre line) ∧
    shown.Pairwise (fun s t => s.number < t.number) ∧
    (∀ k pre line, IsLine source k pre line → Touches r pre line → ∃ sh ∈ shown, sh.number = k)

/-- The text is `[Error] [file] message`, and, after an empty line, the listing of the range (if it is not empty). -/
def Told (T : CharTable) (P : Style) (source : Str) (path : List Str) (r : SourceRange) (message text : Str) : Prop :=
  ∃ l, Lists T P.colors source r l ∧
    text = P.redBold "[Error]".toList ++ [' '] ++ P.magenta ('[' :: P.code (pathText path) ++ [']']) ++ [' '] ++ message ++
      (if l = [] then [] else ['\n', '\n'] ++ l)

/-- The text is `[Error] message`. -/
def ToldPlainly (P : Style) (message text : Str) : Prop := text = P.redBold "[Error]".toList ++ [' '] ++ message

/-- What is told about a validation error: about a cycle the message only; otherwise the file in which it is, the message, and the
lines of the offending part of that file. -/
inductive ToldInvalid (T : CharTable) (P : Style) (typeText : TypeKey → Str) (E : LoadEnv) (S : List (Namespace × LoadedFile))
    (e : VErr) (text : Str) : Prop
  | placed (ns : Namespace) (r : SourceRange) (file : LoadedFile) : e.place = some (ns, r) → (ns, file) ∈ S →
      E.fs.read (E.base.join (.rel file.path)) = some file.contents → r ∈ file.schema.declarations.flatMap Declaration.ranges →
      Told T P file.contents file.path r (e.message P typeText) text → ToldInvalid T P typeText E S e text
  | cycle (path : List TypeKey) : e = .cycle path → ToldPlainly P (e.message P typeText) text →
      ToldInvalid T P typeText E S e text

/-- What is told about an error found while loading: for errors of the tokenizer and the parser, and for imports, the file, the
message, and the lines. -/
inductive ToldUnloadable (T : CharTable) (P : Style) (W : Wording) (E : LoadEnv) : LoadErr → List Str → Prop
  | lexical (path source es texts) : E.fs.read (E.base.join (.rel path)) = some source →
      Each (fun (x : LexErr) text => ∃ m, LexErr.message P W source x = some m ∧ Told T P source path x.sourceRange m text) es texts →
      ToldUnloadable T P W E (.lexical path es) texts
  | syntactic (path source es texts) : E.fs.read (E.base.join (.rel path)) = some source →
      Each (fun (x : ParseErr) text => Told T P source path x.sourceRange (ParseErr.message P (tokensIn T source) x) text) es texts →
      ToldUnloadable T P W E (.syntactic path es) texts
  | unresolved (path source imp text) : E.fs.read (E.base.join (.rel path)) = some source →
      Told T P source path imp.sourceRange ("Unable to load ".toList ++ P.code (W.importText path imp) ++ ".".toList) text →
      ToldUnloadable T P W E (.unresolved path imp) [withReason P text (W.reason (.unresolved path imp))]
  | outside (path source imp target text) : E.fs.read (E.base.join (.rel path)) = some source →
      Told T P source path imp.sourceRange (P.code (FPath.text ⟨true, target⟩) ++ " is not a descendant of ".toList ++
        P.code (FPath.text ⟨true, E.canonicalBase⟩) ++ ", which is the base directory for this run.".toList) text →
      ToldUnloadable T P W E (.outside path imp target) [text]
  | unreadable (path text before after) : text = P.redBold "[Error]".toList ++ before ++
        ("Unable to load ".toList ++ P.code (pathText path) ++ ".".toList) ++ after →
      ToldUnloadable T P W E (.unreadable path) [withReason P text (W.reason (.unreadable path))]

/-- What a message about a violation has to name. -/
inductive VErr.About (typeText : TypeKey → Str) : VErr → Str → Prop
  | duplicateDeclaration (ns r) (name : Identifier) : About typeText (.duplicateDeclaration ns r name) name.original
  | duplicateFieldName (ns r) (name : Identifier) : About typeText (.duplicateFieldName ns r name) name.original
  | duplicateFieldIndex (ns r i) : About typeText (.duplicateFieldIndex ns r i) (showNat i)
  | deletedIndex (ns r i) : About typeText (.deletedIndex ns r i) (showNat i)
  | indexTooLarge (ns r i) : About typeText (.indexTooLarge ns r i) (showNat i)
  | maximum (ns r i) : About typeText (.indexTooLarge ns r i) (showNat (2 ^ 62 - 1))
  | indexGap (ns r i) : About typeText (.indexGap ns r i) (showNat i)
  | noImport (ns r) (name : Identifier) : About typeText (.noImport ns r name) name.original
  | noType (ns r i) (name : Identifier) : About typeText (.noType ns r i name) name.original
  | inImport (ns r) (i name : Identifier) : About typeText (.noType ns r (some i) name) i.original
  | cycle (path) (k : TypeKey) : k ∈ path → About typeText (.cycle path) (typeText k)

/-- The text neither begins nor ends with white space. -/
def NoOuterSpace (T : CharTable) (s : Str) : Prop :=
  (∀ c, s.head? = some c → T.isWhitespace c = false) ∧ ∀ c, s.getLast? = some c → T.isWhitespace c = false

/-- Without colours: the beginning of what is told about a problem in a file. -/
def plainHead (path : List Str) (message : Str) : Str :=
  "[Error]".toList ++ [' ', '[', '`'] ++ pathText path ++ ['`', ']', ' '] ++ message

end Typical

import Verif.Gen.RustGen

/-!
# The text of generated Rust code

The text of the syntax of `Verif.Gen.Ast`, and of whole files: `generate`, `write_module`, `write_module_contents`, `write_schema` of
`/repo/src/generate_rust.rs`.
-/

namespace Typical.Gen

/-- The name of a variable. -/
def Var.text : Var → Str
  | .self => "self".toList
  | .writer => "writer".toList
  | .atlas => "atlas".toList
  | .message => "message".toList
  | .reader => "reader".toList
  | .subReader => "sub_reader".toList
  | .payload => "payload".toList
  | .payloadAtlas => "payload_atlas".toList
  | .payloadSize => "payload_size".toList
  | .fallback => "fallback".toList
  | .fallbackAtlas => "fallback_atlas".toList
  | .atlases => "atlases".toList
  | .atlasSize => "atlas_size".toList
  | .x => "x".toList
  | .zigzag => "zigzag".toList
  | .varint => "varint".toList
  | .index => "index".toList
  | .buffer => "buffer".toList
  | .header => "header".toList
  | .element => "element".toList
  | .err => "err".toList
  | .size => "size".toList
  | .field n => '_' :: n

/-- `write_supers`: lines 1769-1775. -/
def supersText (n : Nat) : Str := (List.replicate n "super::".toList).flatten

/-- The text of a path. -/
def TypePath.text (p : TypePath) : Str :=
  (List.replicate p.supers "super::".toList).flatten ++ p.modules.flatMap (fun m => m ++ "::".toList) ++ p.name

/-- The text of a type: lines 1608-1719. -/
def TypeEx.text : TypeEx → Str
  | .usize => "usize".toList
  | .bool => "bool".toList
  | .f64 => "f64".toList
  | .i64 => "i64".toList
  | .u64 => "u64".toList
  | .unit => "()".toList
  | .string => "String".toList
  | .bytes => "Vec<u8>".toList
  | .vec t => "Vec<".toList ++ t.text ++ ">".toList
  | .option t => "Option<".toList ++ t.text ++ ">".toList
  | .box t => "Box<".toList ++ t.text ++ ">".toList
  | .pair a b => "(".toList ++ a.text ++ ", ".toList ++ b.text ++ ")".toList
  | .path p => p.text

/-- `write_indentation`: lines 1760-1766. -/
def indent (n : Nat) : Str := (List.replicate n "    ".toList).flatten

/-- The line `#[derive(…)]`: line 1430 with `TRAITS_TO_DERIVE`, line 17. -/
def deriveLine (ind : Nat) : Str := indent ind ++ "#[derive(Clone, Debug)]\n".toList

/-- The text of a definition, with a line break at the end: lines 1420-1562. -/
def Item.text (ind : Nat) : Item → Str
  | .struct name members =>
    deriveLine ind ++ indent ind ++ "pub struct ".toList ++ name ++ " {\n".toList ++
    members.flatMap (fun m => indent (ind + 1) ++ "pub ".toList ++ m.1 ++ ": ".toList ++ m.2.text ++ ",\n".toList) ++
    indent ind ++ "}\n".toList
  | .enum name variants =>
    deriveLine ind ++ indent ind ++ "pub enum ".toList ++ name ++ " {\n".toList ++
    variants.flatMap (fun v => indent (ind + 1) ++ v.1 ++
      (if v.2.isEmpty then [] else "(".toList ++ joinWith ", ".toList (v.2.map TypeEx.text) ++ ")".toList) ++ ",\n".toList) ++
    indent ind ++ "}\n".toList

def RuntimeFn.text : RuntimeFn → Str
  | .zigzagEncode => "zigzag_encode".toList
  | .zigzagDecode => "zigzag_decode".toList
  | .varintSizeFromValue => "varint_size_from_value".toList
  | .fieldHeaderSize => "field_header_size".toList
  | .serializeVarint => "serialize_varint".toList
  | .serializeFieldHeader => "serialize_field_header".toList
  | .deserializeVarint => "deserialize_varint".toList
  | .deserializeFieldHeader => "deserialize_field_header".toList
  | .skip => "skip".toList
  | .finish => "finish".toList

def StdFn.text : StdFn → Str
  | .usizeFrom => "usize::from".toList
  | .u64From => "u64::from".toList
  | .u64FromLeBytes => "u64::from_le_bytes".toList
  | .f64FromLeBytes => "f64::from_le_bytes".toList
  | .some => "Some".toList
  | .ok => "Ok".toList
  | .boxNew => "Box::new".toList
  | .take => "::std::io::Read::take".toList

def Method.text : Method → Str
  | .len => "len".toList
  | .toBits => "to_bits".toList
  | .toLeBytes => "to_le_bytes".toList
  | .asBytes => "as_bytes".toList
  | .isNone => "is_none".toList
  | .unwrap => "unwrap".toList
  | .asRef => "as_ref".toList
  | .iter => "iter".toList
  | .intoIter => "into_iter".toList
  | .writeAll => "write_all".toList
  | .atlas => "atlas".toList
  | .size => "size".toList
  | .serializeWithAtlas => "serialize_with_atlas".toList
  | .into => "into".toList

def MutMethod.text : MutMethod → Str
  | .push => "push".toList
  | .getOrInsert => "get_or_insert".toList
  | .reserveExact _ => "reserve_exact".toList

def ReadFn.text : ReadFn → Str
  | .exact _ => "::std::io::Read::read_exact".toList
  | .toEnd => "::std::io::Read::read_to_end".toList
  | .toString => "::std::io::Read::read_to_string".toList

/-- Decimal digits. -/
def natText (n : Nat) : Str := Nat.toDigits 10 n

/-- An underscore after every third digit from the right; digits in reverse order. -/
def groupDigits : Str → Str
  | a :: b :: c :: d :: s => a :: b :: c :: '_' :: groupDigits (d :: s)
  | s => s

/-- Decimal digits in groups of three. -/
def groupedText (n : Nat) : Str := (groupDigits (natText n).reverse).reverse

def Lit.text : Lit → Str
  | .unit => "()".toList
  | .bool true => "true".toList
  | .bool false => "false".toList
  | .usize n => natText n ++ "_usize".toList
  | .u64 n => natText n ++ "_u64".toList
  | .f64Zero => "0.0_f64".toList
  | .newVec => "Vec::new()".toList
  | .newBytes => "vec![]".toList
  | .newString => "String::new()".toList
  | .zeros => "[0; 8]".toList

def BinOp.text : BinOp → Str
  | .add => " + ".toList
  | .mul => " * ".toList
  | .eq => " == ".toList
  | .ne => " != ".toList

def bindersText (ref : Bool) (bs : List (Option Var)) : Str :=
  if bs.isEmpty then [] else
    "(".toList ++ joinWith ", ".toList (bs.map fun b =>
      match b with
      | none => "_".toList
      | some x => (if ref then "ref ".toList else []) ++ x.text) ++ ")".toList

def Pat.text : Pat → Str
  | .int n => natText n
  | .u64 n => groupedText n ++ "_u64".toList
  | .range a b => groupedText a ++ "_u64..=".toList ++ groupedText b ++ "_u64".toList
  | .usize n => groupedText n ++ "_usize".toList
  | .wild => "_".toList
  | .ok x => "Ok(".toList ++ x.text ++ ")".toList
  | .err x => "Err(".toList ++ x.text ++ ")".toList
  | .variant ref t n bs => t ++ "::".toList ++ n ++ bindersText ref bs
  | .variants t n bs t' n' bs' =>
    "(".toList ++ t ++ "::".toList ++ n ++ bindersText false bs ++ ", ".toList ++ t' ++ "::".toList ++ n' ++
      bindersText false bs' ++ ")".toList
  | .wild₂ => "(_, _)".toList

/-- The text of an expression at a level of indentation: as an expression; as the statements of a block, with indentation and line breaks; as
the statements of a block on one line. -/
structure Printed where
  expr : Nat → Str
  lines : Nat → Str
  inline : Str

/-- An expression which is not a sequence of statements. -/
def Printed.ofExpr (f : Nat → Str) : Printed := ⟨f, fun ind => indent ind ++ f ind ++ "\n".toList, f 0⟩

/-- A sequence of statements. -/
def Printed.ofLines (f : Nat → Str) (inline : Str) : Printed := ⟨fun _ => [], f, inline⟩

/-- The end of a block. -/
def Printed.done : Printed := ⟨fun _ => [], fun _ => [], []⟩

/-- A block on several lines. -/
def Printed.block (p : Printed) (ind : Nat) : Str :=
  if (p.lines (ind + 1)).isEmpty then "{}".toList
  else "{\n".toList ++ p.lines (ind + 1) ++ indent ind ++ "}".toList

/-- Is there no semicolon after it when it is a statement? -/
def Ex.blockLike : Ex → Bool
  | .block _ => true
  | .ifThen _ _ => true
  | .ifEof _ _ => true
  | .ifSome _ _ _ _ _ => true
  | .forIn _ _ _ => true
  | .forZip _ _ _ _ _ => true
  | .loop _ => true
  | _ => false

/-- Is it a sum with one operand per line? -/
def Ex.isSumLines : Ex → Bool
  | .sumLines _ => true
  | _ => false

/-- Is it a block on several lines? -/
def Ex.isBlock : Ex → Bool
  | .block _ => true
  | _ => false

mutual
/-- The text of an expression. -/
def Ex.print : Ex → Printed
  | .var x => .ofExpr fun _ => x.text
  | .lit l => .ofExpr fun _ => l.text
  | .deref e => .ofExpr fun i => "*".toList ++ e.print.expr i
  | .ref e => .ofExpr fun i => "&".toList ++ e.print.expr i
  | .refMut e => .ofExpr fun i => "&mut ".toList ++ e.print.expr i
  | .paren e => .ofExpr fun i => "(".toList ++ e.print.expr i ++ ")".toList
  | .field e name => .ofExpr fun i => e.print.expr i ++ ".".toList ++ name
  | .fst e => .ofExpr fun i => e.print.expr i ++ ".0".toList
  | .snd e => .ofExpr fun i => e.print.expr i ++ ".1".toList
  | .asU64 e => .ofExpr fun i => e.print.expr i ++ " as u64".toList
  | .asUsize e => .ofExpr fun i => e.print.expr i ++ " as usize".toList
  | .bin op a b => .ofExpr fun i => a.print.expr i ++ op.text ++ b.print.expr i
  | .pair a b => .ofExpr fun i => "(".toList ++ a.print.expr i ++ ", ".toList ++ b.print.expr i ++ ")".toList
  | .sumLines es => .ofExpr fun i =>
    let es := es.print i
    if es.isEmpty then " 0".toList
    else "\n".toList ++ indent (i + 1) ++ joinWith ("\n".toList ++ indent (i + 1) ++ "+ ".toList) es
  | .orLines es => .ofExpr fun i => joinWith ("\n".toList ++ indent (i + 1) ++ "|| ".toList) (es.print i)
  | .units e => .ofExpr fun i => "vec![(); ".toList ++ e.print.expr i ++ "]".toList
  | .runtime supers f as => .ofExpr fun i =>
    supersText supers ++ f.text ++ "(".toList ++ joinWith ", ".toList (as.print i) ++ ")".toList
  | .std f as => .ofExpr fun i => f.text ++ "(".toList ++ joinWith ", ".toList (as.print i) ++ ")".toList
  | .method e m as => .ofExpr fun i =>
    e.print.expr i ++ ".".toList ++ m.text ++ "(".toList ++ joinWith ", ".toList (as.print i) ++ ")".toList
  | .mutate x m e => .ofExpr fun i => x.text ++ ".".toList ++ m.text ++ "(".toList ++ e.print.expr i ++ ")".toList
  | .read f r x => .ofExpr fun i =>
    f.text ++ "(".toList ++ r.print.expr i ++ ", &mut ".toList ++ x.text ++
      (if f = .exact true then "[..]".toList else []) ++ ")".toList
  | .deserialize path r => .ofExpr fun i =>
    path.text ++ "::deserialize_from_reader_ref(".toList ++ r.print.expr i ++ ")".toList
  | .deserializeSelf r => .ofExpr fun i => "Self::deserialize_from_reader_ref(".toList ++ r.print.expr i ++ ")".toList
  | .try_ e => .ofExpr fun i => e.print.expr i ++ "?".toList
  | .mapVec e x b => .ofExpr fun i =>
    e.print.expr i ++ ".map(|".toList ++ x.text ++ "| ".toList ++ b.print.expr i ++ ").collect::<Vec<_>>()".toList
  | .mapOption e x b => .ofExpr fun i =>
    e.print.expr i ++ ".map(|".toList ++ x.text ++ "| ".toList ++ b.print.expr i ++ ")".toList
  | .mapOr e x b => .ofExpr fun i =>
    e.print.expr i ++ ".map_or(0_usize, |".toList ++ x.text ++ "| ".toList ++ b.print.expr i ++ ")".toList
  | .fold e x y b => .ofExpr fun i =>
    e.print.expr i ++ ".fold(0_usize, |".toList ++ x.text ++ ", ".toList ++ y.text ++ "| ".toList ++ b.print.expr i ++
      ")".toList
  | .structLit name inits => .ofExpr fun i => name ++ " {\n".toList ++ inits.print (i + 1) ++ indent i ++ "}".toList
  | .variantLit name variant as => .ofExpr fun i =>
    name ++ "::".toList ++ variant ++
      (let as := as.print i
       if as.isEmpty then [] else "(".toList ++ joinWith ", ".toList as ++ ")".toList)
  | .brace b => .ofExpr fun _ => "{ ".toList ++ b.print.inline ++ " }".toList
  | .block b => .ofExpr b.print.block
  | .letIn isMut x e b => .ofLines
    (fun i => indent i ++ "let ".toList ++ (if isMut then "mut ".toList else []) ++ x.text ++ " = ".toList ++ e.print.expr i ++
      ";\n".toList ++ b.print.lines i)
    ("let ".toList ++ (if isMut then "mut ".toList else []) ++ x.text ++ " = ".toList ++ e.print.expr 0 ++ "; ".toList ++
      b.print.inline)
  | .letNone x ty b => .ofLines
    (fun i => indent i ++ "let mut ".toList ++ x.text ++ ": Option<".toList ++ ty.text ++ "> = None;\n".toList ++ b.print.lines i) []
  | .letPair x y e b => .ofLines
    (fun i => indent i ++ "let (".toList ++ x.text ++ ", ".toList ++ y.text ++ ") = ".toList ++ e.print.expr i ++ ";\n".toList ++
      b.print.lines i) []
  | .letFn ty e b => .ofLines
    (fun i => indent i ++ "fn deserialize_element<T: ::std::io::BufRead>(mut sub_reader: &mut T) -> ::std::io::Result<".toList ++
      ty.text ++ "> ".toList ++ e.print.block i ++ "\n".toList ++ b.print.lines i) []
  | .callFn e => .ofExpr fun i => "deserialize_element(".toList ++ e.print.expr i ++ ")".toList
  | .seq e b => .ofLines
    (fun i => indent i ++ e.print.expr i ++ (if e.blockLike then [] else ";".toList) ++ "\n".toList ++ b.print.lines i) []
  | .blank b => .ofLines (fun i => "\n".toList ++ b.print.lines i) []
  | .done => .done
  | .ifInline c a b => .ofExpr fun i =>
    "if ".toList ++ c.print.expr i ++ " { ".toList ++ a.print.inline ++ " } else { ".toList ++ b.print.inline ++ " }".toList
  | .ifElse c a b => .ofExpr fun i =>
    "if ".toList ++ c.print.expr i ++ " ".toList ++ a.print.block i ++ " else ".toList ++ b.print.block i
  | .ifThen c a => .ofExpr fun i => "if ".toList ++ c.print.expr i ++ " ".toList ++ a.print.block i
  | .ifEof x a => .ofExpr fun i =>
    "if let std::io::ErrorKind::UnexpectedEof = ".toList ++ x.text ++ ".kind() ".toList ++ a.print.block i
  | .ifSome x y e f b => .ofExpr fun i =>
    "if let (Some(".toList ++ x.text ++ "), Some(".toList ++ y.text ++ ")) = (".toList ++ e.print.expr i ++ ", ".toList ++
      f.print.expr i ++ ") ".toList ++ b.print.block i
  | .forIn x e b => .ofExpr fun i => "for ".toList ++ x.text ++ " in ".toList ++ e.print.expr i ++ " ".toList ++ b.print.block i
  | .forZip x y e f b => .ofExpr fun i =>
    "for (".toList ++ x.text ++ ", ".toList ++ y.text ++ ") in ".toList ++ e.print.expr i ++ ".zip(".toList ++ f.print.expr i ++
      ") ".toList ++ b.print.block i
  | .matchInline e arms => .ofExpr fun i =>
    "match ".toList ++ e.print.expr i ++ " { ".toList ++ joinWith ", ".toList arms.printInline ++ " }".toList
  | .matchLines e arms => .ofExpr fun i =>
    "match ".toList ++ e.print.expr i ++ " {\n".toList ++ arms.print (i + 1) ++ indent i ++ "}".toList
  | .loop b => .ofExpr fun i => "loop ".toList ++ b.print.block i
  | .break_ => .ofExpr fun _ => "break".toList
  | .return_ e => .ofExpr fun i => "return ".toList ++ e.print.expr i
  | .panic => .ofExpr fun _ => "panic!()".toList
  | .errOf x => .ofExpr fun _ => "Err(".toList ++ x.text ++ ")".toList
  | .errMissing supers => .ofExpr fun i =>
    "Err(::std::io::Error::new(\n".toList ++ indent (i + 1) ++ "::std::io::ErrorKind::InvalidData,\n".toList ++
      indent (i + 1) ++ supersText supers ++ "MISSING_FIELDS_ERROR_MESSAGE,\n".toList ++ indent i ++ "))".toList

/-- The texts of arguments. -/
def Args.print (i : Nat) : Args → List Str
  | .nil => []
  | .cons e rest => e.print.expr i :: rest.print i

/-- The members of a struct expression, one per line. -/
def Inits.print (i : Nat) : Inits → Str
  | .nil => []
  | .cons name e rest =>
    indent i ++ name ++ ":".toList ++ (if e.isSumLines then [] else " ".toList) ++ e.print.expr i ++ ",\n".toList ++ rest.print i

/-- The arms of a `match`, one per line. -/
def Arms.print (i : Nat) : Arms → Str
  | .nil => []
  | .cons p b rest =>
    indent i ++ p.text ++ " => ".toList ++ b.print.expr i ++ (if b.isBlock then [] else ",".toList) ++ "\n".toList ++ rest.print i

/-- The arms of a `match` on one line. -/
def Arms.printInline : Arms → List Str
  | .nil => []
  | .cons p b rest => (p.text ++ " => ".toList ++ b.print.expr 0) :: rest.printInline
end

/-! ### Declarations, modules, files -/

/-- Text with indentation and a line break. -/
def line (ind : Nat) (s : Str) : Str := indent ind ++ s ++ "\n".toList

/-- The code of a declaration: `write_schema`, lines 517-1408. -/
def DeclCode.text (ind : Nat) (c : DeclCode) : Str :=
  joinWith "\n".toList (c.types.map (Item.text ind) ++ [
    line ind ("impl ".toList ++ supersText ind ++ "Serialize for ".toList ++ c.name .out ++ " {".toList) ++
      line (ind + 1) "fn size(&self) -> usize {".toList ++
      traitSize.print.lines (ind + 2) ++
      line (ind + 1) "}".toList ++
      "\n".toList ++
      line (ind + 1) "fn serialize<T: ::std::io::Write>(&self, mut writer: T) -> ::std::io::Result<()> {".toList ++
      traitSerialize.print.lines (ind + 2) ++
      line (ind + 1) "}".toList ++
      line ind "}".toList,
    line ind ("impl ".toList ++ supersText ind ++ "Deserialize for ".toList ++ c.name .in_ ++ " {".toList) ++
      line (ind + 1) "fn deserialize<T: ::std::io::BufRead>(mut reader: T) -> ::std::io::Result<Self> {".toList ++
      traitDeserialize.print.lines (ind + 2) ++
      line (ind + 1) "}".toList ++
      line ind "}".toList,
    line ind ("impl From<".toList ++ c.name .out ++ "> for ".toList ++ c.name .in_ ++ " {".toList) ++
      line (ind + 1) ("fn from(message: ".toList ++ c.name .out ++ ") -> Self {".toList) ++
      c.from_.print.lines (ind + 2) ++
      line (ind + 1) "}".toList ++
      line ind "}".toList,
    line ind ("impl ".toList ++ c.name .out ++ " {".toList) ++
      line (ind + 1) ("pub fn atlas(&self) -> ".toList ++ c.name .atlas ++ " {".toList) ++
      c.atlas.print.lines (ind + 2) ++
      line (ind + 1) "}".toList ++
      "\n".toList ++
      line (ind + 1) "pub fn serialize_with_atlas<T: ::std::io::Write>(".toList ++
      line (ind + 2) "&self,".toList ++
      line (ind + 2) "writer: &mut T,".toList ++
      line (ind + 2) ("atlas: &".toList ++ c.name .atlas ++ ",".toList) ++
      line (ind + 1) ") -> ::std::io::Result<()> {".toList ++
      c.serializeWithAtlas.print.lines (ind + 2) ++
      line (ind + 1) "}".toList ++
      line ind "}".toList,
    line ind ("impl ".toList ++ c.name .in_ ++ " {".toList) ++
      line (ind + 1) "pub fn deserialize_from_reader_ref<T: ::std::io::BufRead>(".toList ++
      line (ind + 2) "reader: &mut T,".toList ++
      line (ind + 1) ") -> ::std::io::Result<Self> {".toList ++
      c.deserializeFromReaderRef.print.lines (ind + 2) ++
      line (ind + 1) "}".toList ++
      line ind "}".toList,
    line ind ("impl ".toList ++ c.name .atlas ++ " {".toList) ++
      line (ind + 1) "pub fn size(&self) -> usize {".toList ++
      c.size.print.lines (ind + 2) ++
      line (ind + 1) "}".toList ++
      line ind "}".toList])

mutual
/-- `write_module_contents` and `write_schema`: lines 476-517, 1410-1416. -/
def moduleText (T : CharTable) (ind : Nat) (ns : List Identifier) : Module → Str
  | .mk children schema =>
    modulesText T ind ns (!schema.declarations.isEmpty) children ++
    joinWith "\n".toList (schema.declarations.map (fun d => (declCode T schema ⟨ns⟩ d).text ind))

/-- The loop of `write_module_contents` over the children, and `write_module`: lines 446-473, 484-490. -/
def modulesText (T : CharTable) (ind : Nat) (ns : List Identifier) (more : Bool) : Modules → Str
  | .nil => []
  | .cons name child rest =>
    line ind ("pub mod ".toList ++ rustSnake name ++ " {".toList) ++
    moduleText T (ind + 1) (ns ++ [name]) child ++
    line ind "}".toList ++
    (match rest with
     | .nil => if more then "\n".toList else []
     | .cons _ _ _ => "\n".toList) ++
    modulesText T ind ns more rest
end

end Typical.Gen

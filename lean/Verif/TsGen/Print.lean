import Verif.TsGen.Runtime
import Verif.Gen.RustFile

/-!
# The text of generated TypeScript code

The text of the syntax of `Verif.TsGen.Ast`, and of whole files: `generate`, `write_module`, `write_module_contents`, `write_schema` of
`/repo/src/generate_typescript.rs`.
-/

namespace Typical.TsGen

/-- The name of a variable. -/
def TVar.text : TVar → Str
  | .size => "size".toList
  | .field n => '$' :: n
  | .payloadAtlas => "payloadAtlas".toList
  | .payload => "payload".toList
  | .payloadSize => "payloadSize".toList
  | .message => "message".toList
  | .fallbackAtlas => "fallbackAtlas".toList
  | .dataView => "dataView".toList
  | .offset => "offset".toList
  | .atlas => "atlas".toList
  | .dataViewAlias => "dataViewAlias".toList
  | .index => "index".toList
  | .e => "e".toList
  | .oldOffset => "oldOffset".toList
  | .newOffset => "newOffset".toList
  | .elements => "elements".toList
  | .oldPayload => "oldPayload".toList
  | .oldPayloadAtlas => "oldPayloadAtlas".toList
  | .i => "i".toList
  | .arraySize => "arraySize".toList
  | .zigzag => "zigzag".toList
  | .varint => "varint".toList
  | .sourceBuffer => "sourceBuffer".toList
  | .targetBuffer => "targetBuffer".toList
  | .payloadAlias => "payloadAlias".toList
  | .payloadSizeBig => "payloadSizeBig".toList
  | .newPayload => "newPayload".toList
  | .bytes => "bytes".toList
  | .messageAtlas => "messageAtlas".toList
  | .arrayBuffer => "arrayBuffer".toList
  | .x => "x".toList
  | .value => "value".toList
  | .twice => "twice".toList
  | .half => "half".toList
  | .firstByte => "firstByte".toList
  | .trailingZeros => "trailingZeros".toList
  | .sizeMinusOne => "sizeMinusOne".toList
  | .offsetPlusOne => "offsetPlusOne".toList
  | .remainingBytesValue => "remainingBytesValue".toList
  | .integerEncoded => "integerEncoded".toList
  | .tag => "tag".toList
  | .newNewOffset => "newNewOffset".toList
  | .sizeValue => "sizeValue".toList

def RuntimeFn.text : RuntimeFn → Str
  | .unreachable => "unreachable".toList
  | .zigzagEncode => "zigzagEncode".toList
  | .zigzagDecode => "zigzagDecode".toList
  | .varintSizeFromValue => "varintSizeFromValue".toList
  | .varintSizeFromFirstByte => "varintSizeFromFirstByte".toList
  | .serializeVarint => "serializeVarint".toList
  | .deserializeVarint => "deserializeVarint".toList
  | .fieldHeaderSize => "fieldHeaderSize".toList
  | .serializeFieldHeader => "serializeFieldHeader".toList
  | .deserializeFieldHeader => "deserializeFieldHeader".toList

def Fn.text : Fn → Str
  | .size => "size".toList
  | .serialize => "serialize".toList
  | .deserialize => "deserialize".toList
  | .atlas => "atlas".toList
  | .serializeWithAtlasUnsafe => "serializeWithAtlasUnsafe".toList
  | .deserializeUnsafe => "deserializeUnsafe".toList

def Glob.text : Glob → Str
  | .dataView64 => "dataView64".toList
  | .textEncoder => "textEncoder".toList
  | .textDecoder => "textDecoder".toList

def Builtin.text : Builtin → Str
  | .dataView => "DataView".toList
  | .uint8Array => "Uint8Array".toList
  | .arrayBuffer => "ArrayBuffer".toList
  | .number => "Number".toList
  | .bigInt => "BigInt".toList
  | .objectIs => "Object.is".toList
  | .array => "Array".toList
  | .rangeError => "RangeError".toList

def Method.text : Method → Str
  | .getUint8 => "getUint8".toList
  | .getBigUint64 => "getBigUint64".toList
  | .getFloat64 => "getFloat64".toList
  | .setUint8 => "setUint8".toList
  | .setUint16 => "setUint16".toList
  | .setUint32 => "setUint32".toList
  | .setBigUint64 => "setBigUint64".toList
  | .setFloat64 => "setFloat64".toList
  | .slice => "slice".toList
  | .set => "set".toList
  | .push => "push".toList
  | .fill => "fill".toList
  | .encode => "encode".toList
  | .decode => "decode".toList

def BinOp.text : BinOp → Str
  | .add => "+".toList
  | .sub => "-".toList
  | .mul => "*".toList
  | .rem => "%".toList
  | .shl => "<<".toList
  | .shr => ">>".toList
  | .band => "&".toList
  | .bor => "|".toList
  | .lt => "<".toList
  | .gt => ">".toList
  | .same => "===".toList
  | .differ => "!==".toList

/-- Binary digits, at least `k`. -/
def binaryDigits : Nat → Nat → Str
  | 0, _ => []
  | k + 1, n => binaryDigits k (n / 2) ++ [if n % 2 = 0 then '0' else '1']

def Lit.text : Lit → Str
  | .undefined => "undefined".toList
  | .null => "null".toList
  | .bool true => "true".toList
  | .bool false => "false".toList
  | .num n => Gen.natText n
  | .binary n => "0b".toList ++ binaryDigits 4 (n / 16) ++ "_".toList ++ binaryDigits 4 n
  | .big n => Gen.natText n ++ "n".toList
  | .bigGrouped n => Gen.groupedText n ++ "n".toList

/-- `(a, b)`, or one per line. `l`: the texts at the indentation of the lines. -/
def listText (opening closing : Str) (lines : Bool) (ind : Nat) (l : List Str) : Str :=
  if lines then opening ++ "\n".toList ++ l.flatMap (fun e => indent (ind + 1) ++ e ++ ",\n".toList) ++ indent ind ++ closing
  else opening ++ joinWith ", ".toList l ++ closing

/-- The indentation of the elements. -/
def inner (lines : Bool) (ind : Nat) : Nat := if lines then ind + 1 else ind

mutual
/-- The text of an expression; `ind`: the indentation of the line in which it begins. -/
def Ex.text (ind : Nat) : Ex → Str
  | .var x => x.text
  | .lit l => l.text
  | .glob g => g.text
  | .paren lines e =>
    if lines then "(\n".toList ++ indent (ind + 1) ++ e.text (ind + 1) ++ "\n".toList ++ indent ind ++ ")".toList
    else "(".toList ++ e.text ind ++ ")".toList
  | .neg e => "-".toList ++ e.text ind
  | .negBig n => "-".toList ++ (Lit.big n).text
  | .as_ e type => e.text ind ++ " as ".toList ++ type
  | .prop e name => e.text ind ++ ".".toList ++ name
  | .index e i => e.text ind ++ "[".toList ++ i.text ind ++ "]".toList
  | .bin op a b => a.text ind ++ " ".toList ++ op.text ++ " ".toList ++ b.text ind
  | .binLines extra op a b =>
    a.text ind ++ " ".toList ++ op.text ++ "\n".toList ++ indent (ind + extra) ++ b.text (ind + extra)
  | .and a b => a.text ind ++ " && ".toList ++ b.text ind
  | .or a b => a.text ind ++ " || ".toList ++ b.text ind
  | .cond c a b => c.text ind ++ " ? ".toList ++ a.text ind ++ " : ".toList ++ b.text ind
  | .has name e => "'".toList ++ name ++ "' in ".toList ++ e.text ind
  | .isA e b => e.text ind ++ " instanceof ".toList ++ b.text
  | .newArray => "[]".toList
  | .tuple lines es => listText "[".toList "]".toList lines ind (es.texts (inner lines ind))
  | .objInline inits => "{ ".toList ++ joinWith ", ".toList (inits.texts ind) ++ " }".toList
  | .objLines inits => listText "{".toList "}".toList true ind (inits.texts (ind + 1))
  | .runtime f es => f.text ++ listText "(".toList ")".toList false ind (es.texts ind)
  | .path p f es =>
    p.flatMap (fun m => m ++ ".".toList) ++ f.text ++ listText "(".toList ")".toList false ind (es.texts ind)
  | .own lines f es => f.text ++ listText "(".toList ")".toList lines ind (es.texts (inner lines ind))
  | .new lines b es => "new ".toList ++ b.text ++ listText "(".toList ")".toList lines ind (es.texts (inner lines ind))
  | .builtin b es => b.text ++ listText "(".toList ")".toList false ind (es.texts ind)
  | .method lines e m es =>
    e.text ind ++ ".".toList ++ m.text ++ listText "(".toList ")".toList lines ind (es.texts (inner lines ind))

/-- The texts of arguments. -/
def Args.texts (ind : Nat) : Args → List Str
  | .nil => []
  | .cons e rest => e.text ind :: rest.texts ind

/-- The texts of properties. -/
def Inits.texts (ind : Nat) : Inits → List Str
  | .nil => []
  | .cons name e rest => (name ++ ": ".toList ++ e.text ind) :: rest.texts ind
  | .short x rest => x.text :: rest.texts ind
  | .text name t rest => (name ++ ": '".toList ++ t ++ "'".toList) :: rest.texts ind
end

/-- A line of text. -/
def line (ind : Nat) (s : Str) : Str := indent ind ++ s ++ "\n".toList

/-- `a, b` -/
def varsText (vs : List TVar) : Str := joinWith ", ".toList (vs.map TVar.text)

/-- The type in a declaration. -/
def annotation : Option Str → Str
  | none => []
  | some t => ": ".toList ++ t

mutual
/-- The lines of a statement. -/
def Stm.text (ind : Nat) : Stm → Str
  | .letVars vs => line ind ("let ".toList ++ varsText vs ++ ";".toList)
  | .let_ x t e => line ind ("let ".toList ++ x.text ++ annotation t ++ " = ".toList ++ e.text ind ++ ";".toList)
  | .const x e => line ind ("const ".toList ++ x.text ++ " = ".toList ++ e.text ind ++ ";".toList)
  | .constTuple vs e => line ind ("const [".toList ++ varsText vs ++ "] = ".toList ++ e.text ind ++ ";".toList)
  | .assignTuple vs e => line ind ("[".toList ++ varsText vs ++ "] = ".toList ++ e.text ind ++ ";".toList)
  | .assign x e => line ind (x.text ++ " = ".toList ++ e.text ind ++ ";".toList)
  | .update x op e => line ind (x.text ++ " ".toList ++ op.text ++ "= ".toList ++ e.text ind ++ ";".toList)
  | .expr e => line ind (e.text ind ++ ";".toList)
  | .block b => line ind "{".toList ++ b.text (ind + 1) ++ line ind "}".toList
  | .if_ c a b => indent ind ++ "if (".toList ++ c.text ind ++ ") {\n".toList ++ a.text (ind + 1) ++ b.text ind
  | .ifAny cs a =>
    indent ind ++ "if (".toList ++
      joinWith ("\n".toList ++ indent (ind + 1) ++ "|| ".toList) (cs.texts (ind + 1)) ++ ") {\n".toList ++ a.text (ind + 1) ++ line ind "}".toList
  | .for_ e b =>
    line ind ("for (let i = 0; i < ".toList ++ e.text ind ++ "; i += 1) {".toList) ++ b.text (ind + 1) ++ line ind "}".toList
  | .while_ c b => line ind ("while (".toList ++ c.text ind ++ ") {".toList) ++ b.text (ind + 1) ++ line ind "}".toList
  | .try_ a b =>
    line ind "try {".toList ++ a.text (ind + 1) ++ line ind "} catch (e) {".toList ++ b.text (ind + 1) ++ line ind "}".toList
  | .switch e cases => line ind ("switch (".toList ++ e.text ind ++ ") {".toList) ++ cases.text (ind + 1) ++ line ind "}".toList
  | .return_ e => line ind ("return ".toList ++ e.text ind ++ ";".toList)
  | .throw_ e => line ind ("throw ".toList ++ e.text ind ++ ";".toList)
  | .throwMissing => line ind "throw new Error(missingFieldsErrorMessage);".toList
  | .break_ => line ind "break;".toList
  | .blank => "\n".toList

/-- The lines of statements. -/
def Stms.text (ind : Nat) : Stms → Str
  | .nil => []
  | .cons s rest => s.text ind ++ rest.text ind

/-- The rest of an `if`, from the brace which ends the first block. -/
def Else.text (ind : Nat) : Else → Str
  | .none => line ind "}".toList
  | .else_ b => line ind "} else {".toList ++ b.text (ind + 1) ++ line ind "}".toList
  | .elseIf c a b =>
    indent ind ++ "} else if (".toList ++ c.text ind ++ ") {\n".toList ++ a.text (ind + 1) ++ b.text ind

/-- The cases of a `switch`. -/
def Cases.text (ind : Nat) : Cases → Str
  | .nil => []
  | .case l brace b rest =>
    line ind ("case ".toList ++ l.text ++ (if brace then ": {".toList else ":".toList)) ++ b.text (ind + 1) ++
      (if brace then line ind "}".toList else []) ++ rest.text ind
  | .default_ brace b rest =>
    line ind (if brace then "default: {".toList else "default:".toList) ++ b.text (ind + 1) ++
      (if brace then line ind "}".toList else []) ++ rest.text ind
end

/-! ### Declarations -/

/-- The signatures of the functions of a declaration: lines 646-652, 740-758, 820-826, 1465-1467, 1488-1490, 1523-1529. -/
def DeclCode.signature (d : DeclCode) (ind : Nat) : Fn → Str
  | .size => "size(message: ".toList ++ d.typeName .out ++ "): number".toList
  | .serialize => "serialize(message: ".toList ++ d.typeName .out ++ "): ArrayBuffer".toList
  | .deserialize => "deserialize(bytes: Deserializable): ".toList ++ d.typeName .in_ ++ " | Error".toList
  | .atlas => "atlas(message: ".toList ++ d.typeName .out ++ "): ".toList ++ d.typeName .atlas
  | .serializeWithAtlasUnsafe =>
    "serializeWithAtlasUnsafe(\n".toList ++ line (ind + 1) "dataView: DataView,".toList ++ line (ind + 1) "offset: number,".toList ++
      line (ind + 1) ("message: ".toList ++ d.typeName .out ++ ",".toList) ++
      line (ind + 1) ("atlas: ".toList ++ d.typeName .atlas ++ ",".toList) ++ indent ind ++ "): number".toList
  | .deserializeUnsafe => "deserializeUnsafe(dataView: DataView): ".toList ++ d.typeName .in_

/-- The text of a function of a declaration. -/
def DeclCode.fnText (d : DeclCode) (ind : Nat) (f : Fn) : Str :=
  line ind ("export function ".toList ++ d.signature ind f ++ " {".toList) ++ (d.body f).text (ind + 1) ++ line ind "}".toList

/-- The text of a declaration: one iteration of the loop of lines 578-1324. -/
def DeclCode.text (d : DeclCode) (ind : Nat) : Str :=
  (d.types ind).flatMap (· ++ "\n".toList) ++
  line ind ("export namespace ".toList ++ d.name ++ " {".toList) ++
  joinWith "\n".toList ([Fn.size, .serialize, .deserialize, .atlas, .serializeWithAtlasUnsafe, .deserializeUnsafe].map
    (d.fnText (ind + 1))) ++
  line ind "}".toList

/-! ### Files -/

mutual
/-- `write_module_contents`: lines 539-560. -/
def moduleText (T : CharTable) (ind : Nat) (ns : List Identifier) : Module → Str
  | .mk children schema =>
    modulesText T ind ns (!schema.declarations.isEmpty) children ++
    joinWith "\n".toList (schema.declarations.map (fun d => (declCode T schema ⟨ns⟩ d).text ind))

/-- The loop of `write_module_contents` over the children, and `write_module`: lines 509-536, 549-555. -/
def modulesText (T : CharTable) (ind : Nat) (ns : List Identifier) (more : Bool) : Modules → Str
  | .nil => []
  | .cons name child rest =>
    line ind ("export namespace ".toList ++ tsPascal T name none ++ " {".toList) ++
    moduleText T (ind + 1) (ns ++ [name]) child ++
    line ind "}".toList ++
    (match rest with
     | .nil => if more then "\n".toList else []
     | .cons _ _ _ => "\n".toList) ++
    modulesText T ind ns more rest
end

/-- The fixed text before the functions, after the version: lines 151-170. -/
def headText : String := ".
// Visit https://github.com/stepchowfun/typical for more information.

/* eslint-disable */

export type Deserializable =
  | ArrayBuffer
  | DataView
  | Int8Array
  | Uint8Array
  | Uint8ClampedArray
  | Int16Array
  | Uint16Array
  | Int32Array
  | Uint32Array
  | Float32Array
  | Float64Array
  | BigInt64Array
  | BigUint64Array;

"

/-- The signatures of the functions at the top: the lines cited at `RuntimeFn.body`. -/
def RuntimeFn.signature : RuntimeFn → String
  | .unreachable => "export function unreachable(x: never): never"
  | .zigzagEncode => "function zigzagEncode(value: bigint): bigint"
  | .zigzagDecode => "function zigzagDecode(value: bigint): bigint"
  | .varintSizeFromValue => "function varintSizeFromValue(value: bigint): number"
  | .varintSizeFromFirstByte => "function varintSizeFromFirstByte(firstByte: number): number"
  | .serializeVarint => "function serializeVarint(
  dataView: DataView,
  offset: number,
  value: bigint,
): number"
  | .deserializeVarint => "function deserializeVarint(
  dataView: DataView,
  offset: number,
): [number, bigint]"
  | .fieldHeaderSize => "function fieldHeaderSize(
  index: bigint,
  payloadSize: number,
  integerEncoded: boolean,
): number"
  | .serializeFieldHeader => "function serializeFieldHeader(
  dataView: DataView,
  offset: number,
  index: bigint,
  payloadSize: number,
  integerEncoded: boolean,
): number"
  | .deserializeFieldHeader => "function deserializeFieldHeader(
  dataView: DataView,
  offset: number,
): [number, bigint, number]"

/-- The functions at the top, in the order of the file. -/
def runtimeFns : List RuntimeFn :=
  [.unreachable, .zigzagEncode, .zigzagDecode, .varintSizeFromValue, .varintSizeFromFirstByte, .serializeVarint, .deserializeVarint,
    .fieldHeaderSize, .serializeFieldHeader, .deserializeFieldHeader]

/-- The text of a function at the top, with an empty line. -/
def RuntimeFn.defText (f : RuntimeFn) : Str :=
  f.signature.toList ++ " {\n".toList ++ f.body.text 1 ++ "}\n\n".toList

/-- The constants: lines 443-446. -/
def constantsText : String := "const missingFieldsErrorMessage = 'Struct missing one or more required field(s).';
const dataView64 = new DataView(new ArrayBuffer(8));
const textEncoder = new TextEncoder();
const textDecoder = new TextDecoder();

"

/-- `generate`: lines 124-467. -/
def tsText (T : CharTable) (version : Str) (S : Schemas) : Str :=
  if Gen.Module.nonEmpty (buildTree S) then
    "// This file was automatically generated by Typical ".toList ++ version ++ headText.toList ++
      runtimeFns.flatMap RuntimeFn.defText ++ constantsText.toList ++ moduleText T 0 [] (buildTree S)
  else []

end Typical.TsGen

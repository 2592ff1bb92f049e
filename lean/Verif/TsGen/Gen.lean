import Verif.TsGen.Ast
import Verif.Front.Modules

/-!
# Model of `/repo/src/generate_typescript.rs`: the code written for declarations

Function by function; the text is produced by `Verif.TsGen.Print`.
-/

namespace Typical.TsGen

/-! ### Abbreviations -/

/-- A variable. -/
abbrev v (x : TVar) : Ex := .var x

/-- A number. -/
abbrev num (n : Nat) : Ex := .lit (.num n)

/-- Arguments. -/
abbrev args (l : List Ex) : Args := Args.ofList l

/-- Statements. -/
abbrev stms (l : List Stm) : Stms := Stms.ofList l

/-- `a + b` -/
abbrev add (a b : Ex) : Ex := .bin .add a b

/-- `e.byteLength`, `e.byteOffset`, `e.buffer`, `e.length`, `e.$size`, `e.$elements`, `e.$fallback` -/
abbrev Ex.byteLength (e : Ex) : Ex := .prop e "byteLength".toList
abbrev Ex.byteOffset (e : Ex) : Ex := .prop e "byteOffset".toList
abbrev Ex.buffer (e : Ex) : Ex := .prop e "buffer".toList
abbrev Ex.length (e : Ex) : Ex := .prop e "length".toList
abbrev Ex.size (e : Ex) : Ex := .prop e "$size".toList
abbrev Ex.elements (e : Ex) : Ex := .prop e "$elements".toList
abbrev Ex.fallback (e : Ex) : Ex := .prop e "$fallback".toList

/-- `v += e;` -/
abbrev Stm.increase (x : TVar) (e : Ex) : Stm := .update x .add e

/-! ### Types -/

/-- The namespace in which a named type is looked up: lines 1656-1661. (The imports of the file were resolved by the loader.) -/
def targetNamespace (s : Schema) (ns : Namespace) : Option Identifier → Namespace
  | none => ns
  | some i =>
    match lookupIdent i s.imports with
    | some e => e.namespace_.getD ⟨[]⟩
    | none => ⟨[]⟩

/-- The names of the namespaces which `write_custom_type` writes: lines 1656-1666. -/
def namespacePath (T : CharTable) (s : Schema) (ns : Namespace) (import_ : Option Identifier) : List Str :=
  (targetNamespace s ns import_).components.map (fun i => tsPascal T i none)

/-- `write_custom_type` without a direction: lines 1648-1670. The path of the namespace of a declaration. -/
def customPath (T : CharTable) (s : Schema) (ns : Namespace) (import_ : Option Identifier) (name : Identifier) : List Str :=
  namespacePath T s ns import_ ++ [tsPascal T name none]

/-- The text of `write_custom_type` with a direction: lines 1648-1670. -/
def customText (T : CharTable) (s : Schema) (ns : Namespace) (import_ : Option Identifier) (name : Identifier) (d : NameSuffix) : Str :=
  (namespacePath T s ns import_).flatMap (fun m => m ++ ".".toList) ++ tsPascal T name (some d)

/-- Is the size of an element written before each element of an array of this type? The first case of, for example, lines 1734-1737. -/
def sized : TypeVariant → Bool
  | .array _ _ => true
  | .bytes => true
  | .custom _ _ => true
  | .string => true
  | _ => false

/-- `write_type`: lines 1558-1645. -/
def typeText (T : CharTable) (s : Schema) (ns : Namespace) (d : NameSuffix) : TypeVariant → Str
  | .array _ t =>
    if d = .atlas then
      if sized t then "{ $size: number; $elements: ".toList ++ typeText T s ns d t ++ "[] }".toList else "number".toList
    else typeText T s ns d t ++ "[]".toList
  | .bool => if d = .atlas then "number".toList else "boolean".toList
  | .bytes => if d = .atlas then "number".toList else "ArrayBuffer".toList
  | .custom i n => customText T s ns i n d
  | .f64 => "number".toList
  | .s64 => if d = .atlas then "number".toList else "bigint".toList
  | .u64 => if d = .atlas then "number".toList else "bigint".toList
  | .string => if d = .atlas then "Uint8Array".toList else "string".toList
  | .unit => if d = .atlas then "number".toList else "null".toList

/-- `write_indentation`: lines 1710-1716. -/
def indent (n : Nat) : Str := (List.replicate n "  ".toList).flatten

/-- Can a property of a struct be `undefined`? Lines 1356-1367. -/
def memberOptional (d : NameSuffix) : Rule → Bool
  | .asymmetric => decide (d = .in_)
  | .optional => true
  | .required => false

/-- `write_struct`: lines 1330-1376. -/
def structText (T : CharTable) (s : Schema) (ns : Namespace) (decl : Declaration) (ind : Nat) (d : NameSuffix) : Str :=
  indent ind ++ "export type ".toList ++ tsPascal T decl.name (some d) ++ " = {\n".toList ++
  (if d = .atlas then indent (ind + 1) ++ "$size: number;\n".toList else []) ++
  decl.fields.flatMap (fun f => indent (ind + 1) ++ tsCamel T f.name ++ ": ".toList ++ typeText T s ns d f.type.variant ++
    (if memberOptional d f.rule then " | undefined".toList else []) ++ ";\n".toList) ++
  indent ind ++ "};\n".toList

/-- Does a variant of a choice have a fallback? Lines 1421-1428. -/
def variantFallback (d : NameSuffix) : Rule → Bool
  | .asymmetric => decide (d ≠ .in_)
  | .optional => true
  | .required => false

/-- `write_choice`: lines 1379-1455. -/
def choiceText (T : CharTable) (s : Schema) (ns : Namespace) (decl : Declaration) (ind : Nat) (d : NameSuffix) : Str :=
  indent ind ++ "export type ".toList ++ tsPascal T decl.name (some d) ++ " =".toList ++
  decl.fields.flatMap (fun f => "\n".toList ++ indent (ind + 1) ++ "| { ".toList ++
    (match d with
      | .atlas => "$size: number; ".toList
      | .in_ => "$field: '".toList ++ tsCamel T f.name ++ "'; ".toList
      | .out => []) ++
    tsCamel T f.name ++ ": ".toList ++ typeText T s ns d f.type.variant ++
    (if variantFallback d f.rule then "; $fallback: ".toList ++ tsPascal T decl.name (some d) else []) ++ " }".toList) ++
  (if d = .in_ ∧ decl.fields.length = 1 then "\n".toList ++ indent (ind + 1) ++ "| { $field: never }".toList else []) ++
  (if decl.fields.isEmpty then " never".toList else []) ++ ";\n".toList

/-! ### Atlases -/

/-- `payloadAtlas = e;` -/
abbrev setAtlas (e : Ex) : Stm := .assign .payloadAtlas e

/-- `varintSizeFromValue(e)` -/
abbrev varintSize (e : Ex) : Ex := .runtime .varintSizeFromValue (args [e])

/-- The three cases of the size of an integer field: lines 1888-1901 and 1914-1929. -/
def atlasInteger (x : TVar) : Stm :=
  .if_ (.bin .same (v x) (.lit (.big 0))) (stms [setAtlas (num 0)])
    (.elseIf (.bin .lt (v x) (.lit (.bigGrouped 567382630219904))) (stms [setAtlas (varintSize (v x))])
      (.else_ (stms [setAtlas (num 8)])))

/-- `write_atlas_calculation` for `U64`: lines 1911-1931. -/
def atlasU64 (isField : Bool) : Stm :=
  if isField then atlasInteger .payload else setAtlas (varintSize (v .payload))

/-- `write_atlas_lookup`: lines 1944-1973. -/
def atlasLookup : TypeVariant → Ex
  | .array _ t => if sized t then (v .payloadAtlas).size else v .payloadAtlas
  | .custom _ _ => (Ex.paren false (.as_ (v .payloadAtlas) "{ $size: number }".toList)).size
  | .string => (v .payloadAtlas).byteLength
  | _ => v .payloadAtlas

/-- `write_atlas_calculation`: lines 1724-1938. -/
def atlasCalculation (T : CharTable) (s : Schema) (ns : Namespace) (isField : Bool) : TypeVariant → Stm
  | .array _ t =>
    if sized t then
      .block (stms [
        .let_ .size none (num 0),
        .let_ .elements none .newArray,
        .const .oldPayload (v .payload),
        .for_ (v .oldPayload).length (stms [
          .const .payload (.index (v .oldPayload) (v .i)),
          .letVars [.payloadAtlas],
          atlasCalculation T s ns false t,
          .expr (.method false (v .elements) .push (args [v .payloadAtlas])),
          .const .payloadSize (atlasLookup t),
          .increase .size (add (varintSize (.builtin .bigInt (args [v .payloadSize]))) (v .payloadSize))]),
        setAtlas (.objInline (.cons "$size".toList (v .size) (.cons "$elements".toList (v .elements) .nil)))])
    else if t = .unit then
      .block (stms [
        .const .oldPayload (v .payload),
        .block (stms [
          .const .payload (.builtin .bigInt (args [(v .oldPayload).length])),
          atlasU64 isField])])
    else if t = .f64 then
      setAtlas (.bin .mul (num 8) (v .payload).length)
    else
      .block (stms [
        .let_ .arraySize none (num 0),
        .const .oldPayload (v .payload),
        .for_ (v .oldPayload).length (stms [
          .const .payload (.index (v .oldPayload) (v .i)),
          .let_ .payloadAtlas none (num 0),
          atlasCalculation T s ns false t,
          .increase .arraySize (v .payloadAtlas)]),
        setAtlas (v .arraySize)])
  | .bool =>
    if isField then .if_ (v .payload) (stms [setAtlas (num 1)]) (.else_ (stms [setAtlas (num 0)])) else setAtlas (num 1)
  | .bytes => setAtlas (v .payload).byteLength
  | .string => setAtlas (.method false (.glob .textEncoder) .encode (args [v .payload]))
  | .custom i n => setAtlas (.path (customPath T s ns i n) .atlas (args [v .payload]))
  | .f64 =>
    if isField then
      .if_ (.builtin .objectIs (args [v .payload, num 0])) (stms [setAtlas (num 0)]) (.else_ (stms [setAtlas (num 8)]))
    else setAtlas (num 8)
  | .s64 =>
    if isField then
      .block (stms [.const .zigzag (.runtime .zigzagEncode (args [v .payload])), atlasInteger .zigzag])
    else setAtlas (varintSize (.runtime .zigzagEncode (args [v .payload])))
  | .u64 => atlasU64 isField
  | .unit => setAtlas (num 0)

/-- `integer_encoded`: lines 2536-2546. -/
def integerEncoded : TypeVariant → Bool
  | .bool => true
  | .s64 => true
  | .u64 => true
  | _ => false

/-! ### Serialization -/

/-- `offset = e;` -/
abbrev setOffset (e : Ex) : Stm := .assign .offset e

/-- `offset += e;` -/
abbrev advance (e : Ex) : Stm := .increase .offset e

/-- `write_u64_serialization_invocation`: lines 2171-2198. -/
def u64Serialization (isField : Bool) : Stm :=
  if isField then
    .if_ (.bin .gt (v .varint) (.lit (.bigGrouped 567382630219903)))
      (stms [.expr (.method false (v .dataView) .setBigUint64 (args [v .offset, v .varint, .lit (.bool true)])), advance (num 8)])
      (.elseIf (.bin .differ (v .varint) (.lit (.big 0)))
        (stms [setOffset (.runtime .serializeVarint (args [v .dataView, v .offset, v .varint]))]) .none)
  else setOffset (.runtime .serializeVarint (args [v .dataView, v .offset, v .varint]))

/-- `const varint = e;` and its serialization, in a block. -/
def varintBlock (isField : Bool) (e : Ex) : Stms := stms [.block (stms [.const .varint e, u64Serialization isField])]

/-- `const targetBuffer = new Uint8Array(dataView.buffer, dataView.byteOffset, dataView.byteLength);`: lines 2078-2086, 2124-2132. -/
def targetBuffer : Stm :=
  .const .targetBuffer (.new true .uint8Array (args [(v .dataView).buffer, (v .dataView).byteOffset, (v .dataView).byteLength]))

/-- The statements which set a float: lines 2106-2113. -/
def setFloat : Stms :=
  stms [.expr (.method false (v .dataView) .setFloat64 (args [v .offset, v .payload, .lit (.bool true)])), advance (num 8)]

/-- `write_serialization_invocation`: lines 1987-2163. -/
def serialization (T : CharTable) (s : Schema) (ns : Namespace) (isField : Bool) : TypeVariant → Stms
  | .array _ t =>
    if sized t then
      stms [.block (stms [
        .const .oldPayload (v .payload),
        .const .oldPayloadAtlas (v .payloadAtlas),
        .for_ (v .oldPayload).length (stms [
          .const .payload (.index (v .oldPayload) (v .i)),
          .const .payloadAtlas (.index (v .oldPayloadAtlas).elements (v .i)),
          setOffset (.runtime .serializeVarint (args [v .dataView, v .offset, .builtin .bigInt (args [atlasLookup t])]))] ++
          serialization T s ns false t)])]
    else if t = .unit then varintBlock isField (.builtin .bigInt (args [(v .payload).length]))
    else
      stms [.block (stms [
        .const .oldPayload (v .payload),
        .for_ (v .oldPayload).length (stms [.const .payload (.index (v .oldPayload) (v .i))] ++ serialization T s ns false t)])]
  | .bool => varintBlock isField (.cond (v .payload) (.lit (.big 1)) (.lit (.big 0)))
  | .bytes =>
    stms [.block (stms [
      .const .sourceBuffer (.new false .uint8Array (args [v .payload])),
      targetBuffer,
      .expr (.method false (v .targetBuffer) .set (args [v .sourceBuffer, v .offset])),
      advance (v .sourceBuffer).byteLength])]
  | .custom i n =>
    stms [setOffset (.path (customPath T s ns i n) .serializeWithAtlasUnsafe
      (args [v .dataView, v .offset, v .payload, v .payloadAtlas]))]
  | .f64 =>
    if isField then stms [.if_ (.bin .differ (v .payloadAtlas) (num 0)) setFloat .none] else setFloat
  | .s64 => varintBlock isField (.runtime .zigzagEncode (args [v .payload]))
  | .string =>
    stms [.block (stms [
      targetBuffer,
      .expr (.method false (v .targetBuffer) .set (args [v .payloadAtlas, v .offset])),
      advance (v .payloadAtlas).byteLength])]
  | .u64 => varintBlock isField (v .payload)
  | .unit => .nil

/-! ### Deserialization -/

/-- `if (e instanceof RangeError) { break; } else { throw e; }`: for example, lines 866-876. -/
def breakAtEnd : Stms :=
  stms [.if_ (.isA (v .e) .rangeError) (stms [.break_]) (.else_ (stms [.throw_ (v .e)]))]

/-- `[offset, x] = deserializeVarint(view, offset);` -/
def readVarint (x view : TVar) : Stm := .assignTuple [.offset, x] (.runtime .deserializeVarint (args [v view, v .offset]))

/-- `write_deserialization_invocation` for `U64`: lines 2486-2527. -/
def u64Deserialization (isField : Bool) : Stms :=
  stms [
    .letVars [.payload],
    if isField then
      .block (stms [.switch (v .payloadSize)
        (.case (.num 0) false (stms [.assign .payload (.lit (.big 0)), .break_])
        (.case (.num 8) false (stms [
          .assign .payload (.method false (v .dataView) .getBigUint64 (args [v .offset, .lit (.bool true)])),
          advance (num 8),
          .break_])
        (.default_ false (stms [readVarint .payload .dataView, .break_]) .nil)))])
    else readVarint .payload .dataView]

/-- A value computed from the integer which is read: lines 2348-2403. -/
def viaInteger (isField : Bool) (e : Ex) : Stms :=
  stms [
    .letVars [.payload],
    .block (stms [
      .letVars [.newPayload],
      .block (u64Deserialization isField ++ stms [.assign .newPayload e]),
      .assign .payload (v .newPayload)])]

/-- `new DataView(dataViewAlias.buffer, dataViewAlias.byteOffset + offset, e)` -/
def subView (e : Ex) : Ex :=
  .new true .dataView (args [(v .dataViewAlias).buffer, add (v .dataViewAlias).byteOffset (v .offset), e])

/-- `dataView.getFloat64(offset, true)` -/
def getFloat : Ex := .method false (v .dataView) .getFloat64 (args [v .offset, .lit (.bool true)])

/-- `write_deserialization_invocation`: lines 2215-2533. -/
def deserialization (T : CharTable) (s : Schema) (ns : Namespace) (isField : Bool) : TypeVariant → Stms
  | .array _ t =>
    if sized t then
      stms [
        .let_ .payload (some (typeText T s ns .in_ t ++ "[]".toList)) .newArray,
        .block (stms [
          .const .dataViewAlias (v .dataView),
          .const .payloadAlias (v .payload),
          .block (stms [.while_ (.lit (.bool true)) (
            stms [
              .letVars [.payloadSizeBig],
              .try_ (stms [readVarint .payloadSizeBig .dataViewAlias]) breakAtEnd,
              .const .dataView (subView (.builtin .number (args [v .payloadSizeBig]))),
              .const .oldOffset (v .offset),
              setOffset (num 0)] ++
            deserialization T s ns false t ++
            stms [
              advance (v .oldOffset),
              .expr (.method false (v .payloadAlias) .push (args [v .payload]))])])])]
    else if t = .unit then
      viaInteger isField (.as_ (.method false (.builtin .array (args [.builtin .number (args [v .payload])])) .fill
        (args [.lit .null])) "null[]".toList)
    else
      stms [
        .let_ .payload (some (typeText T s ns .in_ t ++ "[]".toList)) .newArray,
        .block (stms [
          .const .payloadAlias (v .payload),
          .block (stms [.while_ (.lit (.bool true)) (stms [
            .try_ (deserialization T s ns false t ++ stms [.expr (.method false (v .payloadAlias) .push (args [v .payload]))])
              breakAtEnd])])])]
  | .bool => viaInteger isField (.bin .differ (v .payload) (.lit (.big 0)))
  | .bytes =>
    stms [
      .let_ .payload none (.method true (v .dataView).buffer .slice
        (args [add (v .dataView).byteOffset (v .offset), add (v .dataView).byteOffset (v .dataView).byteLength])),
      setOffset (v .dataView).byteLength]
  | .custom i n =>
    stms [
      .let_ .payload none (.path (customPath T s ns i n) .deserializeUnsafe (args [v .dataView])),
      setOffset (v .dataView).byteLength]
  | .f64 =>
    if isField then
      stms [
        .letVars [.payload],
        .block (stms [.switch (v .payloadSize)
          (.case (.num 0) false (stms [.assign .payload (num 0), .break_])
          (.default_ false (stms [.assign .payload getFloat, advance (num 8), .break_]) .nil))])]
    else stms [.let_ .payload none getFloat, advance (num 8)]
  | .s64 => u64Deserialization isField ++ stms [.assign .payload (.runtime .zigzagDecode (args [v .payload]))]
  | .string =>
    stms [
      .let_ .payload none (.method true (.glob .textDecoder) .decode (args [.new true .uint8Array
        (args [(v .dataView).buffer, add (v .dataView).byteOffset (v .offset), .bin .sub (v .dataView).byteLength (v .offset)])])),
      setOffset (v .dataView).byteLength]
  | .u64 => u64Deserialization isField
  | .unit => stms [.let_ .payload none (.lit .null)]

/-! ### Structs -/

/-- The variable for a field. -/
def local_ (T : CharTable) (f : Field) : TVar := .field (tsCamel T f.name)

/-- `let $a, $b;`: lines 657-672 and 832-848. Nothing if there are no fields; `blank`: followed by an empty line. -/
def declareLocals (T : CharTable) (fields : List Field) : Stms :=
  if fields.isEmpty then .nil else stms [.letVars (fields.map (local_ T))]

/-- `fieldHeaderSize(…n, payloadSize, …)`: lines 706-711, 1077-1082, 1087-1092. -/
def headerSize (f : Field) : Ex :=
  .runtime .fieldHeaderSize (args [.lit (.big f.index), v .payloadSize, .lit (.bool (integerEncoded f.type.variant))])

/-- `message.x` -/
def messageField (T : CharTable) (f : Field) : Ex := .prop (v .message) (tsCamel T f.name)

/-- The code for one field in the `atlas` function of a struct: lines 673-722. -/
def structFieldAtlas (T : CharTable) (s : Schema) (ns : Namespace) (f : Field) : Stm :=
  let code := stms [
    atlasCalculation T s ns true f.type.variant,
    .assign (local_ T f) (v .payloadAtlas),
    .const .payloadSize (atlasLookup f.type.variant),
    .increase .size (add (headerSize f) (v .payloadSize))]
  .block (stms [.letVars [.payloadAtlas], .const .payload (messageField T f)] ++
    match f.rule with
    | .asymmetric => code
    | .required => code
    | .optional => stms [.if_ (.bin .differ (v .payload) (.lit .undefined)) code .none])

/-- `x: $x,` for each field: lines 727-733 and 960-966. -/
def localInits (T : CharTable) : List Field → Inits
  | [] => .nil
  | f :: fs => .cons (tsCamel T f.name) (v (local_ T f)) (localInits T fs)

/-- The `atlas` function of a struct: lines 646-736. -/
def structAtlas (T : CharTable) (s : Schema) (ns : Namespace) (fields : List Field) : Stms :=
  stms [.let_ .size none (num 0)] ++
  (if fields.isEmpty then .nil else stms [.blank]) ++ declareLocals T fields ++
  Stms.ofList (fields.flatMap (fun f => [.blank, structFieldAtlas T s ns f])) ++
  stms [.blank, .return_ (.objLines (.cons "$size".toList (v .size) (localInits T fields)))]

/-- `offset = serializeFieldHeader(dataView, offset, …n, payloadSize, …);`: lines 785-791, 1167-1173. -/
def writeHeader (f : Field) : Stm :=
  setOffset (.runtime .serializeFieldHeader (args [v .dataView, v .offset, .lit (.big f.index), v .payloadSize,
    .lit (.bool (integerEncoded f.type.variant))]))

/-- The code for one field in the `serializeWithAtlasUnsafe` function of a struct: lines 759-807. -/
def structFieldSerialize (T : CharTable) (s : Schema) (ns : Namespace) (f : Field) : Stm :=
  let code := stms [.const .payloadSize (atlasLookup f.type.variant), writeHeader f] ++ serialization T s ns true f.type.variant
  .block (stms [.const .payload (messageField T f), .const .payloadAtlas (.prop (v .atlas) (tsCamel T f.name))] ++
    match f.rule with
    | .asymmetric => code
    | .required => code
    | .optional => stms [.if_ (.and (.bin .differ (v .payload) (.lit .undefined)) (.bin .differ (v .payloadAtlas) (.lit .undefined)))
        code .none])

/-- The `serializeWithAtlasUnsafe` function of a struct: lines 740-814. -/
def structSerialize (T : CharTable) (s : Schema) (ns : Namespace) (fields : List Field) : Stms :=
  Stms.ofList (fields.flatMap (fun f => [structFieldSerialize T s ns f, .blank])) ++ stms [.return_ (v .offset)]

/-- The first statements in the case of a field: lines 880-890 and 1237-1247. -/
def enterField : Stms := stms [.const .dataView (subView (v .payloadSize)), .const .oldOffset (v .offset), setOffset (num 0)]

/-- The case of an unrecognised field: lines 912-916 and 1306-1310. -/
def skipField : Cases := .default_ false (stms [advance (v .payloadSize), .break_]) .nil

/-- The cases of the `switch` in a struct: lines 878-911. -/
def structCases (T : CharTable) (s : Schema) (ns : Namespace) : List Field → Cases
  | [] => skipField
  | f :: fs => .case (.big f.index) true
      (enterField ++ deserialization T s ns true f.type.variant ++
        stms [advance (v .oldOffset), .assign (local_ T f) (v .payload), .break_])
      (structCases T s ns fs)

/-- `$x === undefined` for each required field: lines 930-949. -/
def missingConditions (T : CharTable) (fields : List Field) : List Ex :=
  (fields.filter (fun f => decide (f.rule = .required))).map (fun f => .bin .same (v (local_ T f)) (.lit .undefined))

/-- `[offset, index, payloadSize] = deserializeFieldHeader(dataViewAlias, offset);` and its variables: line 857, line 1215. -/
def readHeader : Ex := .runtime .deserializeFieldHeader (args [v .dataViewAlias, v .offset])

/-- The loop of a struct's `deserializeUnsafe`: lines 849-920. -/
def structLoop (T : CharTable) (s : Schema) (ns : Namespace) (fields : List Field) : Stm :=
  .while_ (.lit (.bool true)) (stms [
    .letVars [.index, .payloadSize],
    .blank,
    .try_ (stms [.assignTuple [.offset, .index, .payloadSize] readHeader]) breakAtEnd,
    .blank,
    .switch (v .index) (structCases T s ns fields)])

/-- The `deserializeUnsafe` function of a struct: lines 820-969. -/
def structDeserialize (T : CharTable) (s : Schema) (ns : Namespace) (fields : List Field) : Stms :=
  stms [.const .dataViewAlias (v .dataView), .blank, .let_ .offset none (num 0), .blank] ++
  declareLocals T fields ++ (if fields.isEmpty then .nil else stms [.blank]) ++
  stms [structLoop T s ns fields, .blank] ++
  (if fields.any (fun f => decide (f.rule = .required)) then
    stms [.ifAny (args (missingConditions T fields)) (stms [.throwMissing]), .blank]
   else .nil) ++
  stms [.return_ (.objLines (localInits T fields))]

/-! ### Choices -/

/-- `return unreachable(message);` -/
def returnUnreachable : Stm := .return_ (.runtime .unreachable (args [v .message]))

/-- Is a fallback written with a field? Lines 1071-1083, 1182-1195. -/
def outFallback : Rule → Bool
  | .asymmetric => true
  | .optional => true
  | .required => false

/-- The code for one field in the `atlas` function of a choice: lines 1049-1107. -/
def choiceFieldAtlas (T : CharTable) (s : Schema) (ns : Namespace) (f : Field) : Stm :=
  .if_ (.has (tsCamel T f.name) (v .message)) (stms [
    .letVars [.payloadAtlas],
    .const .payload (messageField T f),
    atlasCalculation T s ns true f.type.variant,
    .const .payloadSize (atlasLookup f.type.variant)] ++
    (if outFallback f.rule then
      stms [
        .const .fallbackAtlas (.own false .atlas (args [(v .message).fallback])),
        .return_ (.objInline
          (.cons "$size".toList (add (add (headerSize f) (v .payloadSize)) (v .fallbackAtlas).size)
          (.cons (tsCamel T f.name) (v .payloadAtlas)
          (.cons "$fallback".toList (v .fallbackAtlas) .nil))))]
    else
      stms [.return_ (.objInline
        (.cons "$size".toList (add (headerSize f) (v .payloadSize)) (.cons (tsCamel T f.name) (v .payloadAtlas) .nil)))])) .none

/-- The `atlas` function of a choice: lines 1039-1112. -/
def choiceAtlas (T : CharTable) (s : Schema) (ns : Namespace) (fields : List Field) : Stms :=
  Stms.ofList (fields.map (choiceFieldAtlas T s ns)) ++ stms [returnUnreachable]

/-- `(atlas as any).name as type` -/
def atlasField (name type : Str) : Ex := .as_ (.prop (.paren false (.as_ (v .atlas) "any".toList)) name) type

/-- The code for one field in the `serializeWithAtlasUnsafe` function of a choice: lines 1141-1198. -/
def choiceFieldSerialize (T : CharTable) (s : Schema) (ns : Namespace) (name : Identifier) (f : Field) : Stm :=
  .if_ (.has (tsCamel T f.name) (v .message)) (
    stms [
      .const .payload (messageField T f),
      .const .payloadAtlas (atlasField (tsCamel T f.name) (typeText T s ns .atlas f.type.variant)),
      .const .payloadSize (atlasLookup f.type.variant),
      writeHeader f] ++
    serialization T s ns true f.type.variant ++
    (if outFallback f.rule then
      stms [setOffset (.own false .serializeWithAtlasUnsafe (args [v .dataView, v .offset, (v .message).fallback,
        atlasField "$fallback".toList (tsPascal T name (some .atlas))]))]
    else .nil) ++
    stms [.return_ (v .offset)]) .none

/-- The `serializeWithAtlasUnsafe` function of a choice: lines 1119-1204. -/
def choiceSerialize (T : CharTable) (s : Schema) (ns : Namespace) (name : Identifier) (fields : List Field) : Stms :=
  Stms.ofList (fields.map (choiceFieldSerialize T s ns name)) ++ stms [returnUnreachable]

/-- The end of the case of a field in a choice: lines 1256-1301. -/
def choiceResult (T : CharTable) (f : Field) : Stms :=
  if f.rule = .optional then
    stms [
      advance (v .oldOffset),
      .const (.field "fallback".toList) (.own true .deserializeUnsafe
        (args [subView (.bin .sub (v .dataViewAlias).byteLength (v .offset))])),
      .return_ (.objLines (.text "$field".toList (tsCamel T f.name) (.cons (tsCamel T f.name) (v .payload)
        (.short (.field "fallback".toList) .nil))))]
  else stms [.return_ (.objLines (.text "$field".toList (tsCamel T f.name) (.cons (tsCamel T f.name) (v .payload) .nil)))]

/-- The cases of the `switch` in a choice: lines 1235-1305. -/
def choiceCases (T : CharTable) (s : Schema) (ns : Namespace) : List Field → Cases
  | [] => skipField
  | f :: fs => .case (.big f.index) true
      (enterField ++ deserialization T s ns true f.type.variant ++ choiceResult T f)
      (choiceCases T s ns fs)

/-- The loop of a choice's `deserializeUnsafe`: lines 1222-1314. -/
def choiceLoop (T : CharTable) (s : Schema) (ns : Namespace) (fields : List Field) : Stm :=
  .while_ (.lit (.bool true)) (stms [
    .constTuple [.newOffset, .index, .payloadSize] readHeader,
    setOffset (v .newOffset),
    .blank,
    .switch (v .index) (choiceCases T s ns fields)])

/-- The `deserializeUnsafe` function of a choice: lines 1210-1318. -/
def choiceDeserialize (T : CharTable) (s : Schema) (ns : Namespace) (fields : List Field) : Stms :=
  stms [.const .dataViewAlias (v .dataView), .blank, .let_ .offset none (num 0), .blank, choiceLoop T s ns fields]

/-! ### Declarations -/

/-- `write_size_function`: lines 1458-1477. -/
def sizeFunction (fields : List Field) : Stms :=
  if fields.isEmpty then stms [.return_ (num 0)]
  else stms [.return_ (Ex.size (.own false .atlas (args [v .message])))]

/-- `write_serialize_function`: lines 1480-1513. -/
def serializeFunction (variant : DeclVariant) (fields : List Field) : Stms :=
  if variant = .choice ∧ fields.isEmpty then stms [returnUnreachable]
  else stms [
    .const .messageAtlas (.own false .atlas (args [v .message])),
    .const .arrayBuffer (.new false .arrayBuffer (args [(v .messageAtlas).size])),
    .const .dataView (.new false .dataView (args [v .arrayBuffer])),
    .expr (.own false .serializeWithAtlasUnsafe (args [v .dataView, num 0, v .message, v .messageAtlas])),
    .return_ (v .arrayBuffer)]

/-- `write_deserialize_function`: lines 1516-1555. -/
def deserializeFunction : Stms :=
  stms [.try_ (stms [
      .if_ (.isA (v .bytes) .arrayBuffer)
        (stms [.return_ (.own false .deserializeUnsafe (args [.new false .dataView (args [v .bytes])]))]) .none,
      .if_ (.isA (v .bytes) .dataView) (stms [.return_ (.own false .deserializeUnsafe (args [v .bytes]))]) .none,
      .return_ (.own false .deserializeUnsafe (args [.new false .dataView
        (args [(v .bytes).buffer, (v .bytes).byteOffset, (v .bytes).byteLength])]))])
    (stms [.return_ (.as_ (v .e) "Error".toList)])]

/-- What `write_schema` writes for a declaration: lines 581-1318. -/
def declCode (T : CharTable) (s : Schema) (ns : Namespace) (d : Declaration) : DeclCode where
  name := tsPascal T d.name none
  typeName := fun x => tsPascal T d.name (some x)
  types := fun ind =>
    match d.variant with
    | .struct => [structText T s ns d ind .atlas, structText T s ns d ind .out, structText T s ns d ind .in_]
    | .choice => [choiceText T s ns d ind .atlas, choiceText T s ns d ind .out, choiceText T s ns d ind .in_]
  body := fun f =>
    match f, d.variant with
    | .size, _ => sizeFunction d.fields
    | .serialize, _ => serializeFunction d.variant d.fields
    | .deserialize, _ => deserializeFunction
    | .atlas, .struct => structAtlas T s ns d.fields
    | .atlas, .choice => choiceAtlas T s ns d.fields
    | .serializeWithAtlasUnsafe, .struct => structSerialize T s ns d.fields
    | .serializeWithAtlasUnsafe, .choice => choiceSerialize T s ns d.name d.fields
    | .deserializeUnsafe, .struct => structDeserialize T s ns d.fields
    | .deserializeUnsafe, .choice => choiceDeserialize T s ns d.fields

end Typical.TsGen

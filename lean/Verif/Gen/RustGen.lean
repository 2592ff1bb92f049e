import Verif.Gen.Ast
import Verif.Front.Modules

/-!
# Model of `/repo/src/generate_rust.rs`: the code written for declarations

Function by function; the text is produced by `Verif.Gen.Print`. Definitions which write statements take the code which follows
(`rest`) as an argument.
-/

namespace Typical.Gen

/-! ### Abbreviations for expressions -/

/-- Arguments of calls. -/
def args : List Ex → Args
  | [] => .nil
  | e :: es => .cons e (args es)

/-- A variable. -/
def v (x : Var) : Ex := .var x

/-- A method without arguments. -/
def Ex.m (e : Ex) (m : Method) : Ex := .method e m .nil

/-- `let x = e; rest` -/
def let' (x : Var) (e rest : Ex) : Ex := .letIn false x e rest

/-- `let mut x = e; rest` -/
def letMut (x : Var) (e rest : Ex) : Ex := .letIn true x e rest

/-- `e?;` followed by `rest`. -/
def tryThen (e rest : Ex) : Ex := .seq (.try_ e) rest

/-! ### Types -/

/-- The namespace in which a named type is looked up: lines 1657-1662. (The imports of the file were resolved by the loader.) -/
def targetNamespace (s : Schema) (ns : Namespace) : Option Identifier → Namespace
  | none => ns
  | some i =>
    match lookupIdent i s.imports with
    | some e => e.namespace_.getD ⟨[]⟩
    | none => ⟨[]⟩

/-- The path of a named type: lines 1656-1674. -/
def typePath (T : CharTable) (s : Schema) (ns : Namespace) (import_ : Option Identifier) (name : Identifier) (d : NameSuffix) :
    TypePath :=
  ⟨(rustReference (targetNamespace s ns import_) ns).1,
   (rustReference (targetNamespace s ns import_) ns).2.map rustSnake,
   rustPascal T name (some d)⟩

/-- Is the size of an element written before each element of an array of this type? The first case of, for example, lines 1824-1827. -/
def sized : TypeVariant → Bool
  | .array _ _ => true
  | .bytes => true
  | .custom _ _ => true
  | .string => true
  | _ => false

/-- `write_type`: lines 1608-1719. -/
def typeOf (T : CharTable) (s : Schema) (ns : Namespace) (d : NameSuffix) : TypeVariant → TypeEx
  | .array _ t =>
    if d = .atlas then
      if sized t then .pair .usize (.vec (typeOf T s ns d t)) else .usize
    else .vec (typeOf T s ns d t)
  | .bool => if d = .atlas then .usize else .bool
  | .bytes => if d = .atlas then .usize else .bytes
  | .custom i n => .path (typePath T s ns i n d)
  | .f64 => if d = .atlas then .usize else .f64
  | .s64 => if d = .atlas then .usize else .i64
  | .string => if d = .atlas then .usize else .string
  | .u64 => if d = .atlas then .usize else .u64
  | .unit => if d = .atlas then .usize else .unit

/-- Is the type of a member of a struct an `Option`? Lines 1446-1471. -/
def memberOptional (d : NameSuffix) : Rule → Bool
  | .asymmetric => decide (d = .in_)
  | .optional => true
  | .required => false

/-- The definition of a struct's type: `write_struct`, lines 1420-1481. -/
def structItem (T : CharTable) (s : Schema) (ns : Namespace) (decl : Declaration) (d : NameSuffix) : Item :=
  .struct (rustPascal T decl.name (some d)) ((if d = .atlas then [("_size".toList, .usize)] else []) ++
    decl.fields.map (fun f => (rustSnake f.name,
      if memberOptional d f.rule then .option (typeOf T s ns d f.type.variant) else typeOf T s ns d f.type.variant)))

/-- Does a variant of a choice have a fallback? Lines 1519-1526. -/
def variantFallback (d : NameSuffix) : Rule → Bool
  | .asymmetric => decide (d ≠ .in_)
  | .optional => true
  | .required => false

/-- The types of the components of a variant: lines 1500-1557. -/
def variantTypes (T : CharTable) (s : Schema) (ns : Namespace) (decl : Declaration) (d : NameSuffix) (f : Field) : List TypeEx :=
  (if d = .atlas then [.usize] else []) ++
  (if d = .atlas ∨ f.type.variant ≠ .unit then [typeOf T s ns d f.type.variant] else []) ++
  (if variantFallback d f.rule then [.box (.path ⟨0, [], rustPascal T decl.name (some d)⟩)] else [])

/-- The definition of a choice's type: `write_choice`, lines 1484-1562. -/
def choiceItem (T : CharTable) (s : Schema) (ns : Namespace) (decl : Declaration) (d : NameSuffix) : Item :=
  .enum (rustPascal T decl.name (some d)) (decl.fields.map (fun f => (rustPascal T f.name none, variantTypes T s ns decl d f)))

/-! ### Conversion of messages -/

/-- Is the innermost element type of an array a named type? Lines 1786-1790. -/
def innermostCustom : TypeVariant → Bool
  | .array _ t => innermostCustom t
  | .custom _ _ => true
  | _ => false

/-- The body of the closure which converts an element: lines 1792-1802. -/
def convertElement : TypeVariant → Ex
  | .array _ t => .mapVec ((v .x).m .intoIter) .x (convertElement t)
  | _ => (v .x).m .into

/-- `write_into_invocation`: lines 1781-1807, applied to an expression. -/
def intoInvocation (e : Ex) : TypeVariant → Ex
  | .array _ t => if innermostCustom t then .mapVec (e.m .intoIter) .x (convertElement t) else e.m .into
  | _ => e.m .into

/-! ### Atlases -/

/-- `write_atlas_calculation` for `U64`: lines 1886-1908. -/
def atlasU64 (supers : Nat) (isField : Bool) : Ex :=
  .paren (if isField then
    .matchInline (.deref (v .payload))
      (.cons (.u64 0) (.brace (.lit (.usize 0)))
      (.cons (.range 1 567382630219903) (.brace (.runtime supers .varintSizeFromValue (args [.deref (v .payload)])))
      (.cons (.range 567382630219904 18446744073709551615) (.brace (.lit (.usize 8))) .nil)))
  else .runtime supers .varintSizeFromValue (args [.deref (v .payload)]))

/-- `write_atlas_lookup`: lines 1919-1944. -/
def atlasLookup : TypeVariant → Ex
  | .array _ t => if sized t then .fst (v .payloadAtlas) else .deref (v .payloadAtlas)
  | .custom _ _ => (v .payloadAtlas).m .size
  | _ => .deref (v .payloadAtlas)

/-- `write_atlas_calculation`: lines 1816-1913. -/
def atlasCalculation (supers : Nat) (isField : Bool) : TypeVariant → Ex
  | .array _ t =>
    if sized t then
      .paren (.brace (let' .atlases
        (.mapVec ((v .payload).m .iter) .payload (atlasCalculation supers false t))
        (.pair
          (.fold ((v .atlases).m .iter) .x .payloadAtlas (.brace (let' .atlasSize (atlasLookup t)
            (.bin .add (.bin .add (v .x) (.runtime supers .varintSizeFromValue (args [.asU64 (v .atlasSize)])))
              (v .atlasSize)))))
          (v .atlases))))
    else if t = .unit then
      .paren (.brace (let' .payload (.ref (.paren (.asU64 ((v .payload).m .len)))) (atlasU64 supers isField)))
    else if t = .f64 then
      .paren (.bin .mul (.lit (.usize 8)) ((v .payload).m .len))
    else
      .paren (.fold ((v .payload).m .iter) .x .payload (.bin .add (v .x) (atlasCalculation supers false t)))
  | .bool => .paren (if isField then .std .usizeFrom (args [.deref (v .payload)]) else .lit (.usize 1))
  | .bytes => .paren ((v .payload).m .len)
  | .string => .paren ((v .payload).m .len)
  | .custom _ _ => .paren ((v .payload).m .atlas)
  | .f64 => .paren (if isField then
      .ifInline (.bin .eq ((v .payload).m .toBits) (.lit (.u64 0))) (.lit (.usize 0)) (.lit (.usize 8))
    else .lit (.usize 8))
  | .s64 => .paren (.brace (let' .zigzag (.runtime supers .zigzagEncode (args [.deref (v .payload)]))
      (let' .payload (.ref (v .zigzag)) (atlasU64 supers isField))))
  | .u64 => atlasU64 supers isField
  | .unit => .paren (.lit (.usize 0))

/-- `integer_encoded`: lines 2389-2399. -/
def integerEncoded : TypeVariant → Bool
  | .bool => true
  | .s64 => true
  | .u64 => true
  | _ => false

/-! ### Serialization -/

/-- `write_u64_serialization_invocation`: lines 2083-2110. -/
def u64Serialization (supers : Nat) (isField : Bool) : Ex :=
  if isField then
    .matchLines (v .varint)
      (.cons (.u64 0) (.block .done)
      (.cons (.range 1 567382630219903) (.try_ (.runtime supers .serializeVarint (args [v .varint, v .writer])))
      (.cons (.range 567382630219904 18446744073709551615)
        (.try_ (.method (v .writer) .writeAll (args [.ref ((v .varint).m .toLeBytes)]))) .nil)))
  else tryThen (.runtime supers .serializeVarint (args [v .varint, v .writer])) .done

/-- `write_serialization_invocation`: lines 1957-2075. -/
def serializationInvocation (supers : Nat) (isField : Bool) (rest : Ex) : TypeVariant → Ex
  | .array _ t =>
    if sized t then
      .seq (.forZip .payload .payloadAtlas ((v .payload).m .iter) (.method (.snd (v .payloadAtlas)) .iter .nil)
        (tryThen (.runtime supers .serializeVarint (args [.asU64 (atlasLookup t), v .writer]))
          (serializationInvocation supers false .done t))) rest
    else if t = .unit then
      .seq (.block (let' .varint (.asU64 ((v .payload).m .len)) (u64Serialization supers isField))) rest
    else .seq (.forIn .payload (v .payload) (serializationInvocation supers false .done t)) rest
  | .bool => .seq (.block (let' .varint (.std .u64From (args [.deref (v .payload)])) (u64Serialization supers isField))) rest
  | .bytes => tryThen (.method (v .writer) .writeAll (args [v .payload])) rest
  | .custom _ _ => tryThen (.method (v .payload) .serializeWithAtlas (args [v .writer, v .payloadAtlas])) rest
  | .f64 =>
    if isField then
      .seq (.ifThen (.bin .ne ((v .payload).m .toBits) (.lit (.u64 0)))
        (tryThen (.method (v .writer) .writeAll (args [.ref ((v .payload).m .toLeBytes)])) .done)) rest
    else tryThen (.method (v .writer) .writeAll (args [.ref ((v .payload).m .toLeBytes)])) rest
  | .s64 => .seq (.block (let' .varint (.runtime supers .zigzagEncode (args [.deref (v .payload)]))
      (u64Serialization supers isField))) rest
  | .string => tryThen (.method (v .writer) .writeAll (args [(v .payload).m .asBytes])) rest
  | .u64 => .seq (.block (let' .varint (.deref (v .payload)) (u64Serialization supers isField))) rest
  | .unit => rest

/-! ### Deserialization -/

/-- `write_deserialization_invocation` for `U64`: lines 2350-2381. -/
def u64Deserialization (supers : Nat) (isField : Bool) (rest : Ex) : Ex :=
  let' .payload
    (if isField then
      .matchLines (v .payloadSize)
        (.cons (.usize 0) (.lit (.u64 0))
        (.cons (.usize 8) (.block (letMut .buffer (.lit .zeros)
          (tryThen (.read (.exact true) (.refMut (v .subReader)) .buffer) (.std .u64FromLeBytes (args [v .buffer])))))
        (.cons .wild (.try_ (.runtime supers .deserializeVarint (args [.refMut (v .subReader)]))) .nil)))
    else .try_ (.runtime supers .deserializeVarint (args [.refMut (v .subReader)])))
    rest

/-- The end of the arm for errors: lines 839-853; lines 2152-2165 and 2233-2246 without the empty line. -/
def breakAtEnd (emptyLine : Bool) : Ex :=
  .block (.seq (.ifEof .err (.seq .break_ .done))
    (if emptyLine then .blank (.seq (.return_ (.errOf .err)) .done) else .seq (.return_ (.errOf .err)) .done))

/-- `write_deserialization_invocation`: lines 2124-2386. -/
def deserializationInvocation (T : CharTable) (supers : Nat) (s : Schema) (ns : Namespace) (isField : Bool) (rest : Ex) :
    TypeVariant → Ex
  | .array _ t =>
    if sized t then
      letMut .payload (.lit .newVec)
      (.seq (.loop
        (let' .payloadSize
          (.matchLines (.runtime supers .deserializeVarint (args [.refMut (v .subReader)]))
            (.cons (.ok .payloadSize) (.asUsize (v .payloadSize)) (.cons (.err .err) (breakAtEnd false) .nil)))
        (letMut .subReader (.std .take (args [.refMut (v .subReader), .asU64 (v .payloadSize)]))
        (.seq (.mutate .payload .push (.block
          (deserializationInvocation T supers s ns false (v .payload) t))) .done)))) rest)
    else if t = .unit then
      u64Deserialization supers isField (let' .payload (.units (.asUsize (v .payload))) rest)
    else
      .letFn (typeOf T s ns .in_ t)
        (deserializationInvocation T supers s ns false (.std .ok (args [v .payload])) t)
      (letMut .payload (.lit .newVec)
      (let loop := Ex.seq (.loop (.seq (.mutate .payload .push
          (.matchLines (.callFn (.refMut (v .subReader)))
            (.cons (.ok .element) (v .element) (.cons (.err .err) (breakAtEnd false) .nil)))) .done)) rest
       if t = .f64 then .seq (.mutate .payload (.reserveExact 8) (v .payloadSize)) loop else loop))
  | .bool => u64Deserialization supers isField (let' .payload (.bin .ne (v .payload) (.lit (.u64 0))) rest)
  | .bytes =>
    letMut .payload (.lit .newBytes)
    (.seq (.mutate .payload (.reserveExact 1) (v .payloadSize))
    (tryThen (.read .toEnd (.refMut (v .subReader)) .payload) rest))
  | .custom i n =>
    let' .payload (.try_ (.deserialize (typePath T s ns i n .in_) (.refMut (v .subReader)))) rest
  | .f64 =>
    if isField then
      let' .payload (.ifElse (.bin .eq (v .payloadSize) (.lit (.usize 0))) (.lit .f64Zero)
        (letMut .buffer (.lit .zeros)
          (tryThen (.read (.exact false) (.refMut (v .subReader)) .buffer) (.std .f64FromLeBytes (args [v .buffer]))))) rest
    else
      letMut .buffer (.lit .zeros)
      (tryThen (.read (.exact false) (.refMut (v .subReader)) .buffer)
      (let' .payload (.std .f64FromLeBytes (args [v .buffer])) rest))
  | .s64 => u64Deserialization supers isField (let' .payload (.runtime supers .zigzagDecode (args [v .payload])) rest)
  | .string =>
    letMut .payload (.lit .newString)
    (.seq (.mutate .payload (.reserveExact 1) (v .payloadSize))
    (tryThen (.read .toString (.refMut (v .subReader)) .payload) rest))
  | .u64 => u64Deserialization supers isField rest
  | .unit => let' .payload (.lit .unit) rest

/-! ### Structs -/

/-- The variable `_x` for a field. -/
def fieldVar (f : Field) : Var := .field (rustSnake f.name)

/-- Members of a struct expression. -/
def inits : List (Str × Ex) → Inits
  | [] => .nil
  | (n, e) :: l => .cons n e (inits l)

/-- `From<Out> for In`, for structs: lines 580-632. -/
def structFrom (T : CharTable) (d : Declaration) : Ex :=
  .structLit (rustPascal T d.name (some .in_)) (inits (d.fields.map (fun f =>
    (rustSnake f.name,
     match f.rule with
     | .asymmetric => .std .some (args [intoInvocation (.field (v .message) (rustSnake f.name)) f.type.variant])
     | .optional => .mapOption (.field (v .message) (rustSnake f.name)) .payload (intoInvocation (v .payload) f.type.variant)
     | .required => intoInvocation (.field (v .message) (rustSnake f.name)) f.type.variant))))

/-- `field_header_size(…) + payload_size`: lines 708-713, 1162-1169. -/
def headerAndPayload (supers : Nat) (f : Field) : Ex :=
  .bin .add (.runtime supers .fieldHeaderSize
    (args [.lit (.u64 f.index), v .payloadSize, .lit (.bool (integerEncoded f.type.variant))])) (v .payloadSize)

/-- The definitions of the atlases of fields: lines 641-680. -/
def structAtlasLets (supers : Nat) (rest : Ex) : List Field → Ex
  | [] => rest
  | f :: fs =>
    let' (fieldVar f)
      (match f.rule with
       | .optional => .mapOption ((Ex.field (v .self) (rustSnake f.name)).m .asRef) .payload
           (atlasCalculation supers true f.type.variant)
       | _ => .brace (let' .payload (.ref (.field (v .self) (rustSnake f.name)))
           (atlasCalculation supers true f.type.variant)))
      (structAtlasLets supers rest fs)

/-- The size of a field: lines 690-722. -/
def structFieldSize (supers : Nat) (f : Field) : Ex :=
  match f.rule with
  | .optional => .mapOr ((v (fieldVar f)).m .asRef) .payloadAtlas
      (.brace (let' .payloadSize (atlasLookup f.type.variant) (headerAndPayload supers f)))
  | _ => .brace (let' .payloadAtlas (.ref (v (fieldVar f)))
      (let' .payloadSize (atlasLookup f.type.variant) (headerAndPayload supers f)))

/-- `atlas`, for structs: lines 634-735. -/
def structAtlas (T : CharTable) (supers : Nat) (d : Declaration) : Ex :=
  let literal := Ex.structLit (rustPascal T d.name (some .atlas))
    (.cons "_size".toList (.sumLines (args (d.fields.map (structFieldSize supers))))
      (inits (d.fields.map (fun f => (rustSnake f.name, v (fieldVar f))))))
  if d.fields.isEmpty then literal else structAtlasLets supers (.blank literal) d.fields

/-- `serialize_field_header(writer, index, payload size, integer encoded)?;` lines 780-789, 1246-1254. -/
def headerThen (supers : Nat) (f : Field) (rest : Ex) : Ex :=
  tryThen (.runtime supers .serializeFieldHeader
    (args [v .writer, .lit (.u64 f.index), atlasLookup f.type.variant, .lit (.bool (integerEncoded f.type.variant))])) rest

/-- `serialize_with_atlas`, for structs: lines 737-800. -/
def structSerialize (supers : Nat) : List Field → Ex
  | [] => .std .ok (args [.lit .unit])
  | f :: fs =>
    .seq
      (match f.rule with
       | .optional => .ifSome .payload .payloadAtlas (.ref (.field (v .self) (rustSnake f.name)))
           (.ref (.field (v .atlas) (rustSnake f.name)))
           (headerThen supers f (serializationInvocation supers true .done f.type.variant))
       | _ => .block (let' .payload (.ref (.field (v .self) (rustSnake f.name)))
           (let' .payloadAtlas (.ref (.field (v .atlas) (rustSnake f.name)))
             (headerThen supers f (serializationInvocation supers true .done f.type.variant)))))
      (.blank (structSerialize supers fs))

/-- The arms of `match index`: lines 866-893 for structs, 1313-1369 for choices. `use` is what follows the payload. -/
def indexArms (T : CharTable) (supers : Nat) (s : Schema) (ns : Namespace) (use : Field → Ex) : List Field → Arms
  | [] => .cons .wild (.block (tryThen (.runtime supers .skip (args [.refMut (v .subReader), v .payloadSize])) .done)) .nil
  | f :: fs =>
    .cons (.int f.index) (.block (deserializationInvocation T supers s ns true (use f) f.type.variant))
      (indexArms T supers s ns use fs)

/-- The end of a round: `let mut sub_reader = …; match index { … }`. Lines 857-895 and 1303-1372. -/
def dispatch (arms : Arms) : Ex :=
  .blank (letMut .subReader (.std .take (args [.refMut (.deref (v .reader)), .asU64 (v .payloadSize)]))
    (.blank (.matchLines (v .index) arms)))

/-- The declarations of the variables for fields: lines 818-830. -/
def structSlots (T : CharTable) (s : Schema) (ns : Namespace) (rest : Ex) : List Field → Ex
  | [] => rest
  | f :: fs => .letNone (fieldVar f) (typeOf T s ns .in_ f.type.variant) (structSlots T s ns rest fs)

/-- `deserialize_from_reader_ref`, for structs: lines 804-957. -/
def structDeserialize (T : CharTable) (supers : Nat) (s : Schema) (ns : Namespace) (d : Declaration) : Ex :=
  let required := d.fields.filter (fun f => f.rule == .required)
  let result := Ex.std .ok (args [.structLit (rustPascal T d.name (some .in_)) (inits (d.fields.map (fun f =>
    (rustSnake f.name, if f.rule = .required then (v (fieldVar f)).m .unwrap else v (fieldVar f)))))])
  let check := if required.isEmpty then result else
    .seq (.ifThen (.orLines (args (required.map (fun f => (v (fieldVar f)).m .isNone))))
      (.seq (.return_ (.errMissing supers)) .done)) (.blank result)
  let loop := Ex.seq (.loop
    (.letPair .index .payloadSize
      (.matchLines (.runtime supers .deserializeFieldHeader (args [.refMut (.deref (v .reader))]))
        (.cons (.ok .header) (v .header) (.cons (.err .err) (breakAtEnd true) .nil)))
      (dispatch (indexArms T supers s ns (fun f => .seq (.mutate (fieldVar f) .getOrInsert (v .payload)) .done) d.fields))))
    (.blank check)
  if d.fields.isEmpty then loop else structSlots T s ns (.blank loop) d.fields

/-! ### Choices -/

/-- The variables in a pattern for a variant of the `Out` type: lines 1052-1066, 1118-1134, 1212-1226. -/
def outBinders (f : Field) : List (Option Var) :=
  (if f.type.variant = .unit then [] else [some .payload]) ++ (if f.rule = .required then [] else [some .fallback])

/-- `From<Out> for In`, for choices: lines 1038-1099. -/
def choiceFromArms (T : CharTable) (d : Declaration) : List Field → Arms
  | [] => .nil
  | f :: fs =>
    .cons (.variant false (rustPascal T d.name (some .out)) (rustPascal T f.name none) (outBinders f))
      (.variantLit (rustPascal T d.name (some .in_)) (rustPascal T f.name none) (args (
        (if f.type.variant = .unit then [] else [intoInvocation (v .payload) f.type.variant]) ++
        (if f.rule = .optional then [.std .boxNew (args [(Ex.paren (.deref (v .fallback))).m .into])] else []))))
      (choiceFromArms T d fs)

/-- `let payload = &();` for variants without payload: lines 1121-1123, 1129-1131. -/
def unitPayload (f : Field) (rest : Ex) : Ex :=
  if f.type.variant = .unit then let' .payload (.ref (.lit .unit)) rest else rest

/-- `atlas`, for choices: lines 1101-1191. -/
def choiceAtlasArms (T : CharTable) (supers : Nat) (d : Declaration) : List Field → Arms
  | [] => .nil
  | f :: fs =>
    .cons (.variant true (rustPascal T d.name (some .out)) (rustPascal T f.name none) (outBinders f))
      (.block (unitPayload f
        (let' .payloadAtlas (atlasCalculation supers true f.type.variant)
        (let' .payloadSize (.brace (let' .payloadAtlas (.ref (v .payloadAtlas)) (atlasLookup f.type.variant)))
        (if f.rule = .required then
          .variantLit (rustPascal T d.name (some .atlas)) (rustPascal T f.name none)
            (args [headerAndPayload supers f, v .payloadAtlas])
        else
          let' .fallbackAtlas ((v .fallback).m .atlas)
          (.variantLit (rustPascal T d.name (some .atlas)) (rustPascal T f.name none)
            (args [.bin .add (headerAndPayload supers f) ((v .fallbackAtlas).m .size), v .payloadAtlas,
              .std .boxNew (args [v .fallbackAtlas])])))))))
      (choiceAtlasArms T supers d fs)

/-- `serialize_with_atlas`, for choices: lines 1193-1283. -/
def choiceSerializeArms (T : CharTable) (supers : Nat) (d : Declaration) : List Field → Arms
  | [] => .cons .wild₂ .panic .nil
  | f :: fs =>
    .cons (.variants (rustPascal T d.name (some .out)) (rustPascal T f.name none) (outBinders f)
        (rustPascal T d.name (some .atlas)) (rustPascal T f.name none)
        ([none, some .payloadAtlas] ++ (if f.rule = .required then [] else [some .fallbackAtlas])))
      (.block (headerThen supers f (serializationInvocation supers true
        (if f.rule = .required then .std .ok (args [.lit .unit])
         else .method (v .fallback) .serializeWithAtlas (args [v .writer, v .fallbackAtlas])) f.type.variant)))
      (choiceSerializeArms T supers d fs)

/-- What follows the payload in an arm of a choice's deserializer: lines 1327-1363. -/
def choiceResult (T : CharTable) (supers : Nat) (d : Declaration) (f : Field) : Ex :=
  let payload := if f.type.variant = .unit then [] else [v .payload]
  let result (l : List Ex) := Ex.seq (.return_ (.std .ok (args [.variantLit (rustPascal T d.name (some .in_))
    (rustPascal T f.name none) (args l)]))) .done
  if f.rule = .optional then
    let' .fallback (.std .boxNew (args [.try_ (.deserialize ⟨0, [], rustPascal T d.name (some .in_)⟩
      (.refMut (.deref (v .reader))))]))
    (result (payload ++ [v .fallback]))
  else tryThen (.runtime supers .finish (args [.refMut (.deref (v .reader))])) (result payload)

/-- `deserialize_from_reader_ref`, for choices: lines 1285-1376. -/
def choiceDeserialize (T : CharTable) (supers : Nat) (s : Schema) (ns : Namespace) (d : Declaration) : Ex :=
  .loop (.letPair .index .payloadSize
    (.try_ (.runtime supers .deserializeFieldHeader (args [.refMut (.deref (v .reader))])))
    (dispatch (indexArms T supers s ns (choiceResult T supers d) d.fields)))

/-- `size`, for choices: lines 1383-1406. -/
def choiceSizeArms (T : CharTable) (d : Declaration) : List Field → Arms
  | [] => .nil
  | f :: fs =>
    .cons (.variant true (rustPascal T d.name (some .atlas)) (rustPascal T f.name none)
        ([some .size, none] ++ (if f.rule = .required then [] else [none])))
      (.deref (v .size)) (choiceSizeArms T d fs)

/-- The code for a declaration in the module `ns`, which has the schema `s`: `write_schema`, lines 515-1408. The number of `super::` is
the number of enclosing modules (`indentation`). -/
def declCode (T : CharTable) (s : Schema) (ns : Namespace) (d : Declaration) : DeclCode :=
  let supers := ns.components.length
  match d.variant with
  | .struct =>
    { name := fun x => rustPascal T d.name (some x)
      types := [structItem T s ns d .atlas, structItem T s ns d .out, structItem T s ns d .in_]
      from_ := structFrom T d
      atlas := structAtlas T supers d
      serializeWithAtlas := structSerialize supers d.fields
      deserializeFromReaderRef := structDeserialize T supers s ns d
      size := .field (v .self) "_size".toList }
  | .choice =>
    { name := fun x => rustPascal T d.name (some x)
      types := [choiceItem T s ns d .atlas, choiceItem T s ns d .out, choiceItem T s ns d .in_]
      from_ := .matchLines (v .message) (choiceFromArms T d d.fields)
      atlas := .matchLines (.deref (v .self)) (choiceAtlasArms T supers d d.fields)
      serializeWithAtlas := .matchLines (.pair (v .self) (v .atlas)) (choiceSerializeArms T supers d d.fields)
      deserializeFromReaderRef := choiceDeserialize T supers s ns d
      size := .matchLines (.deref (v .self)) (choiceSizeArms T d d.fields) }

end Typical.Gen

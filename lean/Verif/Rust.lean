import Verif.Types

/-!
# Model of the generated Rust code: atlases, serialisation, deserialisation

Every definition cites the lines of `/repo/src/generate_rust.rs` which print the corresponding Rust
code.

Simplifications: readers and writers are byte lists without I/O errors; `usize` sizes are natural
numbers (no overflow of size sums; the theorems carry explicit bounds where this matters); memory
allocation is only modelled for the explicit `reserve_exact` calls, which fail (`panic`) when more
than `lim` bytes are requested.
-/

namespace Typical

/-- Outcomes of deserialisation other than success. `eof` and `invalid` are
`ErrorKind::UnexpectedEof` and `ErrorKind::InvalidData`; `panic` is a failed `reserve_exact`; `hang`
is the non-terminating loop of `skip`; `fuel` is an artefact of the model (proved unreachable). -/
inductive Err
  | eof
  | invalid
  | panic
  | hang
  | fuel
  deriving DecidableEq, Repr

/-- A deserialised value and the unread bytes, or a failure. -/
abbrev Res (α : Type) := Except Err (α × Bytes)

/-! ### Field headers -/

/-- `field_header_size`: lines 303-316. -/
def fieldHeaderSize (index : Nat) (payloadSize : Nat) (integerEncoded : Bool) : Nat :=
  let i := UInt64.ofNat index
  match payloadSize with
  | 0 => varintSizeFromValue ((i <<< 2) ||| 0b00)
  | 8 => varintSizeFromValue ((i <<< 2) ||| 0b01)
  | size =>
    if integerEncoded then varintSizeFromValue ((i <<< 2) ||| 0b10)
    else varintSizeFromValue ((i <<< 2) ||| 0b11) + varintSizeFromValue (UInt64.ofNat size)

/-- `serialize_field_header`: lines 318-336. -/
def serializeFieldHeader (index : Nat) (payloadSize : Nat) (integerEncoded : Bool) : Bytes :=
  let i := UInt64.ofNat index
  match payloadSize with
  | 0 => serializeVarint ((i <<< 2) ||| 0b00)
  | 8 => serializeVarint ((i <<< 2) ||| 0b01)
  | size =>
    if integerEncoded then serializeVarint ((i <<< 2) ||| 0b10)
    else serializeVarint ((i <<< 2) ||| 0b11) ++ serializeVarint (UInt64.ofNat size)

/-- `deserialize_field_header`: lines 338-362. `none` is `UnexpectedEof`, the only possible error.
The result is the index, the payload size and the unread bytes (starting with the payload). -/
def deserializeFieldHeader (s : Bytes) : Option (Nat × Nat × Bytes) :=
  match deserializeVarint s with
  | none => none
  | some (tag, s) =>
    let index := (tag >>> 2).toNat
    if tag &&& 0b11 = 0b00 then some (index, 0, s)
    else if tag &&& 0b11 = 0b01 then some (index, 8, s)
    else if tag &&& 0b11 = 0b10 then
      match s with
      | [] => none
      | b :: _ => some (index, varintSizeFromFirstByte b, s)
    else
      match deserializeVarint s with
      | none => none
      | some (size, s) => some (index, size.toNat, s)

/-- `skip` on a reader limited to `n` bytes: lines 364-373. If the reader ends before `n` bytes were
consumed, `fill_buf` returns an empty buffer forever and the loop never ends. -/
def skip (n : Nat) (s : Bytes) : Except Err Bytes :=
  if n ≤ s.length then .ok (s.drop n) else .error .hang

/-! ### Scalars -/

/-- `write_u64_serialization_invocation` with `is_field`: lines 2090-2104. -/
def u64Field (v : UInt64) : Bytes :=
  if v = 0 then []
  else if v ≤ 567382630219903 then serializeVarint v
  else toLeBytes v

/-- Size of a `U64` field: `write_atlas_calculation`, lines 1886-1902. -/
def u64FieldSize (v : UInt64) : Nat :=
  if v = 0 then 0
  else if v ≤ 567382630219903 then varintSizeFromValue v
  else 8

/-- `write_deserialization_invocation` for `U64` with `is_field`: lines 2350-2376. -/
def readU64Field (n : Nat) (s : Bytes) : Res UInt64 :=
  match n with
  | 0 => .ok (0, s)
  | 8 =>
    match readExact 8 s with
    | none => .error .eof
    | some (b, s) => .ok (fromLeBytes b, s)
  | _ =>
    match deserializeVarint s with
    | none => .error .eof
    | some r => .ok r

/-- `write_deserialization_invocation` for `U64` without `is_field`: lines 2377-2381. -/
def readU64Elem (s : Bytes) : Res UInt64 :=
  match deserializeVarint s with
  | none => .error .eof
  | some r => .ok r

/-- `u64::from(bool)`: line 2008. -/
def boolToU64 (b : Bool) : UInt64 := if b then 1 else 0

/-- `write_serialization_invocation` for `F64` with `is_field`: lines 2037-2044. -/
def f64Field (v : UInt64) : Bytes := if v ≠ 0 then toLeBytes v else []

/-- Size of an `F64` field: `write_atlas_calculation`, lines 1869-1875. -/
def f64FieldSize (v : UInt64) : Nat := if v = 0 then 0 else 8

/-- Serialisation of a scalar field: `write_serialization_invocation`, lines 2011-2073. -/
def serScalarField : (s : Scalar) → s.Val → Bytes
  | .bool, b => u64Field (boolToU64 b)
  | .s64, v => u64Field (zigzagEncode v)
  | .u64, v => u64Field v
  | .f64, v => f64Field v

/-- Serialisation of a scalar array element: the same lines with `is_field` unset. -/
def serScalarElem : (s : Scalar) → s.Val → Bytes
  | .bool, b => serializeVarint (boolToU64 b)
  | .s64, v => serializeVarint (zigzagEncode v)
  | .u64, v => serializeVarint v
  | .f64, v => toLeBytes v

/-- Size of a scalar field: `write_atlas_calculation`, lines 1859-1908. -/
def scalarFieldSize : (s : Scalar) → s.Val → Nat
  | .bool, b => cond b 1 0
  | .s64, v => u64FieldSize (zigzagEncode v)
  | .u64, v => u64FieldSize v
  | .f64, v => f64FieldSize v

/-- Size of a scalar array element: the same lines with `is_field` unset. -/
def scalarElemSize : (s : Scalar) → s.Val → Nat
  | .bool, _ => 1
  | .s64, v => varintSizeFromValue (zigzagEncode v)
  | .u64, v => varintSizeFromValue v
  | .f64, _ => 8

/-- Size of an array of scalars: `write_atlas_calculation`, lines 1843-1850. -/
def scalarsSize : (s : Scalar) → List s.Val → Nat
  | .f64, vs => 8 * vs.length
  | s, vs => vs.foldl (fun x v => x + scalarElemSize s v) 0

/-- Deserialisation of a scalar field with payload size `n`: lines 2266-2276, 2297-2336, 2350-2376. -/
def readScalarField : (s : Scalar) → Nat → Bytes → Res s.Val
  | .bool, n, s =>
    match readU64Field n s with
    | .error e => .error e
    | .ok (v, s) => .ok (v != 0, s)
  | .s64, n, s =>
    match readU64Field n s with
    | .error e => .error e
    | .ok (v, s) => .ok (zigzagDecode v, s)
  | .u64, n, s => readU64Field n s
  | .f64, n, s =>
    if n = 0 then .ok ((0 : UInt64), s)
    else
      match readExact 8 s with
      | none => .error .eof
      | some (b, s) => .ok (fromLeBytes b, s)

/-- Deserialisation of a scalar array element: the same lines with `is_field` unset. `none` is
`UnexpectedEof`, the only possible error. -/
def readScalarElem : (s : Scalar) → Bytes → Option (s.Val × Bytes)
  | .bool, s =>
    match deserializeVarint s with
    | none => none
    | some (v, s) => some (v != 0, s)
  | .s64, s =>
    match deserializeVarint s with
    | none => none
    | some (v, s) => some (zigzagDecode v, s)
  | .u64, s => deserializeVarint s
  | .f64, s =>
    match readExact 8 s with
    | none => none
    | some (b, s) => some (fromLeBytes b, s)

/-- `integer_encoded`: lines 2389-2399. -/
def Ty.integerEncoded : Ty → Bool
  | .scalar .bool => true
  | .scalar .s64 => true
  | .scalar .u64 => true
  | _ => false

/-! ### Atlases -/

mutual
/-- The generated atlas types: `write_type`, `write_struct`, `write_choice` with
`Direction::Atlas`, lines 1420-1562 and 1608-1720. -/
def CTy.Atlas : CTy → Type
  | .bytes => Nat
  | .string => Nat
  | .units => Nat
  | .scalars _ => Nat
  | .array c => Nat × List (CTy.Atlas c)
  | .struct fs => Nat × Fields.AtlasStruct fs
  | .choice fs => Chain (Nat × Fields.AtlasSel true fs) (Nat × Fields.AtlasSel false fs)

/-- Atlas of a field's payload. -/
def Ty.Atlas : Ty → Type
  | .unit => Nat
  | .scalar _ => Nat
  | .comp c => CTy.Atlas c

/-- Members of a struct's atlas, besides `_size`. -/
def Fields.AtlasStruct : Fields → Type
  | .nil => Unit
  | .cons _ r t rest => Slot (r.mayOmit .out) (Ty.Atlas t) × Fields.AtlasStruct rest

/-- Payload atlas in a variant of a choice's atlas. -/
def Fields.AtlasSel (fb : Bool) : Fields → Type
  | .nil => Empty
  | .cons _ r t rest => Guard (r.hasFallback .out = fb) (Ty.Atlas t) ⊕ Fields.AtlasSel fb rest
end

/-- `write_atlas_lookup` (lines 1919-1944) and the `size` methods of atlases (lines 958-972 and
1383-1406), for composite types. -/
def CTy.atlasSize : (c : CTy) → c.Atlas → Nat
  | .bytes, a => a
  | .string, a => a
  | .units, a => a
  | .scalars _, a => a
  | .array _, a => a.1
  | .struct _, a => a.1
  | .choice _, .last a => a.1
  | .choice _, .more a _ => a.1

/-- `write_atlas_lookup`: lines 1919-1944. -/
def Ty.atlasSize : (t : Ty) → t.Atlas → Nat
  | .unit, a => a
  | .scalar _, a => a
  | .comp c, a => c.atlasSize a

mutual
/-- `write_atlas_calculation` (lines 1816-1913) and the `atlas` methods of structs (lines 634-736)
and choices (lines 1101-1192). -/
def CTy.atlas (isField : Bool) : (c : CTy) → c.Msg .out → c.Atlas
  | .bytes, m => List.length (α := UInt8) m
  | .string, m => m.bytes.length
  | .units, n => if isField then u64FieldSize n else varintSizeFromValue n
  | .scalars s, m => scalarsSize s m
  | .array c, m =>
    let atlases := m.map (CTy.atlas false c)
    (atlases.foldl
      (fun x a => x + varintSizeFromValue (UInt64.ofNat (c.atlasSize a)) + c.atlasSize a) 0, atlases)
  | .struct fs, m => Fields.structAtlas fs m
  | .choice fs, m => chainAtlas (Fields.selAtlas fs) (Fields.selAtlas fs) m
where
  /-- The recursion through fallbacks of a choice's `atlas` method: lines 1152-1188. -/
  chainAtlas {α β α' β' : Type} (f : α → Nat × α') (g : β → Nat × β') :
      Chain α β → Chain (Nat × α') (Nat × β')
    | .last b => .last (g b)
    | .more a rest =>
      let fallbackAtlas := chainAtlas f g rest
      let size := match fallbackAtlas with
        | .last b => b.1
        | .more a _ => a.1
      .more ((f a).1 + size, (f a).2) fallbackAtlas

/-- `write_atlas_calculation` with `is_field`: lines 1816-1913. -/
def Ty.atlas : (t : Ty) → t.Msg .out → t.Atlas
  | .unit, _ => (0 : Nat)
  | .scalar s, v => scalarFieldSize s v
  | .comp c, m => CTy.atlas true c m

/-- The `atlas` method of structs: lines 634-736. The size is the sum, over the members present, of
header size and payload size. -/
def Fields.structAtlas : (fs : Fields) → fs.Struct .out → Nat × fs.AtlasStruct
  | .nil, _ => (0, ())
  | .cons i _ t rest, (slot, m) =>
    let a := Slot.map (Ty.atlas t) slot
    let size := match Slot.get? a with
      | none => 0
      | some a => fieldHeaderSize i (t.atlasSize a) t.integerEncoded + t.atlasSize a
    let r := Fields.structAtlas rest m
    (size + r.1, (a, r.2))

/-- The `atlas` method of choices for one variant, without its fallback: lines 1106-1188. -/
def Fields.selAtlas {fb : Bool} : (fs : Fields) → fs.Sel .out fb → Nat × fs.AtlasSel fb
  | .nil, e => e.elim
  | .cons i _ t _, .inl p =>
    let a := Ty.atlas t p.val
    (fieldHeaderSize i (t.atlasSize a) t.integerEncoded + t.atlasSize a, .inl ⟨a, p.ok⟩)
  | .cons _ _ _ rest, .inr p =>
    let r := Fields.selAtlas rest p
    (r.1, .inr r.2)
end

/-! ### Serialisation -/

/-- Concatenation of optional outputs, `none` being a panic. -/
def catOpt (a b : Option Bytes) : Option Bytes :=
  match a, b with
  | some a, some b => some (a ++ b)
  | _, _ => none

mutual
/-- `write_serialization_invocation` (lines 1957-2075) and the `serialize_with_atlas` methods of
structs (lines 737-800) and choices (lines 1193-1284). `none` is the `panic!()` of line 1275. -/
def CTy.serWith (isField : Bool) : (c : CTy) → c.Msg .out → c.Atlas → Option Bytes
  | .bytes, m, _ => some m
  | .string, m, _ => some m.bytes
  | .units, n, _ => some (if isField then u64Field n else serializeVarint n)
  | .scalars s, m, _ => some (m.flatMap (serScalarElem s))
  | .array c, m, a =>
    (m.zip a.2).foldr
      (fun p acc => catOpt
        (catOpt (some (serializeVarint (UInt64.ofNat (c.atlasSize p.2)))) (CTy.serWith false c p.1 p.2))
        acc)
      (some [])
  | .struct fs, m, a => Fields.structSer fs m a.2
  | .choice fs, m, a => chainSer (Fields.selSer fs) (Fields.selSer fs) m a
where
  /-- The recursion through fallbacks of a choice's `serialize_with_atlas`: lines 1193-1284. The
  last two cases are the `panic!()`. -/
  chainSer {α β α' β' : Type} (f : α → α' → Option Bytes) (g : β → β' → Option Bytes) :
      Chain α β → Chain (Nat × α') (Nat × β') → Option Bytes
    | .last b, .last b' => g b b'.2
    | .more a rest, .more a' rest' => catOpt (f a a'.2) (chainSer f g rest rest')
    | .last _, .more _ _ => none
    | .more _ _, .last _ => none

/-- `write_serialization_invocation` with `is_field`: lines 1957-2075. -/
def Ty.serWith : (t : Ty) → t.Msg .out → t.Atlas → Option Bytes
  | .unit, _, _ => some []
  | .scalar s, v, _ => some (serScalarField s v)
  | .comp c, m, a => CTy.serWith true c m a

/-- `serialize_with_atlas` of structs: lines 737-800. -/
def Fields.structSer : (fs : Fields) → fs.Struct .out → fs.AtlasStruct → Option Bytes
  | .nil, _, _ => some []
  | .cons i _ t rest, (slot, m), (aslot, a) =>
    catOpt
      (match Slot.get? slot, Slot.get? aslot with
       | some p, some pa =>
         catOpt (some (serializeFieldHeader i (t.atlasSize pa) t.integerEncoded)) (Ty.serWith t p pa)
       | _, _ => some [])
      (Fields.structSer rest m a)

/-- `serialize_with_atlas` of choices for one variant, without its fallback: lines 1208-1272. -/
def Fields.selSer {fb : Bool} : (fs : Fields) → fs.Sel .out fb → fs.AtlasSel fb → Option Bytes
  | .nil, e, _ => e.elim
  | .cons i _ t _, .inl p, .inl pa =>
    catOpt (some (serializeFieldHeader i (t.atlasSize pa.val) t.integerEncoded))
      (Ty.serWith t p.val pa.val)
  | .cons _ _ _ rest, .inr p, .inr pa => Fields.selSer rest p pa
  | .cons _ _ _ _, .inl _, .inr _ => none
  | .cons _ _ _ _, .inr _, .inl _ => none
end

/-- `Serialize::size`: `write_size_function`, lines 1564-1571. -/
def size (c : CTy) (m : c.Msg .out) : Nat := c.atlasSize (c.atlas false m)

/-- `Serialize::serialize`: `write_serialize_function`, lines 1574-1589. `none` is a panic. -/
def serialize (c : CTy) (m : c.Msg .out) : Option Bytes := c.serWith false m (c.atlas false m)

/-! ### Deserialisation -/

/-- `From<Out> for In` for slots: lines 590-622. -/
def Slot.toIn {α β : Type} (f : α → β) (r : Rule) :
    Slot (r.mayOmit .out) α → Slot (r.mayOmit .inn) β :=
  match r with
  | .asymmetric => fun a => some (f a)
  | .optional => fun o => Option.map f o
  | .required => fun a => f a

mutual
/-- The deserialiser's working state for a struct: one `Option` per field, lines 819-829. -/
def Fields.Slots : Fields → Type
  | .nil => Unit
  | .cons _ _ t rest => Option (Ty.Msg .inn t) × Fields.Slots rest
end

/-- Initially all slots are `None`: lines 819-829. -/
def Fields.emptySlots : (fs : Fields) → fs.Slots
  | .nil => ()
  | .cons _ _ _ rest => (none, rest.emptySlots)

/-- Conversion of one slot at the end of a struct: `None` for a missing required field. -/
def finishSlot {α : Type} : (b : Bool) → Option α → Option (Slot b α)
  | true, o => some o
  | false, o => o

/-- The check for missing required fields and the construction of the struct: lines 898-957. `none`
stands for the `InvalidData` error. -/
def Fields.finish : (fs : Fields) → fs.Slots → Option (fs.Struct .inn)
  | .nil, _ => some ()
  | .cons _ r _ rest, (o, os) =>
    match finishSlot (r.mayOmit .inn) o, rest.finish os with
    | some a, some b => some (a, b)
    | _, _ => none

/-- `Option::get_or_insert`: line 884. The first value wins. -/
def getOrInsert {α : Type} (o : Option α) (a : α) : Option α :=
  match o with
  | none => some a
  | some b => some b

/-- The loop of `deserialize_from_reader_ref` for structs: lines 831-896. `step` is the `match index`
statement; it returns `none` for an unrecognised index. -/
def structLoop {σ : Type} (step : Nat → Nat → Bytes → σ → Except Err (Option (σ × Bytes))) :
    Nat → Bytes → σ → Except Err σ
  | 0, _, _ => .error .fuel
  | fuel + 1, s, st =>
    match deserializeFieldHeader s with
    | none => .ok st
    | some (index, n, s) =>
      match step index n (s.take n) st with
      | .error e => .error e
      | .ok (some (st, rest)) => structLoop step fuel (rest ++ s.drop n) st
      | .ok none =>
        match skip n s with
        | .error e => .error e
        | .ok s => structLoop step fuel s st

/-- The loop of `deserialize_from_reader_ref` for choices: lines 1285-1376. The `finish` call after a
field without fallback consumes the rest of the reader. -/
def choiceLoop {α β : Type} (step : Nat → Nat → Bytes → Except Err (Option ((α ⊕ β) × Bytes))) :
    Nat → Bytes → Except Err (Chain α β)
  | 0, _ => .error .fuel
  | fuel + 1, s =>
    match deserializeFieldHeader s with
    | none => .error .eof
    | some (index, n, s) =>
      match step index n (s.take n) with
      | .error e => .error e
      | .ok (some (.inr b, _)) => .ok (.last b)
      | .ok (some (.inl a, rest)) =>
        match choiceLoop step fuel (rest ++ s.drop n) with
        | .error e => .error e
        | .ok fallback => .ok (.more a fallback)
      | .ok none =>
        match skip n s with
        | .error e => .error e
        | .ok s => choiceLoop step fuel s

/-- The loop reading an array of composite elements: lines 2135-2188. It stops at the end of the
reader, even in the middle of an element's size. -/
def arrayLoop {α : Type} (elem : Nat → Bytes → Res α) : Nat → Bytes → Except Err (List α)
  | 0, _ => .error .fuel
  | fuel + 1, s =>
    match deserializeVarint s with
    | none => .ok []
    | some (n, s) =>
      match elem n.toNat (s.take n.toNat) with
      | .error e => .error e
      | .ok (a, rest) =>
        match arrayLoop elem fuel (rest ++ s.drop n.toNat) with
        | .error e => .error e
        | .ok as => .ok (a :: as)

/-- The loop reading an array of scalars: lines 2190-2252. It stops at the end of the reader, even in
the middle of an element. -/
def scalarLoop {α : Type} (elem : Bytes → Option (α × Bytes)) : Nat → Bytes → Except Err (List α)
  | 0, _ => .error .fuel
  | fuel + 1, s =>
    match elem s with
    | none => .ok []
    | some (a, s) =>
      match scalarLoop elem fuel s with
      | .error e => .error e
      | .ok as => .ok (a :: as)

mutual
/-- `write_deserialization_invocation` (lines 2124-2386) and `deserialize_from_reader_ref` of structs
(lines 804-957) and choices (lines 1285-1376). `n` is `payload_size`; the byte list is the
`sub_reader`, already limited to `n` bytes. `lim` bounds the number of bytes `reserve_exact` can
allocate. All loops consume at least one byte per iteration, so `length + 1` rounds suffice
(proved: `fuel` never occurs). -/
def CTy.deser (lim : Nat) (isField : Bool) : (c : CTy) → Nat → Bytes → Res (c.Msg .inn)
  | .bytes, n, s => if n ≤ lim then .ok (s, []) else .error .panic
  | .string, n, s =>
    if n ≤ lim then
      if h : validUtf8 s = true then .ok (⟨s, h⟩, []) else .error .invalid
    else .error .panic
  | .units, n, s => if isField then readU64Field n s else readU64Elem s
  | .scalars sc, n, s =>
    if sc = .f64 ∧ ¬ 8 * n ≤ lim then .error .panic
    else
      match scalarLoop (readScalarElem sc) (s.length + 1) s with
      | .error e => .error e
      | .ok as => .ok (as, [])
  | .array c, _, s =>
    match arrayLoop (CTy.deser lim false c) (s.length + 1) s with
    | .error e => .error e
    | .ok as => .ok (as, [])
  | .struct fs, _, s =>
    match structLoop (Fields.step lim fs) (s.length + 1) s fs.emptySlots with
    | .error e => .error e
    | .ok slots =>
      match fs.finish slots with
      | none => .error .invalid
      | some m => .ok (m, [])
  | .choice fs, _, s =>
    match choiceLoop (Fields.select lim fs) (s.length + 1) s with
    | .error e => .error e
    | .ok m => .ok (m, [])

/-- `write_deserialization_invocation` with `is_field`: lines 2124-2386. -/
def Ty.deser (lim : Nat) : (t : Ty) → Nat → Bytes → Res (t.Msg .inn)
  | .unit, _, s => .ok ((), s)
  | .scalar sc, n, s => readScalarField sc n s
  | .comp c, n, s => CTy.deser lim true c n s

/-- The `match index` statement of a struct's deserialiser: lines 868-893. -/
def Fields.step (lim : Nat) :
    (fs : Fields) → Nat → Nat → Bytes → fs.Slots → Except Err (Option (fs.Slots × Bytes))
  | .nil, _, _, _, _ => .ok none
  | .cons i _ t rest, index, n, s, (o, os) =>
    if index = i then
      match Ty.deser lim t n s with
      | .error e => .error e
      | .ok (v, s) => .ok (some ((getOrInsert o v, os), s))
    else
      match Fields.step lim rest index n s os with
      | .error e => .error e
      | .ok none => .ok none
      | .ok (some (os, s)) => .ok (some ((o, os), s))

/-- The `match index` statement of a choice's deserialiser: lines 1314-1370. -/
def Fields.select (lim : Nat) :
    (fs : Fields) → Nat → Nat → Bytes →
      Except Err (Option ((fs.Sel .inn true ⊕ fs.Sel .inn false) × Bytes))
  | .nil, _, _, _ => .ok none
  | .cons i r t rest, index, n, s =>
    if index = i then
      match Ty.deser lim t n s with
      | .error e => .error e
      | .ok (v, s) =>
        if h : r.hasFallback .inn = true then .ok (some (.inl (.inl ⟨v, h⟩), s))
        else .ok (some (.inr (.inl ⟨v, Bool.not_eq_true _ ▸ h⟩), s))
    else
      match Fields.select lim rest index n s with
      | .error e => .error e
      | .ok none => .ok none
      | .ok (some (.inl a, s)) => .ok (some (.inl (.inr a), s))
      | .ok (some (.inr a, s)) => .ok (some (.inr (.inr a), s))
end

/-- `Deserialize::deserialize`: `write_deserialize_function`, lines 1592-1605. -/
def deserialize (lim : Nat) (c : CTy) (s : Bytes) : Except Err (c.Msg .inn) :=
  match c.deser lim false s.length s with
  | .error e => .error e
  | .ok (m, _) => .ok m

/-! ### In-memory conversion -/

/-- The `From<Out> for In` conversion of a choice: lines 1038-1100. `f` converts a variant with fallback
on the writer's side: it either keeps its fallback (optional) or drops it (asymmetric). -/
def Chain.toIn {α β α' β' : Type} (f : α → α' ⊕ β') (g : β → β') : Chain α β → Chain α' β'
  | .last b => .last (g b)
  | .more a rest =>
    match f a with
    | .inl a' => .more a' (Chain.toIn f g rest)
    | .inr b' => .last b'

mutual
/-- `From<Out> for In` and `write_into_invocation`: lines 580-630, 1038-1100, 1781-1807. -/
def CTy.toIn : (c : CTy) → c.Msg .out → c.Msg .inn
  | .bytes, m => m
  | .string, m => m
  | .units, m => m
  | .scalars _, m => m
  | .array c, m => m.map (CTy.toIn c)
  | .struct fs, m => Fields.structToIn fs m
  | .choice fs, m => Chain.toIn (Fields.linkToIn fs) (Fields.lastToIn fs) m

/-- Conversion of a payload. -/
def Ty.toIn : (t : Ty) → t.Msg .out → t.Msg .inn
  | .unit, m => m
  | .scalar _, m => m
  | .comp c, m => CTy.toIn c m

/-- Conversion of a struct: lines 580-630. -/
def Fields.structToIn : (fs : Fields) → fs.Struct .out → fs.Struct .inn
  | .nil, _ => ()
  | .cons _ r t rest, (slot, m) => (Slot.toIn (Ty.toIn t) r slot, Fields.structToIn rest m)

/-- Conversion of a variant with fallback: lines 1056-1096. -/
def Fields.linkToIn : (fs : Fields) → fs.Sel .out true → fs.Sel .inn true ⊕ fs.Sel .inn false
  | .nil, e => e.elim
  | .cons _ r t _, .inl p =>
    if h : r.hasFallback .inn = true then .inl (.inl ⟨Ty.toIn t p.val, h⟩)
    else .inr (.inl ⟨Ty.toIn t p.val, Bool.not_eq_true _ ▸ h⟩)
  | .cons _ _ _ rest, .inr p =>
    match Fields.linkToIn rest p with
    | .inl a => .inl (.inr a)
    | .inr b => .inr (.inr b)

/-- Conversion of a variant without fallback (a required field): lines 1056-1096. -/
def Fields.lastToIn : (fs : Fields) → fs.Sel .out false → fs.Sel .inn false
  | .nil, e => e.elim
  | .cons _ r t _, .inl p =>
    .inl ⟨Ty.toIn t p.val, by have := p.ok; cases r <;> simp_all [Rule.hasFallback]⟩
  | .cons _ _ _ rest, .inr p => .inr (Fields.lastToIn rest p)
end

end Typical

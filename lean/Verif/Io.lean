import Verif.Rust

/-!
# Model of the generated Rust code over real readers and writers

`Verif/Rust.lean` models readers and writers as byte lists. Here they are devices: a reader is
anything which, call by call, delivers some bytes, reports an error or is interrupted; a writer
accepts some bytes, reports an error or is interrupted. The definitions follow the same lines of
`/repo/src/generate_rust.rs` as those of `Verif/Rust.lean`, but each call of `read_exact`,
`read_to_end`, `read_to_string`, `fill_buf`, `consume`, `take` and `write_all` is executed on the
device, with the semantics of the Rust standard library.

Simplifications: a device ends after finitely many calls (for readers: end of file from then on; for
writers: everything is accepted from then on). Memory allocation as in `Verif/Rust.lean`.
-/

namespace Typical

/-- `std::io::ErrorKind`. -/
inductive Kind
  | unexpectedEof
  | invalidData
  | interrupted
  | writeZero
  | other (code : Nat)
  deriving DecidableEq, Repr

/-- Outcomes other than success: an I/O error, or the same non-results as `Err`. -/
inductive IoErr
  | io (k : Kind)
  | panic
  | hang
  | fuel
  deriving DecidableEq, Repr

/-- What one call of the device's `read` yields: at least one byte, or an error. -/
inductive Event
  | data (b : UInt8) (bs : Bytes)
  | fail (k : Kind)
  deriving DecidableEq, Repr

/-- A reader: a buffered device (`BufRead`: the bytes in its buffer and what its next calls will
yield), or `Read::take` of a reader. -/
inductive Reader
  | device (buf : Bytes) (events : List Event)
  | take (limit : Nat) (inner : Reader)

/-- A computation with a reader: the reader's state afterwards matters also after an error. -/
abbrev ReadM (α : Type) := Reader → Except IoErr α × Reader

/-- `BufRead::fill_buf` of `BufReader` and of `Take` (Rust standard library). -/
def Reader.fillBuf : Reader → Except Kind Bytes × Reader
  | .device (b :: buf) events => (.ok (b :: buf), .device (b :: buf) events)
  | .device [] [] => (.ok [], .device [] [])
  | .device [] (.data b bs :: events) => (.ok (b :: bs), .device (b :: bs) events)
  | .device [] (.fail k :: events) => (.error k, .device [] events)
  | .take limit inner =>
    if limit = 0 then (.ok [], .take limit inner)
    else
      match inner.fillBuf with
      | (.error k, inner) => (.error k, .take limit inner)
      | (.ok buf, inner) => (.ok (buf.take limit), .take limit inner)

/-- `BufRead::consume` of `BufReader` and of `Take` (Rust standard library). -/
def Reader.consume : Reader → Nat → Reader
  | .device buf events, n => .device (buf.drop n) events
  | .take limit inner, n => .take (limit - min n limit) (inner.consume (min n limit))

/-- `Read::read` into a buffer of `n` bytes, of `BufReader` and of `Take` (Rust standard library). -/
def Reader.read : Reader → Nat → Except Kind Bytes × Reader
  | .device buf events, n =>
    match (Reader.device buf events).fillBuf with
    | (.error k, r) => (.error k, r)
    | (.ok b, r) => (.ok (b.take n), r.consume (b.take n).length)
  | .take limit inner, n =>
    if limit = 0 then (.ok [], .take limit inner)
    else
      match inner.read (min n limit) with
      | (.error k, inner) => (.error k, .take limit inner)
      | (.ok b, inner) => (.ok b, .take (limit - b.length) inner)

/-- A bound on the number of further calls of the device which do not report its end. -/
def Reader.calls : Reader → Nat
  | .device buf events => buf.length + (events.map fun
    | .data _ bs => bs.length + 2
    | .fail _ => 1).sum
  | .take _ inner => inner.calls

/-- The loop of `Read::read_exact` (`default_read_exact` of the Rust standard library): calls of
`read` until all bytes are there, again after `Interrupted`. -/
def readExactLoop : Nat → Nat → ReadM Bytes
  | 0, _, r => (.error .fuel, r)
  | fuel + 1, n, r =>
    if n = 0 then (.ok [], r)
    else
      match r.read n with
      | (.error .interrupted, r) => readExactLoop fuel n r
      | (.error k, r) => (.error (.io k), r)
      | (.ok b, r) =>
        if b.length = 0 then (.error (.io .unexpectedEof), r)
        else
          match readExactLoop fuel (n - b.length) r with
          | (.ok bs, r) => (.ok (b ++ bs), r)
          | (.error e, r) => (.error e, r)

/-- `Read::read_exact` of `n` bytes. -/
def readExactR (n : Nat) : ReadM Bytes := fun r => readExactLoop (r.calls + 1) n r

/-- The loop of `Read::read_to_end` (`default_read_to_end` of the Rust standard library): calls of
`read` (with buffers of `chunk` bytes) until one of them yields nothing, again after `Interrupted`. -/
def readToEndLoop (chunk : Nat) : Nat → ReadM Bytes
  | 0, r => (.error .fuel, r)
  | fuel + 1, r =>
    match r.read chunk with
    | (.error .interrupted, r) => readToEndLoop chunk fuel r
    | (.error k, r) => (.error (.io k), r)
    | (.ok b, r) =>
      if b.length = 0 then (.ok [], r)
      else
        match readToEndLoop chunk fuel r with
        | (.ok bs, r) => (.ok (b ++ bs), r)
        | (.error e, r) => (.error e, r)

/-- `Read::read_to_end`. The sizes of the buffers depend on the vector's spare capacity; here they
are all 32 bytes, which is the size of the standard library's probe. -/
def readToEndR : ReadM Bytes := fun r => readToEndLoop 32 (r.calls + 1) r

/-! ### Runtime functions -/

/-- `deserialize_varint`: lines 274-301. -/
def deserializeVarintR : ReadM UInt64 := fun r =>
  match readExactR 1 r with
  | (.error e, r) => (.error e, r)
  | (.ok b, r) =>
    let first := b.headD 0
    match readExactR (trailingZeros first) r with
    | (.error e, r) => (.error e, r)
    | (.ok remaining, r) =>
      let rest := fromLeBytes remaining
      match trailingZeros first with
      | 0 => (.ok (first >>> 1).toUInt64, r)
      | 1 => (.ok ((128 : UInt64) + (first >>> 2).toUInt64 + (rest <<< 6)), r)
      | 2 => (.ok ((16512 : UInt64) + (first >>> 3).toUInt64 + (rest <<< 5)), r)
      | 3 => (.ok ((2113664 : UInt64) + (first >>> 4).toUInt64 + (rest <<< 4)), r)
      | 4 => (.ok ((270549120 : UInt64) + (first >>> 5).toUInt64 + (rest <<< 3)), r)
      | 5 => (.ok ((34630287488 : UInt64) + (first >>> 6).toUInt64 + (rest <<< 2)), r)
      | 6 => (.ok ((4432676798592 : UInt64) + (first >>> 7).toUInt64 + (rest <<< 1)), r)
      | 7 => (.ok ((567382630219904 : UInt64) + rest), r)
      | _ => (.ok ((72624976668147840 : UInt64) + rest), r)

/-- `deserialize_field_header`: lines 338-362. -/
def deserializeFieldHeaderR : ReadM (Nat × Nat) := fun r =>
  match deserializeVarintR r with
  | (.error e, r) => (.error e, r)
  | (.ok tag, r) =>
    let index := (tag >>> 2).toNat
    if tag &&& 0b11 = 0b00 then (.ok (index, 0), r)
    else if tag &&& 0b11 = 0b01 then (.ok (index, 8), r)
    else if tag &&& 0b11 = 0b10 then
      match r.fillBuf with
      | (.error k, r) => (.error (.io k), r)
      | (.ok [], r) => (.error (.io .unexpectedEof), r)
      | (.ok (b :: _), r) => (.ok (index, varintSizeFromFirstByte b), r)
    else
      match deserializeVarintR r with
      | (.error e, r) => (.error e, r)
      | (.ok size, r) => (.ok (index, size.toNat), r)

/-- The loop of `skip`: lines 364-373. When `fill_buf` yields nothing, nothing changes, and the loop
goes on forever. -/
def skipLoop : Nat → Nat → ReadM Unit
  | 0, _, r => (.error .fuel, r)
  | fuel + 1, amount, r =>
    if amount = 0 then (.ok (), r)
    else
      match r.fillBuf with
      | (.error k, r) => (.error (.io k), r)
      | (.ok [], r) => (.error .hang, r)
      | (.ok (b :: bs), r) =>
        let n := min (b :: bs).length amount
        skipLoop fuel (amount - n) (r.consume n)

/-- `skip`: lines 364-373. -/
def skipR (amount : Nat) : ReadM Unit := fun r => skipLoop (r.calls + 1) amount r

/-- The loop of `finish`: lines 375-386. -/
def finishLoop : Nat → ReadM Unit
  | 0, r => (.error .fuel, r)
  | fuel + 1, r =>
    match r.fillBuf with
    | (.error k, r) => (.error (.io k), r)
    | (.ok [], r) => (.ok (), r)
    | (.ok (b :: bs), r) => finishLoop fuel (r.consume (b :: bs).length)

/-- `finish`: lines 375-386. -/
def finishR : ReadM Unit := fun r => finishLoop (r.calls + 1) r

/-! ### Scalars -/

/-- `write_deserialization_invocation` for `U64` with `is_field`: lines 2350-2376. -/
def readU64FieldR (n : Nat) : ReadM UInt64 := fun r =>
  match n with
  | 0 => (.ok 0, r)
  | 8 =>
    match readExactR 8 r with
    | (.error e, r) => (.error e, r)
    | (.ok b, r) => (.ok (fromLeBytes b), r)
  | _ => deserializeVarintR r

/-- Applying a function to the value read. -/
def ReadM.map {α β : Type} (f : α → β) (x : ReadM α) : ReadM β := fun r =>
  match x r with
  | (.error e, r) => (.error e, r)
  | (.ok a, r) => (.ok (f a), r)

/-- Deserialisation of a scalar field: lines 2266-2276, 2297-2336, 2350-2376. -/
def readScalarFieldR : (s : Scalar) → Nat → ReadM s.Val
  | .bool, n => (readU64FieldR n).map (· != 0)
  | .s64, n => (readU64FieldR n).map zigzagDecode
  | .u64, n => readU64FieldR n
  | .f64, n => fun r =>
    if n = 0 then (.ok (0 : UInt64), r) else (readExactR 8).map fromLeBytes r

/-- Deserialisation of a scalar array element: the same lines with `is_field` unset. -/
def readScalarElemR : (s : Scalar) → ReadM s.Val
  | .bool => deserializeVarintR.map (· != 0)
  | .s64 => deserializeVarintR.map zigzagDecode
  | .u64 => deserializeVarintR
  | .f64 => (readExactR 8).map fromLeBytes

/-! ### Deserialisation -/

/-- The reader inside a `Take`, when the borrow ends. -/
def Reader.inner : Reader → Reader
  | .take _ inner => inner
  | r => r

/-- The loop of `deserialize_from_reader_ref` for structs: lines 831-896. `step` is the `match index`
statement; it returns `none` for an unrecognised index. An error of kind `UnexpectedEof` while
reading a header ends the struct. -/
def structLoopR {σ : Type} (step : Nat → Nat → σ → ReadM (Option σ)) : Nat → σ → ReadM σ
  | 0, _, r => (.error .fuel, r)
  | fuel + 1, st, r =>
    match deserializeFieldHeaderR r with
    | (.error (.io .unexpectedEof), r) => (.ok st, r)
    | (.error e, r) => (.error e, r)
    | (.ok (index, n), r) =>
      match step index n st (.take n r) with
      | (.error e, r) => (.error e, r.inner)
      | (.ok (some st), r) => structLoopR step fuel st r.inner
      | (.ok none, r) =>
        match skipR n r with
        | (.error e, r) => (.error e, r.inner)
        | (.ok (), r) => structLoopR step fuel st r.inner

/-- `deserialize_from_reader_ref` for choices: lines 1285-1376. -/
def choiceLoopR {α β : Type} (step : Nat → Nat → ReadM (Option (α ⊕ β))) : Nat → ReadM (Chain α β)
  | 0, r => (.error .fuel, r)
  | fuel + 1, r =>
    match deserializeFieldHeaderR r with
    | (.error e, r) => (.error e, r)
    | (.ok (index, n), r) =>
      match step index n (.take n r) with
      | (.error e, r) => (.error e, r.inner)
      | (.ok (some (.inr b)), r) =>
        match finishR r.inner with
        | (.error e, r) => (.error e, r)
        | (.ok (), r) => (.ok (.last b), r)
      | (.ok (some (.inl a)), r) =>
        match choiceLoopR step fuel r.inner with
        | (.error e, r) => (.error e, r)
        | (.ok fallback, r) => (.ok (.more a fallback), r)
      | (.ok none, r) =>
        match skipR n r with
        | (.error e, r) => (.error e, r.inner)
        | (.ok (), r) => choiceLoopR step fuel r.inner

/-- The loop reading an array of composite elements: lines 2135-2188. An error of kind
`UnexpectedEof` while reading an element's size ends the array. -/
def arrayLoopR {α : Type} (elem : Nat → ReadM α) : Nat → ReadM (List α)
  | 0, r => (.error .fuel, r)
  | fuel + 1, r =>
    match deserializeVarintR r with
    | (.error (.io .unexpectedEof), r) => (.ok [], r)
    | (.error e, r) => (.error e, r)
    | (.ok n, r) =>
      match elem n.toNat (.take n.toNat r) with
      | (.error e, r) => (.error e, r.inner)
      | (.ok a, r) =>
        match arrayLoopR elem fuel r.inner with
        | (.error e, r) => (.error e, r)
        | (.ok as, r) => (.ok (a :: as), r)

/-- The loop reading an array of scalars: lines 2190-2252. An error of kind `UnexpectedEof` while
reading an element ends the array. -/
def scalarLoopR {α : Type} (elem : ReadM α) : Nat → ReadM (List α)
  | 0, r => (.error .fuel, r)
  | fuel + 1, r =>
    match elem r with
    | (.error (.io .unexpectedEof), r) => (.ok [], r)
    | (.error e, r) => (.error e, r)
    | (.ok a, r) =>
      match scalarLoopR elem fuel r with
      | (.error e, r) => (.error e, r)
      | (.ok as, r) => (.ok (a :: as), r)

mutual
/-- `write_deserialization_invocation` (lines 2124-2386) and `deserialize_from_reader_ref` of structs
(lines 804-957) and choices (lines 1285-1376). `n` is `payload_size`; the reader is the `sub_reader`.
All loops consume at least one byte per iteration, so `calls + 1` rounds suffice (proved: `fuel` never
occurs). -/
def CTy.deserR (lim : Nat) (isField : Bool) : (c : CTy) → Nat → ReadM (c.Msg .inn)
  | .bytes, n, r => if n ≤ lim then readToEndR r else (.error .panic, r)
  | .string, n, r =>
    if n ≤ lim then
      match readToEndR r with
      | (.error e, r) => (.error e, r)
      | (.ok s, r) =>
        if h : validUtf8 s = true then (.ok ⟨s, h⟩, r) else (.error (.io .invalidData), r)
    else (.error .panic, r)
  | .units, n, r => if isField then readU64FieldR n r else deserializeVarintR r
  | .scalars sc, n, r =>
    if sc = .f64 ∧ ¬ 8 * n ≤ lim then (.error .panic, r)
    else scalarLoopR (readScalarElemR sc) (r.calls + 1) r
  | .array c, _, r => arrayLoopR (CTy.deserR lim false c) (r.calls + 1) r
  | .struct fs, _, r =>
    match structLoopR (Fields.stepR lim fs) (r.calls + 1) fs.emptySlots r with
    | (.error e, r) => (.error e, r)
    | (.ok slots, r) =>
      match fs.finish slots with
      | none => (.error (.io .invalidData), r)
      | some m => (.ok m, r)
  | .choice fs, _, r => choiceLoopR (Fields.selectR lim fs) (r.calls + 1) r

/-- `write_deserialization_invocation` with `is_field`: lines 2124-2386. -/
def Ty.deserR (lim : Nat) : (t : Ty) → Nat → ReadM (t.Msg .inn)
  | .unit, _, r => (.ok (), r)
  | .scalar sc, n, r => readScalarFieldR sc n r
  | .comp c, n, r => CTy.deserR lim true c n r

/-- The `match index` statement of a struct's deserialiser: lines 868-893. -/
def Fields.stepR (lim : Nat) : (fs : Fields) → Nat → Nat → fs.Slots → ReadM (Option fs.Slots)
  | .nil, _, _, _, r => (.ok none, r)
  | .cons i _ t rest, index, n, (o, os), r =>
    if index = i then
      match Ty.deserR lim t n r with
      | (.error e, r) => (.error e, r)
      | (.ok v, r) => (.ok (some (getOrInsert o v, os)), r)
    else
      match Fields.stepR lim rest index n os r with
      | (.error e, r) => (.error e, r)
      | (.ok none, r) => (.ok none, r)
      | (.ok (some os), r) => (.ok (some (o, os)), r)

/-- The `match index` statement of a choice's deserialiser: lines 1314-1370. -/
def Fields.selectR (lim : Nat) :
    (fs : Fields) → Nat → Nat → ReadM (Option (fs.Sel .inn true ⊕ fs.Sel .inn false))
  | .nil, _, _, r => (.ok none, r)
  | .cons i rule t rest, index, n, r =>
    if index = i then
      match Ty.deserR lim t n r with
      | (.error e, r) => (.error e, r)
      | (.ok v, r) =>
        if h : rule.hasFallback .inn = true then (.ok (some (.inl (.inl ⟨v, h⟩))), r)
        else (.ok (some (.inr (.inl ⟨v, Bool.not_eq_true _ ▸ h⟩))), r)
    else
      match Fields.selectR lim rest index n r with
      | (.error e, r) => (.error e, r)
      | (.ok none, r) => (.ok none, r)
      | (.ok (some (.inl a)), r) => (.ok (some (.inl (.inr a))), r)
      | (.ok (some (.inr a)), r) => (.ok (some (.inr (.inr a))), r)
end

/-- `Deserialize::deserialize` of a declared type, i.e. a struct or choice:
`write_deserialize_function`, lines 1592-1605. The payload size is not used by such types. The
reader's state afterwards is what the caller's reader is left with if passed by reference. -/
def deserializeR (lim : Nat) (c : CTy) : ReadM (c.Msg .inn) := fun r => c.deserR lim false 0 r

/-! ### Writers -/

/-- What one call of the device's `write` does: it accepts up to `n` bytes, or reports an error. -/
inductive WEvent
  | accept (n : Nat)
  | fail (k : Kind)
  deriving DecidableEq, Repr

/-- A writer: the bytes it has accepted, and what its next calls will do. -/
structure Writer where
  written : Bytes
  events : List WEvent

/-- A computation which writes. -/
abbrev WriteM := Writer → Except IoErr Unit × Writer

/-- The loop of `Write::write_all` (Rust standard library): calls of `write` until everything is
accepted, again after `Interrupted`. -/
def writeAllLoop : Bytes → List WEvent → Bytes → Except IoErr Unit × Writer
  | buf, [], written => (.ok (), ⟨written ++ buf, []⟩)
  | buf, e :: events, written =>
    if buf = [] then (.ok (), ⟨written, e :: events⟩)
    else
      match e with
      | .accept 0 => (.error (.io .writeZero), ⟨written, events⟩)
      | .accept n => writeAllLoop (buf.drop n) events (written ++ buf.take n)
      | .fail .interrupted => writeAllLoop buf events written
      | .fail k => (.error (.io k), ⟨written, events⟩)

/-- `Write::write_all`. -/
def writeAll (buf : Bytes) : WriteM := fun w => writeAllLoop buf w.events w.written

/-- One statement after another, with the operator `?`. -/
def WriteM.andThen (a b : WriteM) : WriteM := fun w =>
  match a w with
  | (.error e, w) => (.error e, w)
  | (.ok (), w) => b w

/-- No statement. -/
def WriteM.done : WriteM := fun w => (.ok (), w)

/-- `serialize_varint`: lines 184-272. All bytes are written with one call of `write_all`. -/
def serializeVarintW (v : UInt64) : WriteM := writeAll (serializeVarint v)

/-- `serialize_field_header`: lines 318-336. -/
def serializeFieldHeaderW (index : Nat) (payloadSize : Nat) (integerEncoded : Bool) : WriteM :=
  let i := UInt64.ofNat index
  match payloadSize with
  | 0 => serializeVarintW ((i <<< 2) ||| 0b00)
  | 8 => serializeVarintW ((i <<< 2) ||| 0b01)
  | size =>
    if integerEncoded then serializeVarintW ((i <<< 2) ||| 0b10)
    else (serializeVarintW ((i <<< 2) ||| 0b11)).andThen (serializeVarintW (UInt64.ofNat size))

/-- `write_u64_serialization_invocation` with `is_field`: lines 2090-2104. -/
def u64FieldW (v : UInt64) : WriteM :=
  if v = 0 then .done
  else if v ≤ 567382630219903 then serializeVarintW v
  else writeAll (toLeBytes v)

/-- `write_serialization_invocation` for `F64` with `is_field`: lines 2037-2044. -/
def f64FieldW (v : UInt64) : WriteM := if v ≠ 0 then writeAll (toLeBytes v) else .done

/-- Serialisation of a scalar field: `write_serialization_invocation`, lines 2011-2073. -/
def serScalarFieldW : (s : Scalar) → s.Val → WriteM
  | .bool, b => u64FieldW (boolToU64 b)
  | .s64, v => u64FieldW (zigzagEncode v)
  | .u64, v => u64FieldW v
  | .f64, v => f64FieldW v

/-- Serialisation of a scalar array element: the same lines with `is_field` unset. -/
def serScalarElemW : (s : Scalar) → s.Val → WriteM
  | .bool, b => serializeVarintW (boolToU64 b)
  | .s64, v => serializeVarintW (zigzagEncode v)
  | .u64, v => serializeVarintW v
  | .f64, v => writeAll (toLeBytes v)

/-- A `for` loop of statements. -/
def WriteM.forEach {α : Type} (f : α → WriteM) : List α → WriteM
  | [] => .done
  | a :: as => (f a).andThen (WriteM.forEach f as)

/-- `panic!()`: line 1275. -/
def WriteM.panic : WriteM := fun w => (.error .panic, w)

mutual
/-- `write_serialization_invocation` (lines 1957-2075) and the `serialize_with_atlas` methods of
structs (lines 737-800) and choices (lines 1193-1284). -/
def CTy.serW (isField : Bool) : (c : CTy) → c.Msg .out → c.Atlas → WriteM
  | .bytes, m, _ => writeAll m
  | .string, m, _ => writeAll m.bytes
  | .units, n, _ => if isField then u64FieldW n else serializeVarintW n
  | .scalars s, m, _ => WriteM.forEach (serScalarElemW s) m
  | .array c, m, a =>
    WriteM.forEach
      (fun p => (serializeVarintW (UInt64.ofNat (c.atlasSize p.2))).andThen (CTy.serW false c p.1 p.2))
      (m.zip a.2)
  | .struct fs, m, a => Fields.structSerW fs m a.2
  | .choice fs, m, a => chainSerW (Fields.selSerW fs) (Fields.selSerW fs) m a
where
  /-- The recursion through fallbacks of a choice's `serialize_with_atlas`: lines 1193-1284. -/
  chainSerW {α β α' β' : Type} (f : α → α' → WriteM) (g : β → β' → WriteM) :
      Chain α β → Chain (Nat × α') (Nat × β') → WriteM
    | .last b, .last b' => g b b'.2
    | .more a rest, .more a' rest' => (f a a'.2).andThen (chainSerW f g rest rest')
    | .last _, .more _ _ => .panic
    | .more _ _, .last _ => .panic

/-- `write_serialization_invocation` with `is_field`: lines 1957-2075. -/
def Ty.serW : (t : Ty) → t.Msg .out → t.Atlas → WriteM
  | .unit, _, _ => .done
  | .scalar s, v, _ => serScalarFieldW s v
  | .comp c, m, a => CTy.serW true c m a

/-- `serialize_with_atlas` of structs: lines 737-800. -/
def Fields.structSerW : (fs : Fields) → fs.Struct .out → fs.AtlasStruct → WriteM
  | .nil, _, _ => .done
  | .cons i _ t rest, (slot, m), (aslot, a) =>
    WriteM.andThen
      (match Slot.get? slot, Slot.get? aslot with
       | some p, some pa =>
         (serializeFieldHeaderW i (t.atlasSize pa) t.integerEncoded).andThen (Ty.serW t p pa)
       | _, _ => .done)
      (Fields.structSerW rest m a)

/-- `serialize_with_atlas` of choices for one variant, without its fallback: lines 1208-1272. -/
def Fields.selSerW {fb : Bool} : (fs : Fields) → fs.Sel .out fb → fs.AtlasSel fb → WriteM
  | .nil, e, _ => e.elim
  | .cons i _ t _, .inl p, .inl pa =>
    (serializeFieldHeaderW i (t.atlasSize pa.val) t.integerEncoded).andThen (Ty.serW t p.val pa.val)
  | .cons _ _ _ rest, .inr p, .inr pa => Fields.selSerW rest p pa
  | .cons _ _ _ _, .inl _, .inr _ => .panic
  | .cons _ _ _ _, .inr _, .inl _ => .panic
end

/-- `Serialize::serialize` to a writer: `write_serialize_function`, lines 1574-1589. -/
def serializeW (c : CTy) (m : c.Msg .out) : WriteM := c.serW false m (c.atlas false m)

end Typical

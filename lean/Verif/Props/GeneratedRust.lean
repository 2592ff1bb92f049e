import Verif.Gen.SerProof
import Verif.Gen.FromProof
import Verif.Gen.DesDecl
import Verif.Gen.Program
import Verif.Gen.Values
import Verif.WireSize
import Verif.Props.RoundTrip
import Verif.Props.Scopes

/-!
# Properties C67-C69: the code which is generated for a declaration

`program T S` is the generated Rust code for the schemas `S`: the syntax of the functions which `/repo/src/generate_rust.rs` writes.
`Runs lim (program T S) t e s r` says that the expression `e`, in the functions of the type `t`, executed in the state `s`, ends with
`r`, according to an interpreter for this fragment of Rust (`Verif.Gen.Sem`). `Holds` says what a value of a generated type is
(`Verif.Spec.Values`). The schemas can be of any size, and types nested to any depth.
-/

namespace Typical

open Gen

/-- What the generator relies on: the loader and the validator accept the schemas, and names do not collide. -/
structure Accepted (T : CharTable) (S : Schemas) : Prop where
  loaded : S.Loaded
  valid : validate S = .ok []
  names : Gen.NamesOk T S

/-- Names of types mentioned by fields are plain. -/
def PlainMentions (T : CharTable) (S : Schemas) : Prop := ∀ e ∈ S, ∀ d ∈ e.2.declarations, ∀ f ∈ d.fields, ∀ i n,
  f.type.variant.Mentions i n → ∃ a, PlainAscii a ∧ n = Identifier.ofStr T a

/-- **C67 (names).** Names do not collide if they are plain and have no underscore before a digit. -/
theorem C67_names {T : CharTable} (hT : T.Ascii) (S : Schemas) (hl : S.Loaded) (hp : S.Plain T) (hm : PlainMentions T S)
    (hv : validate S = .ok [])
    (h1 : ∀ e ∈ S, ∀ i ∈ e.1.components, dropDigitSeparators i.snakeCase = i.snakeCase)
    (h2 : ∀ e ∈ S, ∀ d ∈ e.2.declarations, dropDigitSeparators d.name.snakeCase = d.name.snakeCase)
    (h3 : ∀ e ∈ S, ∀ d ∈ e.2.declarations, ∀ f ∈ d.fields, dropDigitSeparators f.name.snakeCase = f.name.snakeCase) :
    Accepted T S := by
  obtain ⟨g1, g2, g3, -⟩ := C65_no_digit_words_partial hT S hl hp hv h1 h2 h3
  refine ⟨hl, hv, g1, fun e he d hd _ => (g3 e he d hd .atlas).1, fun e he d hd _ => g2 e he d hd, ?_⟩
  intro e he d hd f hf i n k hmen href ns s d' hd' x
  obtain ⟨a, ha, rfl⟩ := hm e he d hd f hf i n hmen
  obtain ⟨b, hb, e2⟩ := hp.declarations _ hd'.1 d' hd'.2.1
  rw [e2, rustType_eq_iff hT ha hb x x]
  refine ⟨?_, rfl⟩
  have hk : k.2 = (Identifier.ofStr T a).snakeCase := by
    cases i with
    | none => cases href; rfl
    | some i =>
      obtain ⟨_, _, _, _, _, rfl⟩ := href
      rfl
  have hk' := hd'.2.2
  rw [hk'] at hk
  rw [← hk, e2]

section
variable {T : CharTable} {S : Schemas} (hA : Accepted T S)
include hA

theorem Accepted.wellFormed : S.WellFormed := (C28_accepts_exactly_well_formed S hA.loaded).mp hA.valid

theorem Accepted.implements : Implements T S (program T S) :=
  program_implements hA.loaded hA.names fun e he d hd f hf => by
    have := (hA.wellFormed.declarations e he d hd).bound f hf
    omega

/-- The wire type of a declaration, with names. -/
theorem Accepted.named {k : List Str × Str} {c : CTy} (hc : S.Denotes k c) : ∃ N, Named T S k N ∧ N.erase = c ∧ N.erase.WF := by
  have hd : ∃ ns s d, S.Declares k ns s d := by
    cases hc with
    | struct hd _ _ => exact ⟨_, _, _, hd⟩
    | choice hd _ _ => exact ⟨_, _, _, hd⟩
  obtain ⟨N, h1, rfl⟩ := named_exists (T := T) hc
  obtain ⟨ns, s, d, hd⟩ := hd
  obtain ⟨c', e1, e2, e3⟩ := C30_wire_type S hA.loaded hA.valid _ _ _ _ hd
  refine ⟨N, h1, rfl, ?_⟩
  rw [e3 _ h1.denotes]
  exact e2
end

/-- The outcome of an execution is unique. -/
theorem C67_unique {lim : Nat} {P : Prog} {t : TypeId} {e : Ex} {s : St} {r r' : Out × St} (h : Runs lim P t e s r) (h' : Runs lim P t e s r') :
    r = r' := by
  obtain ⟨N, h⟩ := h
  obtain ⟨N', h'⟩ := h'
  have h1 := h (max N N') (by omega)
  rw [h' (max N N') (by omega)] at h1
  exact (Option.some.inj h1).symm

/-- **C67.** Let `v` be a value of the `Out` type which is generated for a declaration, and `t` its content, whose documented layout has less than `2 ^ 64` bytes.
The generated `size` method returns the number of bytes of the documented layout and changes nothing; no sum in it overflows. The generated `serialize` method
appends the documented layout to what has been written, and returns `Ok(())`. -/
theorem C67_serialize {T : CharTable} {S : Schemas} (hA : Accepted T S) {k : List Str × Str} {c : CTy} (hc : S.Denotes k c) {v : Val} {t : Tree}
    (hv : Holds T S .out k v t) (hsz : (t.wire false).length < 2 ^ 64) (lim : Nat) (self : TypeId) (out : Bytes) (readers : List Bytes) :
    Runs lim (program T S) self traitSize ⟨[(.self, v)], out, readers⟩
      (.val (.usize (t.wire false).length), ⟨[(.self, v)], out, readers⟩) ∧
    Runs lim (program T S) self traitSerialize ⟨[(.self, v), (.writer, .writer)], out, readers⟩
      (.val (.ok .unit), ⟨[(.self, v), (.writer, .writer)], out ++ t.wire false, readers⟩) := by
  obtain ⟨N, hN, rfl, hw⟩ := hA.named hc
  obtain ⟨m, rfl, rfl⟩ := Holds.msg hA.loaded hA.wellFormed.names hv N hN
  have he := CTy.wire_eq_enc false _ hw m hsz
  have hb : size N.erase m < 2 ^ 64 := by rw [size_eq, he]; exact hsz
  refine ⟨Runs.iff.mpr ?_, Runs.iff.mpr ?_⟩
  · rw [← he, ← size_eq]
    exact Named.traitSize hA.implements hN lim self m _ out readers rfl hb
  · rw [← he]
    exact Named.traitSerialize hA.implements hN lim self m _ out readers rfl rfl hb

/-- **C68.** The generated `deserialize` function, applied to a reader with any bytes `s`, behaves like the decoder of the wire type:
it returns `Ok(v)` where `v` is a value of the `In` type with the decoded content, having read everything; or it returns the error,
or panics, as the decoder does. -/
theorem C68_deserialize {T : CharTable} {S : Schemas} (hA : Accepted T S) {k : List Str × Str} {c : CTy} (hc : S.Denotes k c)
    {ns : Namespace} {f : Schema} {d : Declaration} (hd : S.Declares k ns f d) (lim : Nat) (s out : Bytes) :
    match deserialize lim c s with
    | .ok m => ∃ v, Holds T S .inn k v (c.tree m) ∧
      Runs lim (program T S) (generatedType T ns d .inn) traitDeserialize ⟨[(.reader, .reader 1)], out, [s]⟩
        (.val (.ok v), ⟨[(.reader, .reader 1)], out, [[]]⟩)
    | .error e => ∃ s', Runs lim (program T S) (generatedType T ns d .inn) traitDeserialize ⟨[(.reader, .reader 1)], out, [s]⟩
        (match e with
          | .panic => .fail .panic
          | .hang => .fail .hang
          | .fuel => .fail .fuel
          | .eof => .val (.err .unexpectedEof)
          | .invalid => .val (.err .invalidData), s') := by
  obtain ⟨N, hN, rfl, hw⟩ := hA.named hc
  have hid : N.inId = generatedType T ns d .inn := by
    cases hN with
    | struct hd' _ _ =>
      obtain ⟨rfl, rfl, rfl⟩ := Declares.unique hA.loaded hA.wellFormed.names hd hd'
      rfl
    | choice hd' _ _ =>
      obtain ⟨rfl, rfl, rfl⟩ := Declares.unique hA.loaded hA.wellFormed.names hd hd'
      rfl
  obtain ⟨h1, h2⟩ := Named.traitDeserialize hA.implements hN lim s [(.reader, .reader 1)] out rfl
  rw [← hid]
  cases h : deserialize lim N.erase s with
  | ok m => exact ⟨_, hN.holds m, Runs.iff.mpr (h1 m h)⟩
  | error e =>
    obtain ⟨st, h3⟩ := h2 e h
    refine ⟨st, Runs.iff.mpr ?_⟩
    cases e <;> exact h3

/-- `message.into()`, for a variable `message`. -/
def intoCall : Ex := .method (.var .message) .into .nil

/-- **C69.** The generated conversion from the `Out` type to the `In` type gives a value with the content which a reader is shown. -/
theorem C69_into {T : CharTable} {S : Schemas} (hA : Accepted T S) {k : List Str × Str} {c : CTy} (hc : S.Denotes k c) {v : Val} {t : Tree}
    (hv : Holds T S .out k v t) (lim : Nat) (self : TypeId) (out : Bytes) (readers : List Bytes) :
    ∃ v', Holds T S .inn k v' (c.view t) ∧
      Runs lim (program T S) self intoCall ⟨[(.message, v)], out, readers⟩ (.val v', ⟨[(.message, v)], out, readers⟩) := by
  obtain ⟨N, hN, rfl, hw⟩ := hA.named hc
  obtain ⟨m, rfl, rfl⟩ := Holds.msg hA.loaded hA.wellFormed.names hv N hN
  refine ⟨N.enc .inn (N.erase.toIn m), ?_, Runs.iff.mpr ?_⟩
  · rw [← CTy.tree_toIn_view _ hw m]
    exact hN.holds _
  · refine (Named.into hA.implements hN lim m ⟨[(.message, N.enc .out m)], out, readers⟩).mono fun n h => ?_
    simp only [intoCall, Ex.eval, M.bind, M.get, lookup, if_true, Option.map_some, Args.eval, Fam.ctx_call, top]
    exact h

/-- **C69 (round trip).** A value of the `Out` type which is written by the generated `serialize` and read by the generated `deserialize` becomes
the value to which the generated conversion maps it, if eight times the size of the documented layout is within the limit for allocations. -/
theorem C69_round_trip {T : CharTable} {S : Schemas} (hA : Accepted T S) {k : List Str × Str} {c : CTy} (hc : S.Denotes k c)
    {ns : Namespace} {f : Schema} {d : Declaration} (hd : S.Declares k ns f d) {v : Val} {t : Tree}
    (hv : Holds T S .out k v t) {lim : Nat} (hlim : lim < 2 ^ 64) (hsz : 8 * (t.wire false).length ≤ lim) (self : TypeId)
    {env : List (Var × Val)} {bs : Bytes}
    (hs : Runs lim (program T S) self traitSerialize ⟨[(.self, v), (.writer, .writer)], [], []⟩ (.val (.ok .unit), ⟨env, bs, []⟩)) :
    ∃ v', Holds T S .inn k v' (c.view t) ∧
      Runs lim (program T S) self intoCall ⟨[(.message, v)], [], []⟩ (.val v', ⟨[(.message, v)], [], []⟩) ∧
      Runs lim (program T S) (generatedType T ns d .inn) traitDeserialize ⟨[(.reader, .reader 1)], [], [bs]⟩
        (.val (.ok v'), ⟨[(.reader, .reader 1)], [], [[]]⟩) := by
  have hH := hA.implements
  obtain ⟨N, hN, rfl, hw⟩ := hA.named hc
  obtain ⟨m, rfl, rfl⟩ := Holds.msg hA.loaded hA.wellFormed.names hv N hN
  have he := CTy.wire_eq_enc false _ hw m (by omega)
  have hse : size N.erase m = ((N.erase.tree m).wire false).length := by rw [size_eq, he]
  have e2 := C67_unique hs (Runs.iff.mpr (Named.traitSerialize hH hN lim self m _ [] [] rfl rfl (by omega)))
  simp only [Prod.mk.injEq, St.mk.injEq, List.nil_append, true_and, and_true] at e2
  obtain ⟨-, rfl⟩ := e2
  obtain ⟨bs, g1, g2⟩ := C06_round_trip _ hw m lim hlim (by omega)
  rw [serialize_eq] at g1
  cases g1
  refine ⟨N.enc .inn (N.erase.toIn m), ?_, Runs.iff.mpr ?_, ?_⟩
  · rw [← CTy.tree_toIn_view _ hw m]
    exact hN.holds _
  · refine (Named.into hH hN lim m ⟨[(.message, N.enc .out m)], [], []⟩).mono fun n h => ?_
    simp only [intoCall, Ex.eval, M.bind, M.get, lookup, if_true, Option.map_some, Args.eval, Fam.ctx_call, top]
    exact h
  · have hid : N.inId = generatedType T ns d .inn := by
      cases hN with
      | struct hd' _ _ =>
        obtain ⟨rfl, rfl, rfl⟩ := Declares.unique hA.loaded hA.wellFormed.names hd hd'
        rfl
      | choice hd' _ _ =>
        obtain ⟨rfl, rfl, rfl⟩ := Declares.unique hA.loaded hA.wellFormed.names hd hd'
        rfl
    rw [← hid]
    exact Runs.iff.mpr ((Named.traitDeserialize hH hN lim _ [(.reader, .reader 1)] [] rfl).1 _ g2)

/-- **C67 (messages).** Every message of the wire type is the content of a value; every value has a message. -/
theorem C67_values {T : CharTable} {S : Schemas} (hA : Accepted T S) {k : List Str × Str} {c : CTy} (hc : S.Denotes k c) (x : Dir) (t : Tree) :
    (∃ v, Holds T S x k v t) ↔ ∃ m : c.Msg x, c.tree m = t := by
  obtain ⟨N, hN, rfl, hw⟩ := hA.named hc
  constructor
  · rintro ⟨v, hv⟩
    obtain ⟨m, -, e⟩ := Holds.msg hA.loaded hA.wellFormed.names hv N hN
    exact ⟨m, e.symm⟩
  · rintro ⟨m, rfl⟩
    exact ⟨_, hN.holds m⟩

/-! ### Examples -/

/-- A name is plain. -/
def plainName (T : CharTable) (i : Identifier) : Bool :=
  (i == Identifier.ofStr T i.original) && (dropDigitSeparators i.snakeCase == i.snakeCase) && match i.original with
    | [] => false
    | c :: w => c.isAlpha && w.all (fun d => d.isAlphanum || d == '_')

theorem plainName_spec {T : CharTable} {i : Identifier} (h : plainName T i = true) :
    (∃ a, PlainAscii a ∧ i = Identifier.ofStr T a) ∧ dropDigitSeparators i.snakeCase = i.snakeCase := by
  unfold plainName at h
  simp only [Bool.and_eq_true, beq_iff_eq] at h
  refine ⟨⟨i.original, ?_, h.1.1⟩, h.1.2⟩
  have h2 := h.2
  cases ho : i.original with
  | nil => rw [ho] at h2; cases h2
  | cons c w =>
    rw [ho] at h2
    simp only [Bool.and_eq_true, List.all_eq_true, Bool.or_eq_true, beq_iff_eq] at h2
    exact ⟨c, w, rfl, h2.1, h2.2⟩

/-- The name of the type which a type expression mentions. -/
def mentionedName : TypeVariant → Option Identifier
  | .array _ t => mentionedName t
  | .custom _ n => some n
  | _ => none

theorem mentionedName_spec {t : TypeVariant} {i : Option Identifier} {n : Identifier} (h : t.Mentions i n) : mentionedName t = some n := by
  induction h with
  | custom => rfl
  | array _ ih => exact ih

/-- All names are plain. -/
def plainSchemas (T : CharTable) (S : Schemas) : Bool :=
  S.all fun e => e.1.components.all (plainName T) && e.2.declarations.all fun d => plainName T d.name &&
    d.fields.all fun f => plainName T f.name && (mentionedName f.type.variant).all (plainName T)

theorem accepted_of_plain {T : CharTable} (hT : T.Ascii) {S : Schemas} (hl : S.Loaded) (hv : validate S = .ok [])
    (h : plainSchemas T S = true) : Accepted T S := by
  unfold plainSchemas at h
  simp only [List.all_eq_true, Bool.and_eq_true] at h
  have g1 := fun e he i hi => plainName_spec ((h e he).1 i hi)
  have g2 := fun e he d hd => plainName_spec ((h e he).2 d hd).1
  have g3 := fun e he d hd f hf => plainName_spec (((h e he).2 d hd).2 f hf).1
  refine C67_names hT S hl ⟨fun e he i hi => (g1 e he i hi).1, fun e he d hd => (g2 e he d hd).1,
    fun e he d hd f hf => (g3 e he d hd f hf).1⟩ ?_ hv (fun e he i hi => (g1 e he i hi).2) (fun e he d hd => (g2 e he d hd).2)
    (fun e he d hd f hf => (g3 e he d hd f hf).2)
  intro e he d hd f hf i n hm
  have := (((h e he).2 d hd).2 f hf).2
  rw [mentionedName_spec hm] at this
  exact (plainName_spec this).1

/-- Two files, with all kinds of declarations, rules and references. -/
theorem exampleSchemas_accepted : Accepted asciiTable exampleSchemas :=
  accepted_of_plain asciiTable_ascii exampleSchemas_loaded (by decide +kernel) (by decide +kernel)

/-- `main::ShapeOut { name: "hi", points: vec![vec![], vec![PointOut { x: 0.0, y: … }]], kind: Some(KindOut::B(7, Box::new(KindOut::A))) }`. -/
def exampleShape : Val :=
  .struct (["main".toList], "ShapeOut".toList) [("name".toList, .str [104, 105]),
    ("points".toList, .vec [.vec [], .vec [.struct (["lib".toList, "geo".toList], "PointOut".toList)
      [("x".toList, .f64 0), ("y".toList, .f64 4607182418800017408)]]]),
    ("kind".toList, .some (.variant (["main".toList], "KindOut".toList) "B".toList
      [.u64 7, .variant (["main".toList], "KindOut".toList) "A".toList []]))]

/-- Its content. -/
def exampleShapeTree : Tree :=
  .fields [(0, .string ⟨[104, 105], by decide +kernel⟩),
    (2, .array [.array [], .array [.fields [(0, .scalar .f64 (0 : UInt64)), (1, .scalar .f64 (4607182418800017408 : UInt64))]]]),
    (1, .fields [(1, .scalar .u64 (7 : UInt64)), (0, .unit)])]

theorem exampleShape_holds : Holds asciiTable exampleSchemas .out (["main".toList], "shape".toList) exampleShape exampleShapeTree := by
  have hk : exampleSchemas.Declares (["main".toList], "kind".toList) ⟨[ident "main"]⟩ exampleMain exampleMain.declarations[1] :=
    ⟨.tail _ (.head _), .tail _ (.head _), by decide +kernel⟩
  have hp : exampleSchemas.Declares (["lib".toList, "geo".toList], "point".toList) ⟨[ident "lib", ident "geo"]⟩ exampleGeo exampleGeo.declarations[0] :=
    ⟨.head _, .head _, by decide +kernel⟩
  have n1 : generatedType asciiTable ⟨[ident "main"]⟩ exampleMain.declarations[0] .out = (["main".toList], "ShapeOut".toList) := by decide +kernel
  have n2 : generatedType asciiTable ⟨[ident "main"]⟩ exampleMain.declarations[1] .out = (["main".toList], "KindOut".toList) := by decide +kernel
  have n3 : generatedType asciiTable ⟨[ident "lib", ident "geo"]⟩ exampleGeo.declarations[0] .out =
    (["lib".toList, "geo".toList], "PointOut".toList) := by decide +kernel
  have m1 : rustSnake (ident "name") = "name".toList := by decide +kernel
  have m2 : rustSnake (ident "points") = "points".toList := by decide +kernel
  have m3 : rustSnake (ident "kind") = "kind".toList := by decide +kernel
  have m4 : rustSnake (ident "x") = "x".toList := by decide +kernel
  have m5 : rustSnake (ident "y") = "y".toList := by decide +kernel
  have m6 : rustPascal asciiTable (ident "a") none = "A".toList := by decide +kernel
  have m7 : rustPascal asciiTable (ident "b") none = "B".toList := by decide +kernel
  have a1 : Holds asciiTable exampleSchemas .out (["main".toList], "kind".toList)
      (.variant (["main".toList], "KindOut".toList) "A".toList []) (.fields [(0, .unit)]) := by
    have := Holds.last (T := asciiTable) (x := .out) hk rfl (.head _) rfl .unit
    rw [n2] at this
    change Holds _ _ _ _ (.variant _ (rustPascal asciiTable (ident "a") none) _) _ at this
    rw [m6] at this
    exact this
  have a2 : Holds asciiTable exampleSchemas .out (["main".toList], "kind".toList)
      (.variant (["main".toList], "KindOut".toList) "B".toList [.u64 7, .variant (["main".toList], "KindOut".toList) "A".toList []])
      (.fields [(1, .scalar .u64 (7 : UInt64)), (0, .unit)]) := by
    have := Holds.more (T := asciiTable) (x := .out) hk rfl (.tail _ (.head _)) rfl
      (.other (nofun) (.scalar (c := .u64) (7 : UInt64) rfl)) a1
    rw [n2] at this
    change Holds _ _ _ _ (.variant _ (rustPascal asciiTable (ident "b") none) _) _ at this
    rw [m7] at this
    exact this
  have a3 : Holds asciiTable exampleSchemas .out (["lib".toList, "geo".toList], "point".toList)
      (.struct (["lib".toList, "geo".toList], "PointOut".toList) [("x".toList, .f64 0), ("y".toList, .f64 4607182418800017408)])
      (.fields [(0, .scalar .f64 (0 : UInt64)), (1, .scalar .f64 (4607182418800017408 : UInt64))]) := by
    rw [← n3, ← m4, ← m5]
    exact .struct hp rfl (.plain rfl (.scalar (c := .f64) (0 : UInt64) rfl) (.plain rfl (.scalar (c := .f64) (4607182418800017408 : UInt64) rfl) .nil))
  unfold exampleShape exampleShapeTree
  rw [← n1, ← m1, ← m2, ← m3]
  refine .struct (s := exampleMain) ⟨.tail _ (.head _), .head _, by decide +kernel⟩ rfl
    (.plain rfl (.string ⟨[104, 105], by decide +kernel⟩) (.plain rfl (.array nofun rfl (.cons (.array nofun rfl .nil) (.cons (.array nofun rfl
      (.cons (.custom ⟨_, .head _, rfl, _, rfl, by decide +kernel⟩ a3) .nil)) .nil))) (.present rfl (.custom (by show _ = _; decide +kernel) a2) .nil)))

end Typical

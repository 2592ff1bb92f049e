import Verif.TsGen.Funcs
import Verif.TsGen.PlainNames
import Verif.Props.GeneratedRust
import Verif.Props.TypeScript
import Verif.Props.Evolution

/-!
# Properties C72-C75: the TypeScript code which is generated for a declaration

`program T S` is the generated TypeScript code for the schemas `S`: the syntax of the functions which `/repo/src/generate_typescript.rs` writes.
`Calls P path f args h scratch r h' scratch'` says that a call of the function `f` in the namespace with the path `path`, with a heap `h` of arrays and
buffers, ends with `r`, and the heap is then `h'`, according to an interpreter for this fragment of TypeScript (`Verif.TsGen.Sem`). `scratch` are the
bytes of the buffer `dataView64` at the top of the file, which the functions share. `JsHolds` says what a value of a generated type is
(`Verif.Spec.JsValues`). The schemas can be of any size, and types nested to any depth.
-/

namespace Typical

open TsGen

/-- A call ends with this outcome, whatever the (sufficient) number of steps. -/
def Calls (P : Prog) (path : List Str) (f : Fn) (args : List Val) (h : List Obj) (scratch : Nat → UInt8) (r : Out) (h' : List Obj)
    (scratch' : Nat → UInt8) : Prop :=
  ∃ N, ∀ n, N ≤ n → callFn P n (.decl path f) args ⟨[], h, scratch⟩ = some (r, ⟨[], h', scratch'⟩)

/-- What the generator relies on: the loader and the validator accept the schemas, and names do not collide. -/
structure TsAccepted (T : CharTable) (S : Schemas) : Prop where
  loaded : S.Loaded
  valid : validate S = .ok []
  names : TsGen.NamesOk T S

/-- **C72 (names).** Names do not collide if they are plain, have no underscore before a digit, and no file, directory or type is named like a built-in object
or like a file or directory at the top. -/
theorem C72_names {T : CharTable} (hT : T.Ascii) (S : Schemas) (hl : S.Loaded) (hv : validate S = .ok []) (h : ClearNames T S) : TsAccepted T S :=
  ⟨hl, hv, h.ok hT hl hv⟩

section
variable {T : CharTable} {S : Schemas} (hA : TsAccepted T S)
include hA

theorem TsAccepted.wellFormed : S.WellFormed := (C28_accepts_exactly_well_formed S hA.loaded).mp hA.valid

theorem TsAccepted.implements : TsGen.Implements T S (program T S) := program_implements hA.loaded hA.names

/-- The wire type of a declaration, with names. -/
theorem TsAccepted.named {k : List Str × Str} {c : CTy} (hc : S.Denotes k c) {ns : Namespace} {s : Schema} {d : Declaration} (hd : S.Declares k ns s d) :
    ∃ N, TsGen.Named T S k N ∧ N.erase = c ∧ N.erase.WF ∧ N.path = declPath T ns.components d := by
  obtain ⟨N, h1, rfl⟩ := TsGen.named_exists (T := T) hc
  obtain ⟨c', e1, e2, e3⟩ := C30_wire_type S hA.loaded hA.valid _ _ _ _ hd
  refine ⟨N, h1, rfl, by rw [e3 _ h1.denotes]; exact e2, ?_⟩
  obtain ⟨ns', s', d', hd', hp, -⟩ := named_decl h1
  obtain ⟨rfl, rfl, rfl⟩ := Declares.unique hA.loaded hA.wellFormed.names hd hd'
  exact hp
end

/-- The outcome of a call is unique. -/
theorem C72_unique {P : Prog} {path : List Str} {f : Fn} {args : List Val} {h h' h'' : List Obj} {sc sc' sc'' : Nat → UInt8} {r r' : Out}
    (h1 : Calls P path f args h sc r h' sc') (h2 : Calls P path f args h sc r' h'' sc'') : r = r' ∧ h' = h'' ∧ sc' = sc'' := by
  obtain ⟨N, h1⟩ := h1
  obtain ⟨N', h2⟩ := h2
  have h := h1 (max N N') (by omega)
  rw [h2 (max N N') (by omega)] at h
  cases h
  exact ⟨rfl, rfl, rfl⟩

/-- **C72.** Let `v` be a value of the `Out` type which is generated for a declaration, with its arrays and buffers in the heap `h`, and let `t` be its
content. The generated `size` function returns the number of bytes of the documented layout of `t`. The generated `serialize` function returns a new
buffer, which contains exactly the documented layout. Neither changes an existing array or buffer. -/
theorem C72_serialize {T : CharTable} {S : Schemas} (hA : TsAccepted T S) {k : List Str × Str} {c : CTy} (hc : S.Denotes k c) {ns : Namespace}
    {s : Schema} {d : Declaration} (hd : S.Declares k ns s d) {h : List Obj} {v : Val} {t : Tree} (hv : JsHolds T S .out (fun r => h[r]?) k v t)
    (hsz : (t.wire false).length < 2 ^ 64) (scratch : Nat → UInt8) :
    (∃ h', h <+: h' ∧
      Calls (program T S) (declPath T ns.components d) .size [v] h scratch (.val (.num (t.wire false).length)) h' scratch) ∧
    ∃ h' r, h <+: h' ∧ h.length ≤ r ∧ h'[r]? = some (.buf (t.wire false)) ∧
      Calls (program T S) (declPath T ns.components d) .serialize [v] h scratch (.val (.buf r)) h' scratch := by
  obtain ⟨N, hN, rfl, hw, hp⟩ := hA.named hc hd
  obtain ⟨m, hm, rfl⟩ := JsHolds.msg hA.loaded hA.wellFormed.names hv N hN
  have he := CTy.wire_eq_enc false _ hw m hsz
  have hs : size N.erase m < 2 ^ 64 := by rw [size_eq, he]; exact hsz
  have hin : Part.In (fun r => h[r]?) h := fun _ _ h => h
  obtain ⟨h1, a1, N1, a2⟩ := size_ok hA.implements hN hm hin [] scratch
  rw [C24_same_size _ hw m hs, size_eq, he] at a2
  have hser : Ts.serialize N.erase m = some ((N.erase.tree m).wire false) := by
    rw [C24_same_bytes _ hw m hs, serialize_eq, he]
  obtain ⟨h2, r, b1, b2, b3, N2, b4⟩ := serialize_ok hA.implements hN hm hin hser [] scratch
  rw [hp] at a2 b4
  exact ⟨⟨h1, a1, N1, a2⟩, h2, r, b1, b2, b3, N2, b4⟩

theorem TsGen.JsInput.input {h : List Obj} {x : Val} {before b after : Bytes} (hi : JsInput h x before b after) : Input h x (Ts.part before b after) := by
  cases hi with
  | @buffer r _ hr =>
    have := Input.buffer hr
    unfold Ts.part
    rwa [List.nil_append, List.append_nil]
  | view hr => exact .view hr (by simp)
  | typed hr => exact .typed hr (by simp)

/-- **C73.** The generated `deserialize` function, applied to an `ArrayBuffer`, a `DataView` or a typed array with any bytes, always returns, and never throws:
it returns a value of the `In` type with the content which the decoder of the wire type gives, all of whose arrays and buffers are new; or
the error which the decoder gives, a `RangeError` or an error which says that a required field is missing. It changes no existing array or buffer. -/
theorem C73_deserialize {T : CharTable} {S : Schemas} (hA : TsAccepted T S) {k : List Str × Str} {c : CTy} (hc : S.Denotes k c) {ns : Namespace}
    {s : Schema} {d : Declaration} (hd : S.Declares k ns s d) {h : List Obj} {x : Val} {before b after : Bytes} (hi : JsInput h x before b after)
    (scratch : Nat → UInt8) :
    (∃ m y h' scratch', Ts.deserializeView c (Ts.part before b after) = .ok m ∧ h <+: h' ∧
      JsHolds T S .inn (fun r => if h.length ≤ r then h'[r]? else none) k y (c.tree m) ∧
      Calls (program T S) (declPath T ns.components d) .deserialize [x] h scratch (.val y) h' scratch') ∨
    (∃ e h' scratch', Ts.deserializeView c (Ts.part before b after) = .error e ∧ (e = .range ∨ e = .missing) ∧ h <+: h' ∧
      Calls (program T S) (declPath T ns.components d) .deserialize [x] h scratch (.val (.err e)) h' scratch') := by
  obtain ⟨N, hN, rfl, hw, hp⟩ := hA.named hc hd
  have hdes := deserialize_ok hA.implements hN hi.input [] scratch
  rcases C46_terminates N.erase (Ts.part before b after) with ⟨m, e⟩ | e | e
  · rw [e] at hdes
    obtain ⟨y, h', sc', h1, h2, N1, h3⟩ := hdes
    rw [hp] at h3
    exact .inl ⟨m, y, h', sc', e, h1, hN.js m y h2, N1, h3⟩
  · rw [e] at hdes
    obtain ⟨h', sc', h1, N1, h3⟩ := hdes (by simp)
    rw [hp] at h3
    exact .inr ⟨.range, h', sc', e, .inl rfl, h1, N1, h3⟩
  · rw [e] at hdes
    obtain ⟨h', sc', h1, N1, h3⟩ := hdes (by simp)
    rw [hp] at h3
    exact .inr ⟨.missing, h', sc', e, .inr rfl, h1, N1, h3⟩

/-- What `deserialize` returns if the decoder accepts. -/
theorem C73_accepts {T : CharTable} {S : Schemas} (hA : TsAccepted T S) {k : List Str × Str} {c : CTy} (hc : S.Denotes k c) {ns : Namespace}
    {s : Schema} {d : Declaration} (hd : S.Declares k ns s d) {h : List Obj} {x : Val} {before b after : Bytes} (hi : JsInput h x before b after)
    (scratch : Nat → UInt8) {m : c.Msg .inn} (hm : Ts.deserializeView c (Ts.part before b after) = .ok m) :
    ∃ y h' scratch', h <+: h' ∧ JsHolds T S .inn (fun r => if h.length ≤ r then h'[r]? else none) k y (c.tree m) ∧
      Calls (program T S) (declPath T ns.components d) .deserialize [x] h scratch (.val y) h' scratch' := by
  rcases C73_deserialize hA hc hd hi scratch with ⟨m', y, h', sc', e, h1, h2, h3⟩ | ⟨e, h', sc', e', -⟩
  · rw [hm] at e
    cases e
    exact ⟨y, h', sc', h1, h2, h3⟩
  · rw [hm] at e'
    cases e'

/-- **C74 (round trip).** Whatever the generated `serialize` function returns, `deserialize` (applied to the buffer; or to a `DataView` or typed array
which is a window with these bytes in any larger buffer) gives a value of the `In` type with the content which a reader is shown; unless the
content has a string which begins with a byte order mark, or something else which JavaScript cannot represent. -/
theorem C74_round_trip {T : CharTable} {S : Schemas} (hA : TsAccepted T S) {k : List Str × Str} {c : CTy} (hc : S.Denotes k c) {ns : Namespace}
    {s : Schema} {d : Declaration} (hd : S.Declares k ns s d) {h h' : List Obj} {v : Val} {t : Tree} (hv : JsHolds T S .out (fun r => h[r]?) k v t)
    (hsz : (t.wire false).length < 2 ^ 64) (hj : t.JsSafe) {scratch scratch' : Nat → UInt8} {r : Nat} {b : Bytes} (hb : h'[r]? = some (.buf b))
    (hs : Calls (program T S) (declPath T ns.components d) .serialize [v] h scratch (.val (.buf r)) h' scratch')
    {h₂ : List Obj} {x : Val} {before after : Bytes} (hi : JsInput h₂ x before b after) (scratch₂ : Nat → UInt8) :
    ∃ y h₃ scratch₃, h₂ <+: h₃ ∧ JsHolds T S .inn (fun r => if h₂.length ≤ r then h₃[r]? else none) k y (c.view t) ∧
      Calls (program T S) (declPath T ns.components d) .deserialize [x] h₂ scratch₂ (.val y) h₃ scratch₃ := by
  obtain ⟨-, h1, r1, -, -, e1, e2⟩ := C72_serialize hA hc hd hv hsz scratch
  obtain ⟨e3, e4, -⟩ := C72_unique hs e2
  cases e3
  rw [e4, e1] at hb
  cases hb
  obtain ⟨N, hN, rfl, hw, hp⟩ := hA.named hc hd
  obtain ⟨m, -, rfl⟩ := JsHolds.msg hA.loaded hA.wellFormed.names hv N hN
  have he := CTy.wire_eq_enc false _ hw m hsz
  have hs : size N.erase m < 2 ^ 64 := by rw [size_eq, he]; exact hsz
  obtain ⟨bs, g1, g2⟩ := C27_messages _ hw m hs hj before after
  rw [serialize_eq, he] at g1
  cases g1
  have := C73_accepts hA hc hd hi scratch₂ g2
  rwa [CTy.tree_toIn_view _ hw m] at this

/-- **C74 (from Rust to TypeScript).** Whatever the generated Rust `serialize` writes, the TypeScript `deserialize` which is generated from the same schemas
reads. -/
theorem C74_rust_to_typescript {T : CharTable} {S : Schemas} (hR : Accepted T S) (hA : TsAccepted T S) {k : List Str × Str} {c : CTy} (hc : S.Denotes k c)
    {ns : Namespace} {s : Schema} {d : Declaration} (hd : S.Declares k ns s d) {v : Gen.Val} {t : Tree} (hv : Gen.Holds T S .out k v t)
    (hsz : (t.wire false).length < 2 ^ 64) (hj : t.JsSafe) {lim : Nat} {self : Gen.TypeId} {env : List (Gen.Var × Gen.Val)} {bs : Bytes}
    (hs : Gen.Runs lim (Gen.program T S) self Gen.traitSerialize ⟨[(.self, v), (.writer, .writer)], [], []⟩ (.val (.ok .unit), ⟨env, bs, []⟩))
    {h : List Obj} {x : Val} {before after : Bytes} (hi : JsInput h x before bs after) (scratch : Nat → UInt8) :
    ∃ y h' scratch', h <+: h' ∧ JsHolds T S .inn (fun r => if h.length ≤ r then h'[r]? else none) k y (c.view t) ∧
      Calls (program T S) (declPath T ns.components d) .deserialize [x] h scratch (.val y) h' scratch' := by
  obtain ⟨-, e2⟩ := C67_serialize hR hc hv hsz lim self [] []
  have e4 := C67_unique hs e2
  simp only [Prod.mk.injEq, Gen.St.mk.injEq, List.nil_append, true_and, and_true] at e4
  obtain ⟨-, rfl⟩ := e4
  obtain ⟨N, hN, rfl, hw⟩ := hR.named hc
  obtain ⟨m, -, rfl⟩ := Gen.Holds.msg hR.loaded hR.wellFormed.names hv N hN
  have he := CTy.wire_eq_enc false _ hw m hsz
  have hs : size N.erase m < 2 ^ 64 := by rw [size_eq, he]; exact hsz
  obtain ⟨bs, g1, g2⟩ := C27_messages _ hw m hs hj before after
  rw [serialize_eq, he] at g1
  cases g1
  have := C73_accepts hA hc hd hi scratch g2
  rwa [CTy.tree_toIn_view _ hw m] at this

/-- **C74 (from TypeScript to Rust).** Whatever the generated TypeScript `serialize` returns, the Rust `deserialize` which is generated from the same
schemas reads, for any content. -/
theorem C74_typescript_to_rust {T : CharTable} {S : Schemas} (hR : Accepted T S) (hA : TsAccepted T S) {k : List Str × Str} {c : CTy} (hc : S.Denotes k c)
    {ns : Namespace} {s : Schema} {d : Declaration} (hd : S.Declares k ns s d) {h h' : List Obj} {v : Val} {t : Tree}
    (hv : JsHolds T S .out (fun r => h[r]?) k v t) {scratch scratch' : Nat → UInt8} {r : Nat} {b : Bytes} (hb : h'[r]? = some (.buf b))
    (hs : Calls (program T S) (declPath T ns.components d) .serialize [v] h scratch (.val (.buf r)) h' scratch')
    {lim : Nat} (hlim : lim < 2 ^ 64) (hsz : 8 * (t.wire false).length ≤ lim) (out : Bytes) :
    ∃ y, Gen.Holds T S .inn k y (c.view t) ∧
      Gen.Runs lim (Gen.program T S) (Gen.generatedType T ns d .inn) Gen.traitDeserialize ⟨[(.reader, .reader 1)], out, [b]⟩
        (.val (.ok y), ⟨[(.reader, .reader 1)], out, [[]]⟩) := by
  obtain ⟨-, h1, r1, -, -, e1, e2⟩ := C72_serialize hA hc hd hv (by omega) scratch
  obtain ⟨e3, e4, -⟩ := C72_unique hs e2
  cases e3
  rw [e4, e1] at hb
  cases hb
  obtain ⟨N, hN, rfl, hw, hp⟩ := hA.named hc hd
  obtain ⟨m, -, rfl⟩ := JsHolds.msg hA.loaded hA.wellFormed.names hv N hN
  have he := CTy.wire_eq_enc false _ hw m (by omega)
  obtain ⟨bs, g1, g2⟩ := C06_round_trip _ hw m lim hlim (by rw [size_eq, he]; exact hsz)
  rw [serialize_eq, he] at g1
  cases g1
  have := C68_deserialize hR hc hd lim ((N.erase.tree m).wire false) out
  rw [g2] at this
  simp only at this
  rwa [CTy.tree_toIn_view _ hw m] at this

/-- **C75.** Let the declarations of two versions of some schemas be related by the documented rules of schema evolution. Whatever the TypeScript program
generated from one version writes, the TypeScript program generated from the other version reads, without an error; and what it gets is the content
which was written, restricted to what the reader's version knows. -/
theorem C75_versions {T T' : CharTable} {S S' : Schemas} (hA : TsAccepted T S) (hA' : TsAccepted T' S') {R : TypeKey → TypeKey → Prop}
    (hR : CompatibleSchemas S S' R) {k k' : TypeKey} (h : R k k') {ns ns' : Namespace} {s s' : Schema} {d d' : Declaration} (hd : S.Declares k ns s d)
    (hd' : S'.Declares k' ns' s' d') {hp : List Obj} {v : Val} {t : Tree} (hv : JsHolds T S .out (fun r => hp[r]?) k v t)
    (hsz : (t.wire false).length < 2 ^ 64) (hj : t.JsSafe) (scratch scratch' : Nat → UInt8) :
    ∃ c', S'.Denotes k' c' ∧ ∃ h₁ r h₂ scratch₂ y,
      Calls (program T S) (declPath T ns.components d) .serialize [v] hp scratch (.val (.buf r)) h₁ scratch ∧
      Calls (program T' S') (declPath T' ns'.components d') .deserialize [.buf r] h₁ scratch' (.val y) h₂ scratch₂ ∧
      JsHolds T' S' .inn (fun r => if h₁.length ≤ r then h₂[r]? else none) k' y (c'.project t) := by
  obtain ⟨c, c', hc, hc', -⟩ := C57_versions S S' hA.loaded hA'.loaded hA.valid hA'.valid R hR k k' h
  refine ⟨c', hc', ?_⟩
  have h57 := (C57_versions_typescript S S' hA.loaded hA'.loaded hA.valid hA'.valid R hR k k' h c c' hc hc').1
  obtain ⟨-, h1, r, -, -, e1, e2⟩ := C72_serialize hA hc hd hv hsz scratch
  obtain ⟨N, hN, rfl, hw, -⟩ := hA.named hc hd
  obtain ⟨m, -, rfl⟩ := JsHolds.msg hA.loaded hA.wellFormed.names hv N hN
  have he := CTy.wire_eq_enc false _ hw m hsz
  have hs : size N.erase m < 2 ^ 64 := by rw [size_eq, he]; exact hsz
  obtain ⟨bs, m', g1, -, g3, g4⟩ := h57 m hs hj
  rw [serialize_eq, he] at g1
  cases g1
  have hin : JsInput h1 (.buf r) [] ((N.erase.tree m).wire false) [] := .buffer e1
  obtain ⟨y, h2, sc2, -, k2, k3⟩ := C73_accepts hA' hc' hd' hin scratch' (C27_inside_partial c' [] _ [] m' g3)
  rw [g4] at k2
  refine ⟨h1, r, h2, sc2, y, e2, k3, k2⟩

/-! ### Examples -/

/-- All names are plain, and none hides what generated TypeScript code refers to. -/
def clearSchemas (T : CharTable) (S : Schemas) : Bool :=
  (S.all fun e => !e.1.components.isEmpty) && plainSchemas T S &&
  (S.all fun e => e.2.imports.all fun i => match i.2.namespace_ with
    | none => true
    | some ns => ns.components.all (plainName T)) &&
  (S.all fun e => e.1.components.all fun i => !tsBuiltins.any (fun k => k.toList == tsPascal T i none)) &&
  (S.all fun e => e.2.declarations.all fun d => !tsBuiltins.any (fun k => k.toList == tsPascal T d.name none)) &&
  (S.all fun e => S.all fun e' => e.1.components.head?.all fun i => e'.1.components.tail.all fun j => decide (i.snakeCase ≠ j.snakeCase)) &&
  (S.all fun e => e.1.components.head?.all fun i => S.all fun e' => e'.2.declarations.all fun d => decide (i.snakeCase ≠ d.name.snakeCase))

theorem clearSchemas_spec {T : CharTable} {S : Schemas} (h : clearSchemas T S = true) : ClearNames T S := by
  unfold clearSchemas plainSchemas at h
  simp only [Bool.and_eq_true, List.all_eq_true, Bool.not_eq_true', Option.all_eq_true, decide_eq_true_eq] at h
  obtain ⟨⟨⟨⟨⟨⟨h1, h2⟩, h3⟩, h4⟩, h5⟩, h6⟩, h7⟩ := h
  refine ⟨?_, fun e he i hi => plainName_spec ((h2 e he).1 i hi), fun e he d hd => plainName_spec ((h2 e he).2 d hd).1,
    fun e he d hd f hf => plainName_spec (((h2 e he).2 d hd).2 f hf).1, ?_, ?_, ?_, ?_, ?_, ?_⟩
  · intro e he e0
    have := h1 e he
    rw [e0] at this
    cases this
  · intro e he d hd f hf i n hm
    exact (plainName_spec ((((h2 e he).2 d hd).2 f hf).2 n (mentionedName_spec hm))).1
  · intro e he i hi ns hns j hj
    have := h3 e he i hi
    rw [hns] at this
    exact plainName_spec (List.all_eq_true.mp this j hj)
  · intro e he i hi hw
    have := h4 e he i hi
    rw [(any_isWord _ _).mpr hw] at this
    cases this
  · intro e he d hd hw
    have := h5 e he d hd
    rw [(any_isWord _ _).mpr hw] at this
    cases this
  · intro e he e' he' i hi j hj
    exact h6 e he e' he' i hi j hj
  · intro e he i hi e' he' d hd
    exact h7 e he i hi e' he' d hd

/-- Two files, with all kinds of declarations, rules and references. -/
theorem exampleSchemas_tsAccepted : TsAccepted asciiTable exampleSchemas :=
  C72_names asciiTable_ascii _ exampleSchemas_loaded (by decide +kernel) (clearSchemas_spec (by decide +kernel))

/-- `{ name: 'hi', points: [[], [{ x: 0, y: 1 }]], kind: { b: 7n, $fallback: { a: null } } }`, with arrays in `exampleHeap`. -/
def exampleObject : Val :=
  .obj [("name".toList, .str [104, 105]), ("points".toList, .arr 0),
    ("kind".toList, .obj [("b".toList, .big 7), ("$fallback".toList, .obj [("a".toList, .null)])])]

/-- The arrays. -/
def exampleHeap : List Obj :=
  [.arr [.arr 1, .arr 2], .arr [], .arr [.obj [("x".toList, encF64 0), ("y".toList, encF64 4607182418800017408)]]]

theorem exampleObject_holds :
    JsHolds asciiTable exampleSchemas .out (fun r => exampleHeap[r]?) (["main".toList], "shape".toList) exampleObject exampleShapeTree := by
  have hk : exampleSchemas.Declares (["main".toList], "kind".toList) ⟨[ident "main"]⟩ exampleMain exampleMain.declarations[1] :=
    ⟨.tail _ (.head _), .tail _ (.head _), by decide +kernel⟩
  have hp : exampleSchemas.Declares (["lib".toList, "geo".toList], "point".toList) ⟨[ident "lib", ident "geo"]⟩ exampleGeo exampleGeo.declarations[0] :=
    ⟨.head _, .head _, by decide +kernel⟩
  have m1 : tsCamel asciiTable (ident "name") = "name".toList := by decide +kernel
  have m2 : tsCamel asciiTable (ident "points") = "points".toList := by decide +kernel
  have m3 : tsCamel asciiTable (ident "kind") = "kind".toList := by decide +kernel
  have m4 : tsCamel asciiTable (ident "x") = "x".toList := by decide +kernel
  have m5 : tsCamel asciiTable (ident "y") = "y".toList := by decide +kernel
  have m6 : tsCamel asciiTable (ident "a") = "a".toList := by decide +kernel
  have m7 : tsCamel asciiTable (ident "b") = "b".toList := by decide +kernel
  have a1 : JsHolds asciiTable exampleSchemas .out (fun r => exampleHeap[r]?) (["main".toList], "kind".toList)
      (.obj [("a".toList, .null)]) (.fields [(0, .unit)]) :=
    .last (f := exampleMain.declarations[1].fields[0]) hk rfl (by show List.find? _ _ = _; decide +kernel) rfl
      (by show member (tsCamel asciiTable (ident "a")) _ = _; rw [m6]; rfl) .unit
  have a2 : JsHolds asciiTable exampleSchemas .out (fun r => exampleHeap[r]?) (["main".toList], "kind".toList)
      (.obj [("b".toList, .big 7), ("$fallback".toList, .obj [("a".toList, .null)])])
      (.fields [(1, .scalar .u64 (7 : UInt64)), (0, .unit)]) :=
    .more (f := exampleMain.declarations[1].fields[1]) hk rfl (by show List.find? _ _ = _; decide +kernel) rfl
      (by show member (tsCamel asciiTable (ident "b")) _ = _; rw [m7]; rfl) (.scalar (c := .u64) (7 : UInt64) rfl) rfl a1
  have a3 : JsHolds asciiTable exampleSchemas .out (fun r => exampleHeap[r]?) (["lib".toList, "geo".toList], "point".toList)
      (.obj [("x".toList, encF64 0), ("y".toList, encF64 4607182418800017408)])
      (.fields [(0, .scalar .f64 (0 : UInt64)), (1, .scalar .f64 (4607182418800017408 : UInt64))]) :=
    .struct hp rfl nofun (.present (by show member (tsCamel asciiTable (ident "x")) _ = _; rw [m4]; rfl) (.scalar (c := .f64) (0 : UInt64) rfl)
      (.present (by show member (tsCamel asciiTable (ident "y")) _ = _; rw [m5]; rfl) (.scalar (c := .f64) (4607182418800017408 : UInt64) rfl) .nil))
  refine .struct (s := exampleMain) ⟨.tail _ (.head _), .head _, by decide +kernel⟩ rfl nofun
    (.present (by show member (tsCamel asciiTable (ident "name")) _ = _; rw [m1]; rfl) (.string ⟨[104, 105], by decide +kernel⟩)
      (.present (by show member (tsCamel asciiTable (ident "points")) _ = _; rw [m2]; rfl)
        (.array nofun rfl rfl (.cons (.array nofun rfl rfl .nil) (.cons (.array nofun rfl rfl
          (.cons (.custom ⟨_, .head _, rfl, _, rfl, by decide +kernel⟩ a3) .nil)) .nil)))
        (.present (by show member (tsCamel asciiTable (ident "kind")) _ = _; rw [m3]; rfl) (.custom (by show _ = _; decide +kernel) a2) .nil)))

/-- An execution of the generated code: the bytes in the new buffer. -/
example : (match callFn (program asciiTable exampleSchemas) 40 (.decl ["Main".toList, "Shape".toList] .serialize) [exampleObject]
    ⟨[], exampleHeap, fun _ => 9⟩ with
    | some (.val (.buf r), s) => match s.heap[r]? with
      | some (.buf b) => b
      | _ => []
    | _ => []) = exampleShapeTree.wire false := by decide +kernel

/-- Another one: the name of the shape which is read. -/
example : (match callFn (program asciiTable exampleSchemas) 60 (.decl ["Main".toList, "Shape".toList] .deserialize) [.typed 0 2 24]
    ⟨[], [.buf ([1, 2] ++ exampleShapeTree.wire false ++ [3])], fun _ => 9⟩ with
    | some (.val (.obj ((_, .str b) :: _)), _) => b
    | _ => []) = [104, 105] := by decide +kernel


end Typical

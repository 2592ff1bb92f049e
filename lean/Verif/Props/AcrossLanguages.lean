import Verif.Props.GeneratedTypeScript
import Verif.Props.GeneratedFile
import Verif.Props.Truncation
import Verif.Props.TsTruncation

/-!
# C82, C83: programs in both languages, generated from different versions, and messages which are cut off

The generated programs are executed as in `Props/GeneratedRust.lean` and `Props/GeneratedTypeScript.lean`.
-/

namespace Typical

open TsGen

/-- The bytes `bs` are what the `serialize` function of the Rust or TypeScript code generated from `S` gives for a value of the type generated for the
declaration `k`, with content `t`. -/
inductive WrittenBy (T : CharTable) (S : Schemas) (k : TypeKey) (t : Tree) (bs : Bytes) : Prop
  | rust {v : Gen.Val} {lim : Nat} {self : Gen.TypeId} {env : List (Gen.Var × Gen.Val)} : Accepted T S → Gen.Holds T S .out k v t →
    Gen.Runs lim (Gen.program T S) self Gen.traitSerialize ⟨[(.self, v), (.writer, .writer)], [], []⟩ (.val (.ok .unit), ⟨env, bs, []⟩) →
    WrittenBy T S k t bs
  | typescript {ns : Namespace} {s : Schema} {d : Declaration} {h h' : List Obj} {v : Val} {r : Nat} {scratch scratch' : Nat → UInt8} :
    TsAccepted T S → S.Declares k ns s d → JsHolds T S .out (fun r => h[r]?) k v t →
    Calls (program T S) (declPath T ns.components d) .serialize [v] h scratch (.val (.buf r)) h' scratch' → h'[r]? = some (.buf bs) →
    WrittenBy T S k t bs

theorem WrittenBy.loaded {T : CharTable} {S : Schemas} {k : TypeKey} {t : Tree} {bs : Bytes} (h : WrittenBy T S k t bs) : S.Loaded := by
  cases h with
  | rust h => exact h.loaded
  | typescript h => exact h.loaded

theorem WrittenBy.valid {T : CharTable} {S : Schemas} {k : TypeKey} {t : Tree} {bs : Bytes} (h : WrittenBy T S k t bs) : validate S = .ok [] := by
  cases h with
  | rust h => exact h.valid
  | typescript h => exact h.valid

/-- They are the documented layout of a message. -/
theorem WrittenBy.message {T : CharTable} {S : Schemas} {k : TypeKey} {t : Tree} {bs : Bytes} (h : WrittenBy T S k t bs) {c : CTy} (hc : S.Denotes k c)
    (hsz : (t.wire false).length < 2 ^ 64) : bs = t.wire false ∧ c.WF ∧ ∃ m : c.Msg .out, c.tree m = t ∧ size c m = (t.wire false).length := by
  cases h with
  | @rust v lim self env hA hv hs =>
    obtain ⟨-, e2⟩ := C67_serialize hA hc hv hsz lim self [] []
    have e4 := C67_unique hs e2
    simp only [Prod.mk.injEq, Gen.St.mk.injEq, List.nil_append, true_and, and_true] at e4
    obtain ⟨-, rfl⟩ := e4
    refine ⟨rfl, ?_⟩
    obtain ⟨N, hN, rfl, hw⟩ := hA.named hc
    obtain ⟨m, -, rfl⟩ := Gen.Holds.msg hA.loaded hA.wellFormed.names hv N hN
    exact ⟨hw, m, rfl, by rw [size_eq, CTy.wire_eq_enc false _ hw m hsz]⟩
  | typescript hA hd hv hs hb =>
    obtain ⟨-, h1, r1, -, -, e1, e2⟩ := C72_serialize hA hc hd hv hsz _
    obtain ⟨e3, e4, -⟩ := C72_unique hs e2
    cases e3
    rw [e4, e1] at hb
    cases hb
    refine ⟨rfl, ?_⟩
    obtain ⟨N, hN, rfl, hw, hp⟩ := hA.named hc hd
    obtain ⟨m, -, rfl⟩ := JsHolds.msg hA.loaded hA.wellFormed.names hv N hN
    exact ⟨hw, m, rfl, by rw [size_eq, CTy.wire_eq_enc false _ hw m hsz]⟩

/-! ### C82: versions and languages -/

/-- **C82 (Rust readers).** Let the declarations of two versions of some schemas be related by the documented rules of schema evolution. Whatever a program
generated from one version writes, in Rust or TypeScript, the Rust program generated from the other version reads without an error, and what it gets is the
content which was written, restricted to what the reader's version knows. -/
theorem C82_rust_reader {T T' : CharTable} {S S' : Schemas} (hA' : Accepted T' S') {R : TypeKey → TypeKey → Prop} (hR : CompatibleSchemas S S' R)
    {k k' : TypeKey} (h : R k k') {ns : Namespace} {f : Schema} {d : Declaration} (hd : S'.Declares k' ns f d) {t : Tree} {bs : Bytes}
    (hb : WrittenBy T S k t bs) {lim : Nat} (hlim : lim < 2 ^ 64) (hsz : 8 * (t.wire false).length ≤ lim) (out : Bytes) :
    ∃ c' y, S'.Denotes k' c' ∧ Gen.Holds T' S' .inn k' y (c'.project t) ∧
      Gen.Runs lim (Gen.program T' S') (Gen.generatedType T' ns d .inn) Gen.traitDeserialize ⟨[(.reader, .reader 1)], out, [bs]⟩
        (.val (.ok y), ⟨[(.reader, .reader 1)], out, [[]]⟩) := by
  obtain ⟨c, c', hc, hc', hr, -⟩ := C57_versions S S' hb.loaded hA'.loaded hb.valid hA'.valid R hR k k' h
  obtain ⟨rfl, -, m, rfl, hm⟩ := hb.message hc (by omega)
  obtain ⟨bs, v', h1, h2, h3⟩ := hr lim hlim m (by omega)
  have hw := hb.message hc (by omega) |>.2.1
  rw [serialize_wire c hw m (by omega)] at h1
  cases h1
  have hd' := C68_deserialize hA' hc' hd lim ((c.tree m).wire false) out
  rw [h2] at hd'
  obtain ⟨w, g1, g2⟩ := hd'
  rw [h3] at g1
  exact ⟨c', w, hc', g1, g2⟩

/-- **C82 (TypeScript readers).** The same for the TypeScript program generated from the other version, if no string begins with a byte order
mark and no array of `Unit`s has `2 ^ 32` elements. The message can be a part of a larger buffer. -/
theorem C82_typescript_reader {T T' : CharTable} {S S' : Schemas} (hA' : TsAccepted T' S') {R : TypeKey → TypeKey → Prop}
    (hR : CompatibleSchemas S S' R) {k k' : TypeKey} (h : R k k') {ns : Namespace} {f : Schema} {d : Declaration} (hd : S'.Declares k' ns f d)
    {t : Tree} {bs : Bytes} (hb : WrittenBy T S k t bs) (hsz : (t.wire false).length < 2 ^ 64) (hj : t.JsSafe) {hp : List Obj} {x : Val}
    {before after : Bytes} (hi : JsInput hp x before bs after) (scratch : Nat → UInt8) :
    ∃ c' y h' scratch', S'.Denotes k' c' ∧ hp <+: h' ∧
      JsHolds T' S' .inn (fun r => if hp.length ≤ r then h'[r]? else none) k' y (c'.project t) ∧
      Calls (program T' S') (declPath T' ns.components d) .deserialize [x] hp scratch (.val y) h' scratch' := by
  obtain ⟨c, c', hc, hc', -⟩ := C57_versions S S' hb.loaded hA'.loaded hb.valid hA'.valid R hR k k' h
  have h57 := (C57_versions_typescript S S' hb.loaded hA'.loaded hb.valid hA'.valid R hR k k' h c c' hc hc').1
  obtain ⟨rfl, hw, m, rfl, hm⟩ := hb.message hc hsz
  obtain ⟨bs, m', g1, -, g3, g4⟩ := h57 m (by omega) hj
  rw [serialize_wire c hw m (by omega)] at g1
  cases g1
  obtain ⟨y, h2, sc2, k1, k2, k3⟩ := C73_accepts hA' hc' hd hi scratch (C27_inside_partial c' before _ after m' g3)
  rw [g4] at k2
  exact ⟨c', y, h2, sc2, hc', k1, k2, k3⟩

/-! ### C83: messages which are cut off -/

/-- **C83 (Rust readers).** Let a message written by a program generated from one version be cut off anywhere. There is exactly one content `t'` which the remaining
bytes `p` show. The Rust program generated from the same or another version, related by the documented rules, returns a value with that content (restricted to what
it knows), or the error `UnexpectedEof` or `InvalidData`; or it does not return, and the message has a field which it does not know. It never panics. -/
theorem C83_rust_reader {T T' : CharTable} {S S' : Schemas} (hA' : Accepted T' S') {R : TypeKey → TypeKey → Prop} (hR : CompatibleSchemas S S' R)
    {k k' : TypeKey} (h : R k k') {ns : Namespace} {f : Schema} {d : Declaration} (hd : S'.Declares k' ns f d) {t : Tree} {bs : Bytes}
    (hb : WrittenBy T S k t bs) {lim : Nat} (hlim : lim < 2 ^ 64) (hsz : 8 * (t.wire false).length ≤ lim) {p : Bytes} (hp : p <+: bs) :
    ∃ c' t', S'.Denotes k' c' ∧ Tree.Cut false t p t' ∧ (∀ t'', Tree.Cut false t p t'' → t'' = t') ∧
      ((∃ y, Gen.Holds T' S' .inn k' y (c'.project t') ∧
        Gen.Runs lim (Gen.program T' S') (Gen.generatedType T' ns d .inn) Gen.traitDeserialize ⟨[(.reader, .reader 1)], [], [p]⟩
          (.val (.ok y), ⟨[(.reader, .reader 1)], [], [[]]⟩)) ∨
      (∃ e s', (e = Kind.unexpectedEof ∨ e = Kind.invalidData) ∧
        Gen.Runs lim (Gen.program T' S') (Gen.generatedType T' ns d .inn) Gen.traitDeserialize ⟨[(.reader, .reader 1)], [], [p]⟩
          (.val (.err e), s')) ∨
      (¬ c'.Knows t ∧ ∃ s', Gen.Runs lim (Gen.program T' S') (Gen.generatedType T' ns d .inn) Gen.traitDeserialize ⟨[(.reader, .reader 1)], [], [p]⟩
          (.fail .hang, s'))) := by
  obtain ⟨c, c', hc, hc', -⟩ := C57_versions S S' hb.loaded hA'.loaded hb.valid hA'.valid R hR k k' h
  have hcomp := versions_compat hb.loaded hA'.loaded hb.valid hA'.valid hR h hc hc'
  obtain ⟨rfl, hw, m, rfl, hm⟩ := hb.message hc (by omega)
  obtain ⟨N, hN, rfl, hw'⟩ := hA'.named hc'
  obtain ⟨bs, h1, h2⟩ := C63_truncated c N.erase hw hw' (CTy.CanRead.shape _ _ (CTy.Compat.canRead _ hw _ hw' hcomp)) m lim hlim (by omega)
  rw [serialize_wire c hw m (by omega)] at h1
  cases h1
  obtain ⟨t', h3, h4, h5⟩ := h2 p hp
  refine ⟨N.erase, t', hc', h3, h4, ?_⟩
  have hd' := C68_deserialize hA' hc' hd lim p []
  rcases h5 with ⟨v, h6, h7⟩ | ⟨-, h7 | h7⟩ | ⟨h6, h7⟩
  · rw [h7] at hd'
    obtain ⟨y, g1, g2⟩ := hd'
    rw [CTy.tree_read _ hw' _ _ h6] at g1
    exact .inl ⟨y, g1, g2⟩
  · rw [h7] at hd'
    obtain ⟨s', g⟩ := hd'
    exact .inr (.inl ⟨_, s', .inl rfl, g⟩)
  · rw [h7] at hd'
    obtain ⟨s', g⟩ := hd'
    exact .inr (.inl ⟨_, s', .inr rfl, g⟩)
  · rw [h7] at hd'
    exact .inr (.inr ⟨h6, hd'⟩)

/-- **C83 (TypeScript readers).** Let a message written by a program generated from one version be cut off before its end, and let the rest `p` be the contents of an
`ArrayBuffer`. The TypeScript program generated from the same or another version, related by the documented rules, returns a value with the content of leading fields of the
message which are complete, or it returns an `Error`. It never gets a part of a value, never throws and always returns. -/
theorem C83_typescript_reader {T T' : CharTable} {S S' : Schemas} (hA' : TsAccepted T' S') {R : TypeKey → TypeKey → Prop}
    (hR : CompatibleSchemas S S' R) {k k' : TypeKey} (h : R k k') {ns : Namespace} {f : Schema} {d : Declaration} (hd : S'.Declares k' ns f d)
    {t : Tree} {bs : Bytes} (hb : WrittenBy T S k t bs) (hsz : (t.wire false).length < 2 ^ 64) (hj : t.JsSafe) {p : Bytes} (hp : p <+: bs)
    (hl : p.length < bs.length) {hh : List Obj} {r : Nat} (hi : hh[r]? = some (.buf p)) (scratch : Nat → UInt8) :
    ∃ c' before i u after q, S'.Denotes k' c' ∧ t = .fields (before ++ (i, u) :: after) ∧ p = Tree.wireFields before ++ q ∧
      q <+: Spec.field i u.isInteger (u.wire true) ∧ q.length < (Spec.field i u.isInteger (u.wire true)).length ∧
      ((∃ y h' scratch', JsHolds T' S' .inn (fun r => if hh.length ≤ r then h'[r]? else none) k' y (c'.project (.fields before)) ∧
        Calls (program T' S') (declPath T' ns.components d) .deserialize [.buf r] hh scratch (.val y) h' scratch') ∨
      (∃ e h' scratch', (e = Ts.Err.range ∨ e = Ts.Err.missing) ∧
        Calls (program T' S') (declPath T' ns.components d) .deserialize [.buf r] hh scratch (.val (.err e)) h' scratch')) := by
  obtain ⟨c, c', hc, hc', -⟩ := C57_versions S S' hb.loaded hA'.loaded hb.valid hA'.valid R hR k k' h
  have hcomp := versions_compat hb.loaded hA'.loaded hb.valid hA'.valid hR h hc hc'
  obtain ⟨rfl, hw, m, rfl, hm⟩ := hb.message hc hsz
  obtain ⟨N, hN, rfl, hw', -⟩ := hA'.named hc' hd
  have hin : JsInput hh (.buf r) [] p [] := .buffer hi
  have hpart : Ts.deserializeView N.erase (Ts.part [] p []) = Ts.deserialize N.erase p := by
    unfold Ts.part Ts.deserialize
    rw [List.nil_append, List.append_nil]
    rfl
  have key : ∃ before i u after q, c.tree m = .fields (before ++ (i, u) :: after) ∧ p = Tree.wireFields before ++ q ∧
      q <+: Spec.field i u.isInteger (u.wire true) ∧ q.length < (Spec.field i u.isInteger (u.wire true)).length ∧
      ((∃ v, N.erase.read (.fields before) = some v ∧ Ts.deserialize N.erase p = .ok v) ∨ ∃ e, Ts.deserialize N.erase p = .error e) := by
    cases hN with
    | @struct _ _ _ _ fs _ _ _ =>
      obtain ⟨bs, h1, -, h2⟩ := C66_struct c _ hw hw' hcomp m (by omega) hj
      rw [serialize_wire c hw m (by omega)] at h1
      cases h1
      obtain ⟨before, i, u, after, q, g1, g2, g3, g4, g5, g6⟩ := h2 p hp hl
      refine ⟨before, i, u, after, q, g1, g2, g3, g4, ?_⟩
      rcases Classical.em _ with hx | hx
      · exact .inr ⟨_, g5 hx⟩
      · rcases g6 hx with g | ⟨-, g⟩
        · exact .inl g
        · exact .inr ⟨_, g⟩
    | @choice _ _ _ _ fs _ _ _ =>
      obtain ⟨bs, h1, -, h2⟩ := C66_choice c _ hw hw' hcomp m (by omega) hj
      rw [serialize_wire c hw m (by omega)] at h1
      cases h1
      obtain ⟨before, i, u, after, q, g1, g2, g3, g4, g5⟩ := h2 p hp hl
      refine ⟨before, i, u, after, q, g1, g2, g3, g4, ?_⟩
      rcases g5 with g | ⟨-, g⟩
      · exact .inl g
      · exact .inr ⟨_, g⟩
  obtain ⟨before, i, u, after, q, g1, g2, g3, g4, g5⟩ := key
  refine ⟨N.erase, before, i, u, after, q, hc', g1, g2, g3, g4, ?_⟩
  rcases C73_deserialize hA' hc' hd hin scratch with ⟨m', y, h', sc', e, -, h2, h3⟩ | ⟨e, h', sc', -, he, -, h3⟩
  · rw [hpart] at e
    rcases g5 with ⟨v, g6, g7⟩ | ⟨e', g7⟩
    · rw [g7] at e
      cases e
      rw [CTy.tree_read _ hw' _ _ g6] at h2
      exact .inl ⟨y, h', sc', h2, h3⟩
    · rw [g7] at e
      cases e
  · exact .inr ⟨e, h', sc', he, h3⟩

/-! ### Examples -/

/-- The versions are related, and both are accepted by both generators. -/
example : CompatibleSchemas exampleSchemas (editSchemas exampleEdit exampleSchemas)
      (fun k k' => k' = k ∧ ∃ ns s d, exampleSchemas.Declares k ns s d) ∧
    Accepted asciiTable (editSchemas exampleEdit exampleSchemas) ∧ TsAccepted asciiTable (editSchemas exampleEdit exampleSchemas) :=
  ⟨safeEdits_compatible _ exampleSchemas_loaded (by decide +kernel) _ exampleEdit_safe,
    accepted_of_plain asciiTable_ascii exampleEdited_loaded (by decide +kernel) (by decide +kernel),
    C72_names asciiTable_ascii _ exampleEdited_loaded (by decide +kernel) (clearSchemas_spec (by decide +kernel))⟩

theorem exampleShapeTree_jsSafe : exampleShapeTree.JsSafe :=
  have h : ¬ [0xEF, 0xBB, 0xBF] <+: ([104, 105] : Bytes) := by decide
  ⟨h, ⟨trivial, ⟨⟨trivial, trivial, trivial⟩, trivial⟩, trivial⟩, ⟨trivial, trivial, trivial⟩, trivial⟩

/-- What the Rust program writes, and what the TypeScript program writes. -/
example : (∃ bs, WrittenBy asciiTable exampleSchemas (["main".toList], "shape".toList) exampleShapeTree bs) ∧
    exampleShapeTree.JsSafe ∧ 8 * (exampleShapeTree.wire false).length ≤ 1000 := by
  refine ⟨?_, exampleShapeTree_jsSafe, by decide +kernel⟩
  obtain ⟨c, hc, -⟩ := C30_wire_type exampleSchemas exampleSchemas_loaded (by decide +kernel) (["main".toList], "shape".toList) ⟨[ident "main"]⟩
    exampleMain (exampleMain.declarations[0]) ⟨.tail _ (.head _), .head _, by decide +kernel⟩
  obtain ⟨-, h⟩ := C67_serialize exampleSchemas_accepted hc exampleShape_holds (by decide +kernel) 1000 ([], []) [] []
  exact ⟨_, .rust exampleSchemas_accepted exampleShape_holds h⟩

example : ∃ bs, WrittenBy asciiTable exampleSchemas (["main".toList], "shape".toList) exampleShapeTree bs := by
  have hd : exampleSchemas.Declares (["main".toList], "shape".toList) ⟨[ident "main"]⟩ exampleMain (exampleMain.declarations[0]) :=
    ⟨.tail _ (.head _), .head _, by decide +kernel⟩
  obtain ⟨c, hc, -⟩ := C30_wire_type exampleSchemas exampleSchemas_loaded (by decide +kernel) _ _ _ _ hd
  obtain ⟨-, h', r, -, -, e, h⟩ := C72_serialize exampleSchemas_tsAccepted hc hd exampleObject_holds (by decide +kernel) (fun _ => 9)
  exact ⟨_, .typescript exampleSchemas_tsAccepted hd exampleObject_holds h e⟩

end Typical

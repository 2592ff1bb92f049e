import Verif.Props.GeneratedDevices
import Verif.Props.AcrossLanguages

/-!
# Property C89: a generated program writes to a device which fails, and a program of another version reads what arrived

The sender is the Rust program generated from one version of the schemas, executed on a writer which accepts bytes in pieces and can fail at any point (C84). Any part
of what was written arrives (the sender, the receiver's disk or the connection may have crashed), and is read by the program generated from the same or another
version.
-/

namespace Typical

open Gen

/-- What `serialize` writes to a device: the message if it succeeds, otherwise a proper prefix. -/
theorem written_prefix {T : CharTable} {S : Schemas} (hA : Accepted T S) {k : TypeKey} {c : CTy} (hc : S.Denotes k c) {v : Val} {t : Tree}
    (hv : Holds T S .out k v t) (hsz : (t.wire false).length < 2 ^ 64) {target : Rt.Target} (ht : target.bits = 64) {lim : Nat} {self : TypeId}
    {r : Reader} {events : List WEvent} {res : Out} {d1 : DSt}
    (hs : RunsD target lim (program T S) self traitSerialize ⟨[(.self, v), (.writer, .writer)], 0, r, writerOf events⟩ (res, d1)) :
    (res = .val (.ok .unit) ∧ d1.writer.written = t.wire false) ∨
    (∃ e, res = .val (.err e)) ∧ d1.writer.written <+: t.wire false ∧ d1.writer.written ≠ t.wire false := by
  rcases (C84_serialize hA hc hv hsz ht lim self r events).2 with ⟨d', h1, h2⟩ | ⟨e, d', -, h1, h2, h3⟩
  · cases (C84_unique hs).1 _ h1
    exact .inl ⟨rfl, h2⟩
  · cases (C84_unique hs).1 _ h1
    exact .inr ⟨⟨e, rfl⟩, h2, h3⟩

/-- **C89 (Rust readers).** The Rust program generated from one version executes `serialize` on any writer; some of the bytes which it wrote, from the beginning, arrive
(in any pieces) at the Rust program generated from the same or another version, related by the documented rules.

If `serialize` returned `Ok` and all bytes arrived, `deserialize` returns the content which was written (restricted to what the reader's version knows). Otherwise there
is exactly one content `t'` which these bytes show; `deserialize` returns that content, or the error `UnexpectedEof` or `InvalidData`, or it does not return and the message
has a field which the reader's version does not know. -/
theorem C89_rust_reader {T T' : CharTable} {S S' : Schemas} (hA : Accepted T S) (hA' : Accepted T' S') {R : TypeKey → TypeKey → Prop}
    (hR : CompatibleSchemas S S' R) {k k' : TypeKey} (h : R k k') {ns : Namespace} {f : Schema} {d : Declaration} (hd : S'.Declares k' ns f d)
    {v : Val} {t : Tree} (hv : Holds T S .out k v t) {lim : Nat} (hlim : lim < 2 ^ 64) (hsz : 8 * (t.wire false).length ≤ lim)
    {target target' : Rt.Target} (ht : target.bits = 64) (ht' : target'.bits = 64) {self : TypeId} {r : Reader} {events : List WEvent} {res : Out} {d1 : DSt}
    (hs : RunsD target lim (program T S) self traitSerialize ⟨[(.self, v), (.writer, .writer)], 0, r, writerOf events⟩ (res, d1))
    {p : Bytes} (hp : p <+: d1.writer.written) {r' : Reader} (hr : Delivers r' p) :
    ∃ c', S'.Denotes k' c' ∧
      (res = .val (.ok .unit) → p = d1.writer.written → ∃ y d2, Holds T' S' .inn k' y (c'.project t) ∧
        RunsD target' lim (program T' S') (generatedType T' ns d .inn) traitDeserialize ⟨[(.reader, .reader 1)], 1, r', vector []⟩ (.val (.ok y), d2) ∧
        Delivers d2.reader []) ∧
      ∃ t', Tree.Cut false t p t' ∧ (∀ t'', Tree.Cut false t p t'' → t'' = t') ∧
        ((∃ y d2, Holds T' S' .inn k' y (c'.project t') ∧
          RunsD target' lim (program T' S') (generatedType T' ns d .inn) traitDeserialize ⟨[(.reader, .reader 1)], 1, r', vector []⟩ (.val (.ok y), d2)) ∨
        (∃ e d2, (e = Kind.unexpectedEof ∨ e = Kind.invalidData) ∧
          RunsD target' lim (program T' S') (generatedType T' ns d .inn) traitDeserialize ⟨[(.reader, .reader 1)], 1, r', vector []⟩ (.val (.err e), d2)) ∨
        (¬ c'.Knows t ∧
          HangsD target' lim (program T' S') (generatedType T' ns d .inn) traitDeserialize ⟨[(.reader, .reader 1)], 1, r', vector []⟩)) := by
  obtain ⟨c, c', hc, hc', hread, -⟩ := C57_versions S S' hA.loaded hA'.loaded hA.valid hA'.valid R hR k k' h
  have hw := written_prefix hA hc hv (by omega) ht hs
  have hpw : p <+: t.wire false := by
    rcases hw with ⟨-, hw⟩ | ⟨-, hw, -⟩
    · rw [← hw]; exact hp
    · exact hp.trans hw
  have hb : WrittenBy T S k t (t.wire false) := .rust hA hv (C67_serialize hA hc hv (by omega) lim self [] []).2
  have hcomp := versions_compat hA.loaded hA'.loaded hA.valid hA'.valid hR h hc hc'
  obtain ⟨-, hwf, m, rfl, hm⟩ := hb.message hc (by omega)
  have hdev := C84_deserialize hA' hc' hd ht' lim hr []
  refine ⟨c', hc', ?_, ?_⟩
  · intro hres hall
    have hpe : p = (c.tree m).wire false := by
      rcases hw with ⟨-, hw⟩ | ⟨⟨e, he⟩, -⟩
      · rw [hall, hw]
      · rw [hres] at he; cases he
    obtain ⟨bs, v', h1, h2, h3⟩ := hread lim hlim m (by omega)
    rw [serialize_wire c hwf m (by omega)] at h1
    cases h1
    rw [hpe, h2] at hdev
    obtain ⟨y, d2, g1, g2, g3, -⟩ := hdev
    rw [h3] at g1
    exact ⟨y, d2, g1, g2, g3⟩
  · obtain ⟨N, hN, rfl, hw'⟩ := hA'.named hc'
    obtain ⟨bs, h1, h2⟩ := C63_truncated c N.erase hwf hw' (CTy.CanRead.shape _ _ (CTy.Compat.canRead _ hwf _ hw' hcomp)) m lim hlim (by omega)
    rw [serialize_wire c hwf m (by omega)] at h1
    cases h1
    obtain ⟨t', h3, h4, h5⟩ := h2 p hpw
    refine ⟨t', h3, h4, ?_⟩
    rcases h5 with ⟨x, h6, h7⟩ | ⟨-, h7 | h7⟩ | ⟨h6, h7⟩
    · rw [h7] at hdev
      obtain ⟨y, d2, g1, g2, -⟩ := hdev
      rw [CTy.tree_read _ hw' _ _ h6] at g1
      exact .inl ⟨y, d2, g1, g2⟩
    · rw [h7] at hdev
      obtain ⟨d2, g⟩ := hdev
      exact .inr (.inl ⟨_, d2, .inl rfl, g⟩)
    · rw [h7] at hdev
      obtain ⟨d2, g⟩ := hdev
      exact .inr (.inl ⟨_, d2, .inr rfl, g⟩)
    · rw [h7] at hdev
      exact .inr (.inr ⟨h6, hdev⟩)

/-- **C89 (TypeScript readers).** The same for the TypeScript program generated from the same or another version, with the bytes which arrived in an `ArrayBuffer`: if `serialize`
returned `Ok` and all bytes arrived, it returns the content which was written; otherwise the content of complete leading fields, or an `Error`. -/
theorem C89_typescript_reader {T T' : CharTable} {S S' : Schemas} (hA : Accepted T S) (hA' : TsAccepted T' S') {R : TypeKey → TypeKey → Prop}
    (hR : CompatibleSchemas S S' R) {k k' : TypeKey} (h : R k k') {ns : Namespace} {f : Schema} {d : Declaration} (hd : S'.Declares k' ns f d)
    {v : Val} {t : Tree} (hv : Holds T S .out k v t) {lim : Nat} (hsz : (t.wire false).length < 2 ^ 64) (hj : t.JsSafe)
    {target : Rt.Target} (ht : target.bits = 64) {self : TypeId} {r : Reader} {events : List WEvent} {res : Out} {d1 : DSt}
    (hs : RunsD target lim (program T S) self traitSerialize ⟨[(.self, v), (.writer, .writer)], 0, r, writerOf events⟩ (res, d1))
    {p : Bytes} (hp : p <+: d1.writer.written) {hh : List TsGen.Obj} {b : Nat} (hi : hh[b]? = some (.buf p)) (scratch : Nat → UInt8) :
    ∃ c', S'.Denotes k' c' ∧
      ((∃ y h' scratch', (res = .val (.ok .unit) ∧ p = d1.writer.written) ∧
        TsGen.JsHolds T' S' .inn (fun r => if hh.length ≤ r then h'[r]? else none) k' y (c'.project t) ∧
        Calls (TsGen.program T' S') (TsGen.declPath T' ns.components d) .deserialize [.buf b] hh scratch (.val y) h' scratch') ∨
      (∃ before rest y h' scratch', t = .fields (before ++ rest) ∧ rest ≠ [] ∧ Tree.wireFields before <+: p ∧
        TsGen.JsHolds T' S' .inn (fun r => if hh.length ≤ r then h'[r]? else none) k' y (c'.project (.fields before)) ∧
        Calls (TsGen.program T' S') (TsGen.declPath T' ns.components d) .deserialize [.buf b] hh scratch (.val y) h' scratch') ∨
      (p ≠ t.wire false ∧ ∃ e h' scratch', (e = Ts.Err.range ∨ e = Ts.Err.missing) ∧
        Calls (TsGen.program T' S') (TsGen.declPath T' ns.components d) .deserialize [.buf b] hh scratch (.val (.err e)) h' scratch')) := by
  obtain ⟨c, -, hc, -⟩ := C57_versions S S' hA.loaded hA'.loaded hA.valid hA'.valid R hR k k' h
  have hw := written_prefix hA hc hv hsz ht hs
  have hpw : p <+: t.wire false := by
    rcases hw with ⟨-, hw⟩ | ⟨-, hw, -⟩
    · rw [← hw]; exact hp
    · exact hp.trans hw
  have hb : WrittenBy T S k t (t.wire false) := .rust hA hv (C67_serialize hA hc hv hsz lim self [] []).2
  by_cases hpe : p = t.wire false
  · have hres : res = .val (.ok .unit) ∧ p = d1.writer.written := by
      rcases hw with ⟨hr, hw⟩ | ⟨-, hw, hne⟩
      · exact ⟨hr, by rw [hpe, hw]⟩
      · refine absurd (hw.eq_of_length_le ?_) hne
        rw [← hpe]
        exact hp.length_le
    rw [← hpe] at hb
    obtain ⟨c', y, h', sc', h1, -, h2, h3⟩ := C82_typescript_reader hA' hR h hd hb hsz hj (TsGen.JsInput.buffer hi) scratch
    exact ⟨c', h1, .inl ⟨y, h', sc', hres, h2, h3⟩⟩
  · have hl : p.length < (t.wire false).length := by
      rcases Nat.lt_or_ge p.length (t.wire false).length with h | h
      · exact h
      · exact absurd (hpw.eq_of_length_le h) hpe
    obtain ⟨c', before, i, u, after, q, h1, h2, h3, -, -, h4⟩ := C83_typescript_reader hA' hR h hd hb hsz hj hpw hl hi scratch
    refine ⟨c', h1, ?_⟩
    rcases h4 with ⟨y, h', sc', g1, g2⟩ | ⟨e, h', sc', g1, g2⟩
    · exact .inr (.inl ⟨before, (i, u) :: after, y, h', sc', h2, by simp, ⟨q, h3.symm⟩, g1, g2⟩)
    · exact .inr (.inr ⟨hpe, e, h', sc', g1, g2⟩)

/-! ### Examples -/

/-- The conditions hold of a sender whose writer accepts two bytes, then fails, and of the other version of the schemas as for C82. (Executed: at the end of
`Props/GeneratedDevices.lean`.) -/
example : (∃ res d1, RunsD ⟨true, 64⟩ 1000 (program asciiTable exampleSchemas) ([], []) traitSerialize
      ⟨[(.self, exampleShape), (.writer, .writer)], 0, deviceOf [], writerOf [.accept 1, .accept 1, .fail (.other 7)]⟩ (res, d1)) ∧
    Accepted asciiTable exampleSchemas ∧ Holds asciiTable exampleSchemas .out (["main".toList], "shape".toList) exampleShape exampleShapeTree ∧
    8 * (exampleShapeTree.wire false).length ≤ 1000 ∧
    CompatibleSchemas exampleSchemas (editSchemas exampleEdit exampleSchemas) (fun k k' => k' = k ∧ ∃ ns s d, exampleSchemas.Declares k ns s d) ∧
    Accepted asciiTable (editSchemas exampleEdit exampleSchemas) := by
  have hd : exampleSchemas.Declares (["main".toList], "shape".toList) ⟨[ident "main"]⟩ exampleMain (exampleMain.declarations[0]) :=
    ⟨.tail _ (.head _), .head _, by decide +kernel⟩
  obtain ⟨c, hc, -⟩ := C30_wire_type exampleSchemas exampleSchemas_loaded (by decide +kernel) _ _ _ _ hd
  refine ⟨?_, exampleSchemas_accepted, exampleShape_holds, by decide +kernel,
    safeEdits_compatible _ exampleSchemas_loaded (by decide +kernel) _ exampleEdit_safe,
    accepted_of_plain asciiTable_ascii exampleEdited_loaded (by decide +kernel) (by decide +kernel)⟩
  rcases (C84_serialize exampleSchemas_accepted hc exampleShape_holds (by decide +kernel) (target := ⟨true, 64⟩) rfl 1000 ([], []) (deviceOf [])
    [.accept 1, .accept 1, .fail (.other 7)]).2 with ⟨d', g, -⟩ | ⟨e, d', -, g, -⟩
  · exact ⟨_, _, g⟩
  · exact ⟨_, _, g⟩

/-- Executed: the first two bytes of the message arrive, in one piece; the reader returns an error. -/
example : (match evalInD ⟨false, 64⟩ 1000 (callFnD ⟨false, 64⟩ 1000 (program asciiTable (editSchemas exampleEdit exampleSchemas)) 20) 20
      (generatedType asciiTable ⟨[ident "main"]⟩ exampleMain.declarations[0] .inn) traitDeserialize
      ⟨[(.reader, .reader 1)], 1, deviceOf (byteByByte ((exampleShapeTree.wire false).take 2)), vector []⟩ with
    | some (.val (.err _), _) => true
    | _ => false) = true := by decide +kernel

end Typical

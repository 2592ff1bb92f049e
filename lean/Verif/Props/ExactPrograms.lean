import Verif.OnceKind
import Verif.Front.ExactLemmas
import Verif.Props.Exact
import Verif.Props.TsValues
import Verif.Props.AcrossLanguages

/-!
# C92: the documented rules are exact for generated programs
-/

namespace Typical

open TsGen

/-- Programs generated from `S` can write a message for the declaration `k`, with content `t`, and every program generated from `S'` rejects it, if it takes it for a
message of the declaration `k'`. -/
structure Breaks (T : CharTable) (S : Schemas) (k : TypeKey) (T' : CharTable) (S' : Schemas) (k' : TypeKey) (t : Tree) : Prop where
  /-- The content is no special case in JavaScript. -/
  safe : t.JsSafe
  /-- It is the content of a value of the generated Rust type. -/
  rust_value : Accepted T S → ∃ v, Gen.Holds T S .out k v t
  /-- It is the content of a value of the generated TypeScript type (unless a field of a choice has the name of a property which all objects inherit). -/
  ts_value : TsAccepted T S →
    (∀ e ∈ S, ∀ d ∈ e.2.declarations, d.variant = .choice → ∀ f ∈ d.fields, ¬ IsWord objectPrototype (tsCamel T f.name)) →
    ∀ h : List Obj, ∃ h' v, h <+: h' ∧ JsHolds T S .out (fun r => h'[r]?) k v t
  /-- The Rust program of the other version reports an error. -/
  rust_reader : Accepted T' S' → ∀ {ns f d}, S'.Declares k' ns f d → ∀ {bs}, WrittenBy T S k t bs →
    ∀ {lim : Nat}, lim < 2 ^ 64 → 8 * (t.wire false).length ≤ lim → ∀ out : Bytes, ∃ e s', (e = Kind.unexpectedEof ∨ e = Kind.invalidData) ∧
      Gen.Runs lim (Gen.program T' S') (Gen.generatedType T' ns d .inn) Gen.traitDeserialize ⟨[(.reader, .reader 1)], out, [bs]⟩ (.val (.err e), s')
  /-- The TypeScript program of the other version returns an error. -/
  ts_reader : TsAccepted T' S' → ∀ {ns f d}, S'.Declares k' ns f d → ∀ {bs}, WrittenBy T S k t bs → (t.wire false).length < 2 ^ 64 →
    ∀ {h : List Obj} {x : Val} {before after : Bytes}, JsInput h x before bs after → ∀ scratch : Nat → UInt8, ∃ e h' scratch',
      (e = Ts.Err.range ∨ e = Ts.Err.missing) ∧
      Calls (program T' S') (declPath T' ns.components d) .deserialize [x] h scratch (.val (.err e)) h' scratch'

/-- If the reader's type is not readable, there is a message which breaks it. -/
theorem breaks_of_unreadable {T T' : CharTable} {S S' : Schemas} {k k' : TypeKey} {c c' : CTy} (hc : S.Denotes k c) (hc' : S'.Denotes k' c') (hw : c.WF)
    (hw' : c'.WF) (hs : c.SameKind c') (hp : c.Productive) (h : ¬ c.Readable c') : ∃ t, Breaks T S k T' S' k' t := by
  obtain ⟨m, hsafe, hm⟩ := CTy.unreadable hw hw' hp h
  have hfits := CTy.fits_tree c hw c' hw' (CTy.SameKind.shape _ _ hs) m
  refine ⟨c.tree m, hsafe, fun hA => (C67_values hA hc .out _).mpr ⟨m, rfl⟩, fun hA hpr h => (C72_values hA hpr hc h _).mpr ⟨m, rfl⟩, ?_, ?_⟩
  · intro hA ns f d hd bs hb lim hlim hsz out
    obtain ⟨rfl, -⟩ := hb.message hc (by omega)
    have h1 := deserialize_wire lim hlim c' hw' _ hfits hsz
    rw [hm] at h1
    obtain ⟨e, h1, h2⟩ := h1
    have h3 := C68_deserialize hA hc' hd lim ((c.tree m).wire false) out
    rw [h1] at h3
    obtain ⟨s', h3⟩ := h3
    rcases h2 with rfl | rfl
    · exact ⟨_, s', .inl rfl, h3⟩
    · exact ⟨_, s', .inr rfl, h3⟩
  · intro hA ns f d hd bs hb hsz hh x before after hi scratch
    obtain ⟨rfl, -⟩ := hb.message hc hsz
    have h1 := Ts.deserializeView_wire c' hw' _ hfits (CTy.once_sameKind c hw c' hw' hs m) hsafe hsz (Ts.part before ((c.tree m).wire false) after)
      (Ts.holds_part _ _ _)
    rw [hm] at h1
    rcases C73_deserialize hA hc' hd hi scratch with ⟨m', y, h', sc', e, -⟩ | ⟨e, h', sc', -, he, -, h3⟩
    · rcases h1 with h1 | h1 <;> rw [h1] at e <;> cases e
    · exact ⟨e, h', sc', he, h3⟩

section
variable {S S' : Schemas} (hl : S.Loaded) (hl' : S'.Loaded) (hv : validate S = .ok []) (hv' : validate S' = .ok []) (hm : S.HaveMessages)
  (hm' : S'.HaveMessages) {R : TypeKey → TypeKey → Prop} (hR : Corresponding S S' R)

/-- The indices of fields are different. -/
theorem indices_nodup (hl : S.Loaded) (hv : validate S = .ok []) : ∀ e ∈ S, ∀ d ∈ e.2.declarations, (d.fields.map (fun f => f.index)).Nodup := fun e he d hd =>
  (nodup_append_iff.mp ((((C28_accepts_exactly_well_formed S hl).mp hv).declarations e he d hd).indices.nodup_iff.mpr List.nodup_range)).1

include hl hl' hv hv' hm hm' hR

/-- **C92 (wire types).** Let two versions of some schemas be valid, let all choices have required fields, and let `R` relate declarations of the same kind whose
shared fields have the same types, up to `R`. The wire types `c` and `c'` of two related declarations are compatible at all depths, or programs generated from one of the
versions write a message which programs generated from the other version reject, in both languages. -/
theorem C92_wire_types (T T' : CharTable) {k k' : TypeKey} (h : R k k') {c c' : CTy} (hc : S.Denotes k c) (hc' : S'.Denotes k' c') :
    c.Compat c' ∨ (∃ t, Breaks T S k T' S' k' t) ∨ ∃ t, Breaks T' S' k' T S k t := by
  have hw := (C28_accepts_exactly_well_formed S hl).mp hv
  have hw' := (C28_accepts_exactly_well_formed S' hl').mp hv'
  obtain ⟨ns, s, d, ns', s', d', g1, g2, -⟩ := hR k k' h
  obtain ⟨c0, -, hcw, u⟩ := C30_wire_type S hl hv k ns s d g1
  obtain ⟨c0', -, hcw', u'⟩ := C30_wire_type S' hl' hv' k' ns' s' d' g2
  rw [← u c hc] at hcw
  rw [← u' c' hc'] at hcw'
  have hk := Denotes.sameKind hl hl' hw.names hw'.names hR h hc' hc
  have hp := Denotes.productive (indices_nodup hl hv) hm hc
  have hp' := Denotes.productive (indices_nodup hl' hv') hm' hc'
  by_cases h1 : c.Readable c'
  · by_cases h2 : c'.Readable c
    · exact .inl (CTy.Readable.compat c hcw c' hcw' hk h1 h2)
    · exact .inr (.inr (breaks_of_unreadable hc' hc hcw' hcw (CTy.SameKind.symm c' hcw' c hcw hk) hp' h2))
  · exact .inr (.inl (breaks_of_unreadable hc hc' hcw hcw' hk hp h1))

/-- **C92.** Under the same conditions: the two versions are related by the documented rules of schema evolution, or there are related declarations and a message which
programs generated from one of the versions write, and which programs generated from the other version reject, in both languages. -/
theorem C92_exact (T T' : CharTable) : CompatibleSchemas S S' R ∨
    ∃ k k', R k k' ∧ ((∃ t, Breaks T S k T' S' k' t) ∨ ∃ t, Breaks T' S' k' T S k t) := by
  by_cases hno : ∃ k k', R k k' ∧ ((∃ t, Breaks T S k T' S' k' t) ∨ ∃ t, Breaks T' S' k' T S k t)
  · exact .inr hno
  · left
    intro k k' h
    obtain ⟨ns, s, d, ns', s', d', g1, g2, g3, g4⟩ := hR k k' h
    refine ⟨ns, s, d, ns', s', d', g1, g2, ?_⟩
    have hn := ((C28_accepts_exactly_well_formed S hl).mp hv).names
    have hn' := ((C28_accepts_exactly_well_formed S' hl').mp hv').names
    obtain ⟨c, hc, hcw, -⟩ := C30_wire_type S hl hv k ns s d g1
    obtain ⟨c', hc', hcw', -⟩ := C30_wire_type S' hl' hv' k' ns' s' d' g2
    have hcomp := (C92_wire_types hl hl' hv hv' hm hm' hR T T' h hc hc').resolve_right (fun hb => hno ⟨k, k', h, hb⟩)
    have hi := indices_nodup hl hv _ g1.1 _ g1.2.1
    have hi' := indices_nodup hl' hv' _ g2.1 _ g2.2.1
    cases hc with
    | struct h1 h2 h3 =>
      obtain ⟨rfl, rfl, rfl⟩ := Declares.unique hl hn h1 g1
      cases hc' with
      | struct h1' h2' h3' =>
        obtain ⟨rfl, rfl, rfl⟩ := Declares.unique hl' hn' h1' g2
        simp only [CTy.WF] at hcw hcw'
        simp only [CTy.Compat] at hcomp
        exact newVersion_of_fields g3 g4 h3 h3' hi hi' hcw.1 hcw'.1 hcomp.1 hcomp.2
      | choice h1' h2' h3' =>
        obtain ⟨rfl, rfl, rfl⟩ := Declares.unique hl' hn' h1' g2
        rw [h2, h2'] at g3; cases g3
    | choice h1 h2 h3 =>
      obtain ⟨rfl, rfl, rfl⟩ := Declares.unique hl hn h1 g1
      cases hc' with
      | choice h1' h2' h3' =>
        obtain ⟨rfl, rfl, rfl⟩ := Declares.unique hl' hn' h1' g2
        simp only [CTy.WF] at hcw hcw'
        simp only [CTy.Compat] at hcomp
        exact newVersion_of_fields g3 g4 h3 h3' hi hi' hcw.1 hcw'.1 hcomp.1 hcomp.2
      | struct h1' h2' h3' =>
        obtain ⟨rfl, rfl, rfl⟩ := Declares.unique hl' hn' h1' g2
        rw [h2, h2'] at g3; cases g3
end

/-- What an edit has to leave alone for the question to arise at all: kinds and names of declarations, and the types of fields (that is, of indices) which are kept. -/
structure KeepsTypes (d d' : Declaration) : Prop where
  variant : d'.variant = d.variant
  name : d'.name.snakeCase = d.name.snakeCase
  types : ∀ f ∈ d.fields, ∀ f' ∈ d'.fields, f'.index = f.index → f'.type.variant = f.type.variant

/-- **C92 (edits).** Let the declarations of some valid schemas be edited, such that kinds, names and types of fields which are kept are not changed, and let the result be valid,
with a required field in each choice. All edits are safe in the documented sense, or there is a declaration, and a message which programs generated from one of
the two versions write, and which programs generated from the other version reject. -/
theorem C92_edits {S : Schemas} (hl : S.Loaded) (hv : validate S = .ok []) (hm : S.HaveMessages) (edit : Declaration → Declaration)
    (he : ∀ e ∈ S, ∀ d ∈ e.2.declarations, KeepsTypes d (edit d)) (hl' : (editSchemas edit S).Loaded)
    (hv' : validate (editSchemas edit S) = .ok []) (hm' : (editSchemas edit S).HaveMessages) (T T' : CharTable) :
    (∀ e ∈ S, ∀ d ∈ e.2.declarations, SafeEdit d (edit d)) ∨
    ∃ k ns s d, S.Declares k ns s d ∧ ((∃ t, Breaks T S k T' (editSchemas edit S) k t) ∨ ∃ t, Breaks T' (editSchemas edit S) k T S k t) := by
  have hw := (C28_accepts_exactly_well_formed S hl).mp hv
  have hw' := (C28_accepts_exactly_well_formed _ hl').mp hv'
  have hedited : ∀ {k ns s d}, S.Declares k ns s d → (editSchemas edit S).Declares k ns { s with declarations := s.declarations.map edit } (edit d) := by
    intro k ns s d hd
    refine ⟨List.mem_map.mpr ⟨(ns, s), hd.1, rfl⟩, List.mem_map.mpr ⟨d, hd.2.1, rfl⟩, ?_⟩
    rw [(he _ hd.1 d hd.2.1).name]; exact hd.2.2
  have hR : Corresponding S (editSchemas edit S) (fun k k' => k' = k ∧ ∃ ns s d, S.Declares k ns s d) := by
    rintro k _ ⟨rfl, ns, s, d, hd⟩
    have hk := he _ hd.1 d hd.2.1
    refine ⟨ns, s, d, ns, _, edit d, hd, hedited hd, hk.variant.symm, fun f hf f' hf' e => ?_⟩
    rw [hk.types f hf f' hf' e]
    exact sameType_refl (S := S) (ns := ns) (s := s) (s' := { s with declarations := s.declarations.map edit }) rfl _
      ((hw.declarations _ hd.1 _ hd.2.1).types f hf)
  rcases C92_exact hl hl' hv hv' hm hm' hR T T' with h | ⟨k, k', ⟨rfl, ns, s, d, hd⟩, h⟩
  · left
    intro e hE d hd
    have hk := he e hE d hd
    have hdecl : S.Declares (e.1.key, d.name.snakeCase) e.1 e.2 d := ⟨hE, hd, rfl⟩
    obtain ⟨ns, s, d1, ns', s', d', g1, g2, g3⟩ := h _ _ ⟨rfl, _, _, _, hdecl⟩
    obtain ⟨rfl, rfl, rfl⟩ := Declares.unique hl hw.names hdecl g1
    obtain ⟨rfl, rfl, rfl⟩ := Declares.unique hl' hw'.names (hedited hdecl) g2
    cases g3 with
    | same _ h1 h2 =>
      refine ⟨hk.variant, hk.name, fun f hf => ?_, h2⟩
      rcases h1 f hf with ⟨f', a1, a2, a3, -⟩ | h
      · exact .inl ⟨f', a1, a2, a3, hk.types f hf f' a1 a2⟩
      · exact .inr h
    | converted f f' hne => exact absurd hk.variant.symm hne
  · exact .inr ⟨k', ns, s, d, hd, h⟩

/-- **C92 (exclusive).** Versions which are related by the documented rules do not break each other: there is no such message with less than `2 ^ 60` bytes, whichever way
the two versions are taken. -/
theorem C92_exclusive {T T' : CharTable} {S S' : Schemas} (hA : Accepted T S) (hA' : Accepted T' S') {R : TypeKey → TypeKey → Prop}
    (hR : CompatibleSchemas S S' R) {k k' : TypeKey} (h : R k k') {t : Tree} (hsz : (t.wire false).length < 2 ^ 60) : ¬ Breaks T S k T' S' k' t := by
  intro hb
  obtain ⟨ns, s, d, ns', s', d', g1, g2, -⟩ := hR k k' h
  obtain ⟨v, hv⟩ := hb.rust_value hA
  obtain ⟨c, hc, -⟩ := C30_wire_type S hA.loaded hA.valid k ns s d g1
  obtain ⟨-, e⟩ := C67_serialize hA hc hv (by omega) 0 ([], []) [] []
  have hw : WrittenBy T S k t _ := .rust hA hv e
  obtain ⟨c', y, -, -, r1⟩ := C82_rust_reader hA' hR h g2 hw (lim := 2 ^ 63) (by decide) (by omega) []
  obtain ⟨e', s', -, r2⟩ := hb.rust_reader hA' g2 hw (lim := 2 ^ 63) (by decide) (by omega) []
  cases C67_unique r1 r2

/-- **C61 (TypeScript).** If all types of the writer have messages, no struct became a choice or vice versa, and the reader's type violates the condition anywhere, at any
depth, then there is a message which is written to the same bytes in both languages, and which TypeScript readers reject too. -/
theorem C61_typescript (w r : CTy) (hw : w.WF) (hr : r.WF) (hs : w.SameKind r) (hp : w.Productive) (h : ¬ w.Readable r) :
    ∃ m : w.Msg .out, (w.tree m).JsSafe ∧ (size w m < 2 ^ 64 → ∃ bs e, Ts.serialize w m = some bs ∧ serialize w m = some bs ∧
      Ts.deserialize r bs = .error e ∧ (e = .range ∨ e = .missing)) := by
  obtain ⟨m, hsafe, hm⟩ := CTy.unreadable hw hr hp h
  refine ⟨m, hsafe, fun hsz => ?_⟩
  have hwire := size_wire w hw m hsz
  have h1 := Ts.deserializeView_wire r hr _ (CTy.fits_tree w hw r hr (CTy.SameKind.shape _ _ hs) m) (CTy.once_sameKind w hw r hr hs m) hsafe
    (by omega) _ (Ts.holds_whole _)
  rw [hm] at h1
  rcases h1 with h1 | h1
  · exact ⟨_, .range, by rw [C24_same_bytes w hw m hsz]; exact serialize_wire w hw m hsz, serialize_wire w hw m hsz, h1, .inl rfl⟩
  · exact ⟨_, .missing, by rw [C24_same_bytes w hw m hsz]; exact serialize_wire w hw m hsz, serialize_wire w hw m hsz, h1, .inr rfl⟩

/-! ### Examples -/

/-- An edit of `exampleSchemas` which is not safe: in `shape`, the optional field `kind` becomes required. -/
def exampleUnsafe (d : Declaration) : Declaration :=
  if d.name.snakeCase = "shape".toList then { d with fields := d.fields.map (fun f => { f with rule := .required }) } else d

/-- The edit keeps the types of fields, both versions are valid and accepted by both generators, and the edit is not safe: so there is a message which breaks. -/
theorem exampleUnsafe_breaks : ∃ k ns s d, exampleSchemas.Declares k ns s d ∧ ((∃ t, Breaks asciiTable exampleSchemas k asciiTable (editSchemas exampleUnsafe exampleSchemas) k t) ∨
    ∃ t, Breaks asciiTable (editSchemas exampleUnsafe exampleSchemas) k asciiTable exampleSchemas k t) := by
  have hkeep : ∀ e ∈ exampleSchemas, ∀ d ∈ e.2.declarations, (exampleUnsafe d).variant = d.variant ∧ (exampleUnsafe d).name.snakeCase = d.name.snakeCase ∧
      ∀ f ∈ d.fields, ∀ f' ∈ (exampleUnsafe d).fields, f'.index = f.index → f'.type.variant = f.type.variant := by decide +kernel
  refine (C92_edits exampleSchemas_loaded (by decide +kernel) (by unfold Schemas.HaveMessages; decide +kernel) exampleUnsafe
    (fun e he d hd => ⟨(hkeep e he d hd).1, (hkeep e he d hd).2.1, (hkeep e he d hd).2.2⟩) (by constructor <;> decide +kernel) (by decide +kernel)
    (by unfold Schemas.HaveMessages; decide +kernel) asciiTable asciiTable).resolve_left (fun h => ?_)
  have hbad : ¬ ∀ e ∈ exampleSchemas, ∀ d ∈ e.2.declarations, ∀ f ∈ d.fields, (∃ f' ∈ (exampleUnsafe d).fields, f'.index = f.index ∧
      (f.rule = f'.rule ∨ f.rule = .asymmetric ∨ f'.rule = .asymmetric) ∧ f'.type.variant = f.type.variant) ∨
        (f.rule ≠ .required ∧ ∀ f' ∈ (exampleUnsafe d).fields, f'.index ≠ f.index) := by decide +kernel
  exact hbad (fun e he d hd => (h e he d hd).old)

/-- Both versions are accepted by both generators. -/
theorem exampleUnsafe_accepted : Accepted asciiTable (editSchemas exampleUnsafe exampleSchemas) ∧ TsAccepted asciiTable (editSchemas exampleUnsafe exampleSchemas) := by
  have hl : (editSchemas exampleUnsafe exampleSchemas).Loaded := by constructor <;> decide +kernel
  exact ⟨accepted_of_plain asciiTable_ascii hl (by decide +kernel) (by decide +kernel),
    C72_names asciiTable_ascii _ hl (by decide +kernel) (clearSchemas_spec (by decide +kernel))⟩

/-- The types of `C61_typescript`: a field inside an array of structs becomes required. -/
example : optionalInside.WF ∧ requiredInside.WF ∧ optionalInside.SameKind requiredInside ∧ optionalInside.Productive := by
  refine ⟨by simp [optionalInside, CTy.WF, Fields.WF, Ty.WF, Fields.indices], by simp [requiredInside, CTy.WF, Fields.WF, Ty.WF, Fields.indices], ?_, ?_⟩
  · simp [optionalInside, requiredInside, CTy.SameKind, Fields.SameKind, Ty.SameKind, Fields.lookup]
  · simp [optionalInside, CTy.Productive, Fields.Productive, Ty.Productive]

end Typical

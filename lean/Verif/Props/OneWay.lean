import Verif.OneWayOnce
import Verif.Props.Rollout

/-!
# C96: one-way compatibility is exact for generated programs
-/

namespace Typical

open TsGen

/-- The wire types of related declarations. -/
theorem versions_canRead {S S' : Schemas} (hl : S.Loaded) (hl' : S'.Loaded) (hv : validate S = .ok []) (hv' : validate S' = .ok [])
    {R : TypeKey → TypeKey → Prop} (hR : ReadableSchemas S S' R) {k k' : TypeKey} (h : R k k') {c c' : CTy}
    (hc : S.Denotes k c) (hc' : S'.Denotes k' c') : c.CanRead c' :=
  Denotes.canRead hl hl' ((C28_accepts_exactly_well_formed S hl).mp hv).names ((C28_accepts_exactly_well_formed S' hl').mp hv').names
    (indices_nodup hl hv) (indices_nodup hl' hv') hR h hc' hc

/-- **C96 (Rust readers).** If the declarations of the reader's version insist on no more than the writer's version guarantees, then whatever a program generated from the writer's
version writes, in Rust or TypeScript, the Rust program generated from the reader's version reads without an error, and what it gets is the content which was written, restricted to what it knows. The versions may be any number of
changes apart, and structs may have become choices or vice versa. -/
theorem C96_rust_reader {T T' : CharTable} {S S' : Schemas} (hA' : Accepted T' S') {R : TypeKey → TypeKey → Prop} (hR : ReadableSchemas S S' R)
    {k k' : TypeKey} (h : R k k') {ns : Namespace} {f : Schema} {d : Declaration} (hd : S'.Declares k' ns f d) {t : Tree} {bs : Bytes}
    (hb : WrittenBy T S k t bs) {lim : Nat} (hlim : lim < 2 ^ 64) (hsz : 8 * (t.wire false).length ≤ lim) (out : Bytes) :
    ∃ c' y, S'.Denotes k' c' ∧ Gen.Holds T' S' .inn k' y (c'.project t) ∧
      Gen.Runs lim (Gen.program T' S') (Gen.generatedType T' ns d .inn) Gen.traitDeserialize ⟨[(.reader, .reader 1)], out, [bs]⟩
        (.val (.ok y), ⟨[(.reader, .reader 1)], out, [[]]⟩) := by
  obtain ⟨ns1, s1, d1, ns2, s2, d2, g1, g2, -⟩ := hR k k' h
  obtain ⟨c, hc, hcw, -⟩ := C30_wire_type S hb.loaded hb.valid k ns1 s1 d1 g1
  obtain ⟨c', hc', hcw', -⟩ := C30_wire_type S' hA'.loaded hA'.valid k' ns2 s2 d2 g2
  have hr := C16_compatible_readers c c' hcw hcw' (versions_canRead hb.loaded hA'.loaded hb.valid hA'.valid hR h hc hc')
  obtain ⟨rfl, -, m, rfl, hm⟩ := hb.message hc (by omega)
  obtain ⟨bs, v', h1, h2, h3⟩ := hr lim hlim m (by omega)
  rw [serialize_wire c hcw m (by omega)] at h1
  cases h1
  have hd' := C68_deserialize hA' hc' hd lim ((c.tree m).wire false) out
  rw [h2] at hd'
  obtain ⟨w, k1, k2⟩ := hd'
  rw [h3] at k1
  exact ⟨c', w, hc', k1, k2⟩

/-- **C96 (TypeScript readers).** The same for the TypeScript program generated from the reader's version, if no choice became a struct, no string begins with a byte order mark and no
array of `Unit`s has `2 ^ 32` elements. The message can be a part of a larger buffer. -/
theorem C96_typescript_reader {T T' : CharTable} {S S' : Schemas} (hA' : TsAccepted T' S') {R : TypeKey → TypeKey → Prop}
    (hR : ReadableSchemas S S' R) (hC : ChoicesStay S S' R) {k k' : TypeKey} (h : R k k') {ns : Namespace} {f : Schema} {d : Declaration}
    (hd : S'.Declares k' ns f d) {t : Tree} {bs : Bytes} (hb : WrittenBy T S k t bs) (hsz : (t.wire false).length < 2 ^ 64) (hj : t.JsSafe) {hp : List Obj}
    {x : Val} {before after : Bytes} (hi : JsInput hp x before bs after) (scratch : Nat → UInt8) :
    ∃ c' y h' scratch', S'.Denotes k' c' ∧ hp <+: h' ∧
      JsHolds T' S' .inn (fun r => if hp.length ≤ r then h'[r]? else none) k' y (c'.project t) ∧
      Calls (program T' S') (declPath T' ns.components d) .deserialize [x] hp scratch (.val y) h' scratch' := by
  obtain ⟨ns1, s1, d1, ns2, s2, d2, g1, g2, -⟩ := hR k k' h
  obtain ⟨c, hc, hcw, -⟩ := C30_wire_type S hb.loaded hb.valid k ns1 s1 d1 g1
  obtain ⟨c', hc', hcw', -⟩ := C30_wire_type S' hA'.loaded hA'.valid k' ns2 s2 d2 g2
  have hcr := versions_canRead hb.loaded hA'.loaded hb.valid hA'.valid hR h hc hc'
  have hk := Denotes.forward hb.loaded hA'.loaded ((C28_accepts_exactly_well_formed S hb.loaded).mp hb.valid).names
    ((C28_accepts_exactly_well_formed S' hA'.loaded).mp hA'.valid).names hR hC h hc' hc
  obtain ⟨rfl, -, m, rfl, hm⟩ := hb.message hc hsz
  obtain ⟨v, hv⟩ := Option.isSome_iff_exists.1 (CTy.CanRead.read c hcw c' hcw' hcr m)
  have h1 := Ts.deserializeView_wire c' hcw' _ (CTy.fits_tree c hcw c' hcw' (CTy.CanRead.shape c c' hcr) m) (CTy.once_forward c hcw c' hcw' hk m) hj hsz _
    (Ts.holds_whole _)
  rw [hv] at h1
  obtain ⟨y, h2, sc2, k1, k2, k3⟩ := C73_accepts hA' hc' hd hi scratch (C27_inside_partial c' before _ after v h1)
  rw [CTy.tree_read c' hcw' _ v hv] at k2
  exact ⟨c', y, h2, sc2, hc', k1, k2, k3⟩

/-- **C96 (exactness).** Let two versions of some schemas be valid, let all choices of the writer's version have required fields, and let `R` relate declarations of the same kind whose shared fields
have the same types, up to `R`. The reader's version insists on no more than the writer's version guarantees, or there are related declarations and a message which programs generated from the writer's version write, and
which programs generated from the reader's version reject, in both languages. -/
theorem C96_exact {S S' : Schemas} (hl : S.Loaded) (hl' : S'.Loaded) (hv : validate S = .ok []) (hv' : validate S' = .ok []) (hm : S.HaveMessages)
    {R : TypeKey → TypeKey → Prop} (hR : Corresponding S S' R) (T T' : CharTable) :
    ReadableSchemas S S' R ∨ ∃ k k' t, R k k' ∧ Breaks T S k T' S' k' t := by
  by_cases hno : ∃ k k' t, R k k' ∧ Breaks T S k T' S' k' t
  · exact .inr hno
  · left
    intro k k' h
    obtain ⟨ns, s, d, ns', s', d', g1, g2, g3, g4⟩ := hR k k' h
    refine ⟨ns, s, d, ns', s', d', g1, g2, ?_, g4⟩
    have hn := ((C28_accepts_exactly_well_formed S hl).mp hv).names
    have hn' := ((C28_accepts_exactly_well_formed S' hl').mp hv').names
    obtain ⟨c, hc, hcw, -⟩ := C30_wire_type S hl hv k ns s d g1
    obtain ⟨c', hc', hcw', -⟩ := C30_wire_type S' hl' hv' k' ns' s' d' g2
    have hk := Denotes.sameKind hl hl' hn hn' hR h hc' hc
    have hp := Denotes.productive (indices_nodup hl hv) hm hc
    have hr : c.Readable c' := by
      by_contra hr
      obtain ⟨t, ht⟩ := breaks_of_unreadable (T := T) (T' := T') hc hc' hcw hcw' hk hp hr
      exact hno ⟨k, k', t, h, ht⟩
    have hi := indices_nodup hl hv _ g1.1 _ g1.2.1
    have hi' := indices_nodup hl' hv' _ g2.1 _ g2.2.1
    unfold Insists
    cases hc with
    | struct h1 h2 h3 =>
      obtain ⟨rfl, rfl, rfl⟩ := Declares.unique hl hn h1 g1
      cases hc' with
      | struct h1' h2' h3' =>
        obtain ⟨rfl, rfl, rfl⟩ := Declares.unique hl' hn' h1' g2
        rw [h2, h2']
        intro f' hf' hreq
        exact (DenotesFields.has h3 hi _ _).mp (hr.2 _ ((DenotesFields.has h3' hi' _ _).mpr ⟨f', hf', rfl, hreq⟩))
      | choice h1' h2' h3' =>
        obtain ⟨rfl, rfl, rfl⟩ := Declares.unique hl' hn' h1' g2
        rw [h2, h2'] at g3; cases g3
    | choice h1 h2 h3 =>
      obtain ⟨rfl, rfl, rfl⟩ := Declares.unique hl hn h1 g1
      cases hc' with
      | choice h1' h2' h3' =>
        obtain ⟨rfl, rfl, rfl⟩ := Declares.unique hl' hn' h1' g2
        rw [h2, h2']
        intro f hf hreq
        exact (DenotesFields.has h3' hi' _ _).mp (hr.2 _ ((DenotesFields.has h3 hi _ _).mpr ⟨f, hf, rfl, hreq⟩))
      | struct h1' h2' h3' =>
        obtain ⟨rfl, rfl, rfl⟩ := Declares.unique hl' hn' h1' g2
        rw [h2, h2'] at g3; cases g3

/-- **C96 (not both).** If the reader's version insists on no more than the writer's version guarantees, no message breaks. -/
theorem C96_exclusive {T T' : CharTable} {S S' : Schemas} (hA : Accepted T S) (hA' : Accepted T' S') {R : TypeKey → TypeKey → Prop}
    (hR : ReadableSchemas S S' R) {k k' : TypeKey} (h : R k k') {t : Tree} (hsz : (t.wire false).length < 2 ^ 60) : ¬ Breaks T S k T' S' k' t := by
  intro hb
  obtain ⟨ns, s, d, ns', s', d', g1, g2, -⟩ := hR k k' h
  obtain ⟨v, hv⟩ := hb.rust_value hA
  obtain ⟨c, hc, -⟩ := C30_wire_type S hA.loaded hA.valid k ns s d g1
  obtain ⟨-, e⟩ := C67_serialize hA hc hv (by omega) 0 ([], []) [] []
  have hw : WrittenBy T S k t _ := .rust hA hv e
  obtain ⟨c', y, -, -, r1⟩ := C96_rust_reader hA' hR h g2 hw (lim := 2 ^ 63) (by decide) (by omega) []
  obtain ⟨e', s', -, r2⟩ := hb.rust_reader hA' g2 hw (lim := 2 ^ 63) (by decide) (by omega) []
  cases C67_unique r1 r2

theorem newVersion_insists {R : TypeKey → TypeKey → Prop} {ns ns' : Namespace} {s s' : Schema} {d d' : Declaration}
    (hi : (d.fields.map (fun f => f.index)).Nodup) (hi' : (d'.fields.map (fun f => f.index)).Nodup) (h : NewVersion R ns ns' s s' d d') :
    Insists d d' ∧ Insists d' d ∧ ∀ f ∈ d.fields, ∀ f' ∈ d'.fields, f'.index = f.index → SameType R ns ns' s s' f.type.variant f'.type.variant := by
  cases h with
  | same hv hf hf' =>
    have hold : ∀ f ∈ d.fields, f.rule = .required → ∃ f' ∈ d'.fields, f'.index = f.index ∧ f'.rule ≠ .optional := by
      intro f h hr
      rcases hf f h with ⟨f', h1, h2, h3, -⟩ | ⟨h1, -⟩
      · refine ⟨f', h1, h2, ?_⟩
        rw [hr] at h3
        rcases h3 with h3 | h3 | h3
        · rw [← h3]; decide
        · cases h3
        · rw [h3]; decide
      · exact absurd hr h1
    have hnew : ∀ f' ∈ d'.fields, f'.rule = .required → ∃ f ∈ d.fields, f.index = f'.index ∧ f.rule ≠ .optional := by
      intro f' h hr
      rcases hf' f' h with ⟨f, h1, h2⟩ | h1
      · refine ⟨f, h1, h2, ?_⟩
        rcases hf f h1 with ⟨g, k1, k2, k3, -⟩ | ⟨-, k⟩
        · have := eq_of_nodup_map hi' k1 h (k2.trans h2)
          subst this
          rw [hr] at k3
          rcases k3 with k3 | k3 | k3
          · rw [k3]; decide
          · rw [k3]; decide
          · cases k3
        · exact absurd h2.symm (k f' h)
      · exact absurd hr h1
    refine ⟨?_, ?_, ?_⟩
    · unfold Insists
      rw [← hv]
      cases d.variant with
      | struct => exact hnew
      | choice => exact hold
    · unfold Insists
      rw [← hv]
      cases d.variant with
      | struct => exact hold
      | choice => exact hnew
    · intro f h f' h' e
      rcases hf f h with ⟨g, k1, k2, -, k4⟩ | ⟨-, k⟩
      · have := eq_of_nodup_map hi' k1 h' (k2.trans e.symm)
        subst this
        exact k4
      · exact absurd e (k f' h')
  | converted f f' hv e1 e2 e3 e4 e5 e6 =>
    have hd : ∀ g ∈ d.fields, g = f := fun g hg => by rw [e1] at hg; exact List.mem_singleton.mp hg
    have hd' : ∀ g ∈ d'.fields, g = f' := fun g hg => by rw [e2] at hg; exact List.mem_singleton.mp hg
    have hf : f ∈ d.fields := by rw [e1]; exact List.mem_singleton_self _
    have hf' : f' ∈ d'.fields := by rw [e2]; exact List.mem_singleton_self _
    refine ⟨?_, ?_, ?_⟩
    · unfold Insists
      cases h1 : d.variant <;> cases h2 : d'.variant
      · exact absurd (h1.trans h2.symm) hv
      · exact ⟨f, hf, f', hf', e3.symm, by rw [e4]; decide, by rw [e5]; decide⟩
      · intro g' hg' _ g hg _
        rw [hd g hg, hd' g' hg', e3]
      · exact absurd (h1.trans h2.symm) hv
    · unfold Insists
      cases h1 : d.variant <;> cases h2 : d'.variant
      · exact absurd (h1.trans h2.symm) hv
      · intro g' hg' _ g hg _
        rw [hd g' hg', hd' g hg, e3]
      · exact ⟨f', hf', f, hf, e3, by rw [e5]; decide, by rw [e4]; decide⟩
      · exact absurd (h1.trans h2.symm) hv
    · intro g hg g' hg' _
      rw [hd g hg, hd' g' hg']
      exact e6

/-- **C96 (the documented rules).** The documented rules of schema evolution are one-way compatibility in both directions: they imply it, and, if no struct became a choice or vice versa, they follow from it. -/
theorem C96_both_ways {S S' : Schemas} (hl : S.Loaded) (hl' : S'.Loaded) (hv : validate S = .ok []) (hv' : validate S' = .ok [])
    {R : TypeKey → TypeKey → Prop} :
    (CompatibleSchemas S S' R → ReadableSchemas S S' R ∧ ReadableSchemas S' S (fun k' k => R k k')) ∧
    (Corresponding S S' R → ReadableSchemas S S' R → ReadableSchemas S' S (fun k' k => R k k') → CompatibleSchemas S S' R) := by
  have hn := ((C28_accepts_exactly_well_formed S hl).mp hv).names
  have hn' := ((C28_accepts_exactly_well_formed S' hl').mp hv').names
  constructor
  · intro hR
    constructor
    · intro k k' h
      obtain ⟨ns, s, d, ns', s', d', g1, g2, g3⟩ := hR k k' h
      obtain ⟨a, -, b⟩ := newVersion_insists (indices_nodup hl hv _ g1.1 _ g1.2.1) (indices_nodup hl' hv' _ g2.1 _ g2.2.1) g3
      exact ⟨ns, s, d, ns', s', d', g1, g2, a, b⟩
    · intro k' k h
      obtain ⟨ns, s, d, ns', s', d', g1, g2, g3⟩ := hR k k' h
      obtain ⟨-, a, b⟩ := newVersion_insists (indices_nodup hl hv _ g1.1 _ g1.2.1) (indices_nodup hl' hv' _ g2.1 _ g2.2.1) g3
      exact ⟨ns', s', d', ns, s, d, g2, g1, a, fun f hf f' hf' e => (b f' hf' f hf e.symm).flip⟩
  · intro hK h1 h2 k k' h
    obtain ⟨ns, s, d, ns', s', d', g1, g2, g3, g4⟩ := hK k k' h
    refine ⟨ns, s, d, ns', s', d', g1, g2, ?_⟩
    obtain ⟨_, _, _, _, _, _, k1, k2, k3, -⟩ := h1 k k' h
    obtain ⟨rfl, rfl, rfl⟩ := Declares.unique hl hn g1 k1
    obtain ⟨rfl, rfl, rfl⟩ := Declares.unique hl' hn' g2 k2
    obtain ⟨_, _, _, _, _, _, k1, k2, k4, -⟩ := h2 k' k h
    obtain ⟨rfl, rfl, rfl⟩ := Declares.unique hl' hn' g2 k1
    obtain ⟨rfl, rfl, rfl⟩ := Declares.unique hl hn g1 k2
    have hi := indices_nodup hl hv _ g1.1 _ g1.2.1
    have hi' := indices_nodup hl' hv' _ g2.1 _ g2.2.1
    have hnew : ∀ f' ∈ d'.fields, f'.rule = .required → ∃ f ∈ d.fields, f.index = f'.index ∧ f.rule ≠ .optional := by
      unfold Insists at k3 k4
      rw [← g3] at k3 k4
      cases hdv : d.variant with
      | struct => rw [hdv] at k3; exact k3
      | choice => rw [hdv] at k4; exact k4
    have hold : ∀ f ∈ d.fields, f.rule = .required → ∃ f' ∈ d'.fields, f'.index = f.index ∧ f'.rule ≠ .optional := by
      unfold Insists at k3 k4
      rw [← g3] at k3 k4
      cases hdv : d.variant with
      | struct => rw [hdv] at k4; exact k4
      | choice => rw [hdv] at k3; exact k3
    refine .same g3 (fun f hf => ?_) (fun f' hf' => ?_)
    · by_cases hk : ∃ f' ∈ d'.fields, f'.index = f.index
      · obtain ⟨f', hf', e⟩ := hk
        refine .inl ⟨f', hf', e, ?_, g4 f hf f' hf' e⟩
        unfold Rule.Compat
        cases hr : f.rule with
        | required =>
          obtain ⟨g, hg, e2, e3⟩ := hold f hf hr
          have := eq_of_nodup_map hi' hg hf' (e2.trans e.symm)
          subst this
          cases hr' : g.rule with
          | optional => exact absurd hr' e3
          | asymmetric => exact .inr (.inr rfl)
          | required => exact .inl rfl
        | asymmetric => exact .inr (.inl rfl)
        | optional =>
          cases hr' : f'.rule with
          | optional => exact .inl rfl
          | asymmetric => exact .inr (.inr rfl)
          | required =>
            obtain ⟨g, hg, e2, e3⟩ := hnew f' hf' hr'
            have := eq_of_nodup_map hi hg hf (e2.trans e)
            subst this
            exact absurd hr e3
      · refine .inr ⟨fun hr => ?_, fun f' hf' e => hk ⟨f', hf', e⟩⟩
        obtain ⟨f', hf', e, -⟩ := hold f hf hr
        exact hk ⟨f', hf', e⟩
    · by_cases hr : f'.rule = .required
      · obtain ⟨f, hf, e, -⟩ := hnew f' hf' hr
        exact .inl ⟨f, hf, e⟩
      · exact .inr hr

/-! ### Edits -/

theorem Corresponding.choicesStay {S S' : Schemas} {R : TypeKey → TypeKey → Prop} (h : Corresponding S S' R) (hl : S.Loaded)
    (hn : ∀ e ∈ S, (e.2.declarations.map (fun d => d.name.snakeCase)).Nodup) (hl' : S'.Loaded)
    (hn' : ∀ e ∈ S', (e.2.declarations.map (fun d => d.name.snakeCase)).Nodup) : ChoicesStay S S' R := by
  intro k k' hk ns s d ns' s' d' hd hd' hv
  obtain ⟨_, _, _, _, _, _, g1, g2, g3, -⟩ := h k k' hk
  obtain ⟨rfl, rfl, rfl⟩ := Declares.unique hl hn hd g1
  obtain ⟨rfl, rfl, rfl⟩ := Declares.unique hl' hn' hd' g2
  rw [← g3, hv]

theorem edited_declares {S : Schemas} {edit : Declaration → Declaration} (he : ∀ e ∈ S, ∀ d ∈ e.2.declarations, KeepsTypes d (edit d)) {k : TypeKey}
    {ns : Namespace} {s : Schema} {d : Declaration} (hd : S.Declares k ns s d) :
    (editSchemas edit S).Declares k ns { s with declarations := s.declarations.map edit } (edit d) := by
  refine ⟨List.mem_map.mpr ⟨(ns, s), hd.1, rfl⟩, List.mem_map.mpr ⟨d, hd.2.1, rfl⟩, ?_⟩
  rw [(he _ hd.1 d hd.2.1).name]; exact hd.2.2

theorem edited_corresponding {S : Schemas} (hl : S.Loaded) (hv : validate S = .ok []) {edit : Declaration → Declaration}
    (he : ∀ e ∈ S, ∀ d ∈ e.2.declarations, KeepsTypes d (edit d)) : Corresponding S (editSchemas edit S) S.Self := by
  rintro k _ ⟨rfl, ns, s, d, hd⟩
  have hk := he _ hd.1 d hd.2.1
  refine ⟨ns, s, d, ns, _, edit d, hd, edited_declares he hd, hk.variant.symm, fun f hf f' hf' e => ?_⟩
  rw [hk.types f hf f' hf' e]
  exact sameType_refl (S := S) (ns := ns) (s := s) (s' := { s with declarations := s.declarations.map edit }) rfl _
    ((((C28_accepts_exactly_well_formed S hl).mp hv).declarations _ hd.1 _ hd.2.1).types f hf)

/-- **C96 (edits).** Let the declarations of some valid schemas be edited, such that kinds, names and types of fields which are kept are not changed, and let the result be valid.
New readers can read all old messages exactly if each edited declaration insists on no more than the old one guarantees, and old readers can read all new messages exactly if each old declaration insists on no more than
the edited one guarantees: the condition gives what `C96_rust_reader` and `C96_typescript_reader` need, and without it, there is a message which is rejected. -/
theorem C96_edits {S : Schemas} (hl : S.Loaded) (hv : validate S = .ok []) (edit : Declaration → Declaration)
    (he : ∀ e ∈ S, ∀ d ∈ e.2.declarations, KeepsTypes d (edit d)) (hl' : (editSchemas edit S).Loaded) (hv' : validate (editSchemas edit S) = .ok [])
    (T T' : CharTable) :
    ((∀ e ∈ S, ∀ d ∈ e.2.declarations, Insists d (edit d)) → ReadableSchemas S (editSchemas edit S) S.Self ∧ ChoicesStay S (editSchemas edit S) S.Self) ∧
    ((∀ e ∈ S, ∀ d ∈ e.2.declarations, Insists (edit d) d) → ReadableSchemas (editSchemas edit S) S (fun k' k => S.Self k k') ∧
      ChoicesStay (editSchemas edit S) S (fun k' k => S.Self k k')) ∧
    (S.HaveMessages → (¬ ∀ e ∈ S, ∀ d ∈ e.2.declarations, Insists d (edit d)) → ∃ k ns s d t, S.Declares k ns s d ∧ Breaks T S k T' (editSchemas edit S) k t) ∧
    ((editSchemas edit S).HaveMessages → (¬ ∀ e ∈ S, ∀ d ∈ e.2.declarations, Insists (edit d) d) →
      ∃ k ns s d t, S.Declares k ns s d ∧ Breaks T' (editSchemas edit S) k T S k t) := by
  have hK := edited_corresponding hl hv he
  have hn := ((C28_accepts_exactly_well_formed S hl).mp hv).names
  have hn' := ((C28_accepts_exactly_well_formed _ hl').mp hv').names
  have hK' : Corresponding (editSchemas edit S) S (fun k' k => S.Self k k') := by
    intro k' k h
    obtain ⟨ns, s, d, ns', s', d', g1, g2, g3, g4⟩ := hK k k' h
    exact ⟨ns', s', d', ns, s, d, g2, g1, g3.symm, fun f hf f' hf' e => (g4 f' hf' f hf e.symm).flip⟩
  refine ⟨fun h => ⟨?_, hK.choicesStay hl hn hl' hn'⟩, fun h => ⟨?_, hK'.choicesStay hl' hn' hl hn⟩, ?_, ?_⟩
  · rintro _ k ⟨rfl, ns, s, d, hd⟩
    obtain ⟨_, _, _, _, _, _, g1, g2, -, g4⟩ := hK _ _ ⟨rfl, ns, s, d, hd⟩
    obtain ⟨rfl, rfl, rfl⟩ := Declares.unique hl hn hd g1
    obtain ⟨rfl, rfl, rfl⟩ := Declares.unique hl' hn' (edited_declares he hd) g2
    exact ⟨_, _, _, _, _, _, g1, g2, h _ hd.1 _ hd.2.1, g4⟩
  · rintro k _ ⟨rfl, ns, s, d, hd⟩
    obtain ⟨_, _, _, _, _, _, g1, g2, -, g4⟩ := hK' _ _ ⟨rfl, ns, s, d, hd⟩
    obtain ⟨rfl, rfl, rfl⟩ := Declares.unique hl hn hd g2
    obtain ⟨rfl, rfl, rfl⟩ := Declares.unique hl' hn' (edited_declares he hd) g1
    exact ⟨_, _, _, _, _, _, g1, g2, h _ hd.1 _ hd.2.1, g4⟩
  · intro hm hno
    rcases C96_exact hl hl' hv hv' hm hK T T' with h | ⟨_, k, t, ⟨rfl, ns, s, d, hd⟩, hb⟩
    · exfalso
      apply hno
      intro e hE d hd
      have hdecl : S.Declares (e.1.key, d.name.snakeCase) e.1 e.2 d := ⟨hE, hd, rfl⟩
      obtain ⟨_, _, _, _, _, _, g1, g2, g3, -⟩ := h _ _ ⟨rfl, _, _, _, hdecl⟩
      obtain ⟨rfl, rfl, rfl⟩ := Declares.unique hl hn hdecl g1
      obtain ⟨rfl, rfl, rfl⟩ := Declares.unique hl' hn' (edited_declares he hdecl) g2
      exact g3
    · exact ⟨k, ns, s, d, t, hd, hb⟩
  · intro hm hno
    rcases C96_exact hl' hl hv' hv hm hK' T' T with h | ⟨k, _, t, ⟨rfl, ns, s, d, hd⟩, hb⟩
    · exfalso
      apply hno
      intro e hE d hd
      have hdecl : S.Declares (e.1.key, d.name.snakeCase) e.1 e.2 d := ⟨hE, hd, rfl⟩
      obtain ⟨_, _, _, _, _, _, g1, g2, g3, -⟩ := h _ _ ⟨rfl, _, _, _, hdecl⟩
      obtain ⟨rfl, rfl, rfl⟩ := Declares.unique hl hn hdecl g2
      obtain ⟨rfl, rfl, rfl⟩ := Declares.unique hl' hn' (edited_declares he hdecl) g1
      exact g3
    · exact ⟨k, ns, s, d, t, hd, hb⟩

/-- **C96 (conversions).** The same if kinds are changed too: readers of the edited schemas can read all old messages if each edited declaration insists on no more than the old one guarantees (in TypeScript,
if structs became choices, but not vice versa). -/
theorem C96_conversions {S : Schemas} (hl : S.Loaded) (hv : validate S = .ok []) (edit : Declaration → Declaration)
    (hname : ∀ e ∈ S, ∀ d ∈ e.2.declarations, (edit d).name.snakeCase = d.name.snakeCase)
    (htypes : ∀ e ∈ S, ∀ d ∈ e.2.declarations, ∀ f ∈ d.fields, ∀ f' ∈ (edit d).fields, f'.index = f.index → f'.type.variant = f.type.variant)
    (h : ∀ e ∈ S, ∀ d ∈ e.2.declarations, Insists d (edit d)) : ReadableSchemas S (editSchemas edit S) S.Self := by
  rintro _ k ⟨rfl, ns, s, d, hd⟩
  refine ⟨ns, s, d, ns, { s with declarations := s.declarations.map edit }, edit d, hd, ⟨List.mem_map.mpr ⟨(ns, s), hd.1, rfl⟩, List.mem_map.mpr ⟨d, hd.2.1, rfl⟩, ?_⟩,
    h _ hd.1 _ hd.2.1, fun f hf f' hf' e => ?_⟩
  · rw [hname _ hd.1 d hd.2.1]; exact hd.2.2
  · rw [htypes _ hd.1 d hd.2.1 f hf f' hf' e]
    exact sameType_refl (S := S) (ns := ns) (s := s) (s' := { s with declarations := s.declarations.map edit }) rfl _
      ((((C28_accepts_exactly_well_formed S hl).mp hv).declarations _ hd.1 _ hd.2.1).types f hf)

/-! ### Examples -/

instance (d d' : Declaration) : Decidable (Insists d d') := by
  unfold Insists
  split <;> infer_instance

theorem exampleUnsafe_keeps : ∀ e ∈ exampleSchemas, ∀ d ∈ e.2.declarations, KeepsTypes d (exampleUnsafe d) := by
  have hkeep : ∀ e ∈ exampleSchemas, ∀ d ∈ e.2.declarations, (exampleUnsafe d).variant = d.variant ∧ (exampleUnsafe d).name.snakeCase = d.name.snakeCase ∧
      ∀ f ∈ d.fields, ∀ f' ∈ (exampleUnsafe d).fields, f'.index = f.index → f'.type.variant = f.type.variant := by decide +kernel
  exact fun e he d hd => ⟨(hkeep e he d hd).1, (hkeep e he d hd).2.1, (hkeep e he d hd).2.2⟩

/-- The edit which makes the optional field `kind` required is compatible in one direction: old readers can read new messages. -/
theorem exampleUnsafe_one_way : ReadableSchemas (editSchemas exampleUnsafe exampleSchemas) exampleSchemas (fun k' k => exampleSchemas.Self k k') ∧
    ChoicesStay (editSchemas exampleUnsafe exampleSchemas) exampleSchemas (fun k' k => exampleSchemas.Self k k') :=
  (C96_edits exampleSchemas_loaded (by decide +kernel) exampleUnsafe exampleUnsafe_keeps (by constructor <;> decide +kernel) (by decide +kernel) asciiTable
    asciiTable).2.1 (by decide +kernel)

/-- **C94 (waiting, direction).** In a history in which each single change obeys the documented rules, programs of version 0 can write a message which programs of version 2 reject, in both languages; but whatever programs of version 2 write, programs of version
0 can read (see C96). -/
theorem C94_waiting_direction : ∃ H : History, H.Documented ∧ (∀ n, Accepted (H.table n) (H.schemas n) ∧ TsAccepted (H.table n) (H.schemas n)) ∧
    (∃ k t, H.next 0 k k ∧ H.next 1 k k ∧ Breaks (H.table 0) (H.schemas 0) k (H.table 2) (H.schemas 2) k t) ∧
    ReadableSchemas (H.schemas 2) (H.schemas 0) (fun k' k => H.next 0 k k') ∧ ChoicesStay (H.schemas 2) (H.schemas 0) (fun k' k => H.next 0 k k') := by
  obtain ⟨k, ns, s, d, t, hd, hb⟩ := (C96_edits exampleSchemas_loaded (by decide +kernel) exampleUnsafe exampleUnsafe_keeps (by constructor <;> decide +kernel)
    (by decide +kernel) asciiTable asciiTable).2.2.1 (by unfold Schemas.HaveMessages; decide +kernel) (by decide +kernel)
  refine ⟨exampleHistory, exampleHistory_documented, exampleHistory_accepted, ⟨k, t, ⟨rfl, ns, s, d, hd⟩, ⟨rfl, ?_⟩, hb⟩, exampleUnsafe_one_way⟩
  obtain ⟨-, -, -, ns', s', d', -, h, -⟩ := exampleHistory_documented.change 0 k k ⟨rfl, ns, s, d, hd⟩
  exact ⟨ns', s', d', h⟩

/-- `shape` becomes a choice. -/
def exampleToChoice (d : Declaration) : Declaration :=
  if d.name.snakeCase = "shape".toList then { d with variant := .choice } else d

/-- Both versions are accepted, and readers of the new version, for which `shape` is a choice, can read all old messages. -/
theorem exampleToChoice_readable : Accepted asciiTable (editSchemas exampleToChoice exampleSchemas) ∧
    ReadableSchemas exampleSchemas (editSchemas exampleToChoice exampleSchemas) exampleSchemas.Self ∧
    (∃ e ∈ exampleSchemas, ∃ d ∈ e.2.declarations, d.variant = .struct ∧ (exampleToChoice d).variant = .choice) :=
  ⟨accepted_of_plain asciiTable_ascii (by constructor <;> decide +kernel) (by decide +kernel) (by decide +kernel),
    C96_conversions exampleSchemas_loaded (by decide +kernel) exampleToChoice (by decide +kernel) (by decide +kernel) (by decide +kernel), by decide +kernel⟩

end Typical

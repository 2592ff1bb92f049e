import Verif.Spec.Rollout
import Verif.Props.ExactPrograms

/-!
# C94: rolling deployments
-/

namespace Typical

/-! ### C18, for schemas -/

/-- The relation of a version with itself: each declaration is its own successor. -/
def Schemas.Self (S : Schemas) (k k' : TypeKey) : Prop := k' = k ∧ ∃ ns s d, S.Declares k ns s d

/-- **C18 (schemas, reflexive).** Valid schemas are compatible with themselves. -/
theorem C18_schemas_reflexive (S : Schemas) (hl : S.Loaded) (hv : validate S = .ok []) : CompatibleSchemas S S S.Self := by
  have hw := (C28_accepts_exactly_well_formed S hl).mp hv
  rintro k _ ⟨rfl, ns, s, d, hd⟩
  refine ⟨ns, s, d, ns, s, d, hd, hd, .same rfl (fun f hf => .inl ⟨f, hf, rfl, .inl rfl, ?_⟩) (fun f hf => .inl ⟨f, hf, rfl⟩)⟩
  exact sameType_refl (S := S) rfl _ ((hw.declarations _ hd.1 _ hd.2.1).types f hf)

theorem SameType.flip {R : TypeKey → TypeKey → Prop} {ns ns' : Namespace} {s s' : Schema} {v v' : TypeVariant} (h : SameType R ns ns' s s' v v') :
    SameType (fun a b => R b a) ns' ns s' s v' v := by
  induction h with
  | array _ ih => exact .array ih
  | custom h1 h2 h3 => exact .custom h2 h1 h3
  | bool => exact .bool
  | f64 => exact .f64
  | s64 => exact .s64
  | u64 => exact .u64
  | unit => exact .unit
  | bytes => exact .bytes
  | string => exact .string

/-- **C18 (schemas, symmetric).** If the new version is valid and compatible with the old one, then the old one is compatible with the new one. -/
theorem C18_schemas_symmetric (S S' : Schemas) (hl' : S'.Loaded) (hv' : validate S' = .ok []) (R : TypeKey → TypeKey → Prop)
    (h : CompatibleSchemas S S' R) : CompatibleSchemas S' S (fun k' k => R k k') := by
  intro k' k hk
  obtain ⟨ns, s, d, ns', s', d', h1, h2, h3⟩ := h k k' hk
  refine ⟨ns', s', d', ns, s, d, h2, h1, ?_⟩
  cases h3 with
  | same g1 g2 g3 =>
    have hn := indices_nodup hl' hv' _ h2.1 _ h2.2.1
    refine .same g1.symm (fun f' hf' => ?_) (fun f hf => ?_)
    · by_cases he : ∃ f ∈ d.fields, f.index = f'.index
      · obtain ⟨f, hf, e⟩ := he
        rcases g2 f hf with ⟨f2, a1, a2, a3, a4⟩ | ⟨-, a⟩
        · have : f2 = f' := List.inj_on_of_nodup_map hn a1 hf' (a2.trans e)
          subst this
          exact .inl ⟨f, hf, e, a3.symm, a4.flip⟩
        · exact absurd e.symm (a f' hf')
      · exact .inr ⟨(g3 f' hf').resolve_left he, fun f hf e => he ⟨f, hf, e⟩⟩
    · rcases g2 f hf with ⟨f2, a1, a2, -⟩ | ⟨a, -⟩
      · exact .inl ⟨f2, a1, a2⟩
      · exact .inr a
  | converted f f' g1 g2 g3 g4 g5 g6 g7 => exact .converted f' f (Ne.symm g1) g3 g2 g4.symm g6 g5 g7.flip

/-! ### C94 -/

theorem Near.symm {a b : Nat} (h : Near a b) : Near b a := by unfold Near at *; omega

/-- Everything in use is at most one version apart, and messages were written by programs of their version. -/
structure World.Good (H : History) (w : World) : Prop where
  near : ∀ a ∈ w.programs, w.Settled a
  written : ∀ m ∈ w.messages, WrittenBy (H.table m.version) (H.schemas m.version) m.key m.content m.bytes

theorem World.Step.good {H : History} {w w' : World} (h : World.Step H w w') (hg : w.Good H) : w'.Good H := by
  cases h with
  | write hv hb =>
    refine ⟨fun a ha => ⟨(hg.near a ha).1, fun m hm => ?_⟩, fun m hm => ?_⟩
    · rcases List.mem_cons.mp hm with rfl | hm
      · exact (hg.near a ha).1 _ hv
      · exact (hg.near a ha).2 m hm
    · rcases List.mem_cons.mp hm with rfl | hm
      · exact hb
      · exact hg.written m hm
  | drop e =>
    subst e
    exact ⟨fun a ha => ⟨(hg.near a ha).1, fun m hm => (hg.near a ha).2 m (List.mem_append_left _ hm)⟩, fun m hm => hg.written m (List.mem_append_left _ hm)⟩
  | shuffle e => exact ⟨fun a ha => ⟨(hg.near a ha).1, fun m hm => (hg.near a ha).2 m (e m hm)⟩, fun m hm => hg.written m (e m hm)⟩
  | @start ps ms v hs =>
    refine ⟨fun a ha => ⟨fun p hp => ?_, fun m hm => ?_⟩, hg.written⟩
    · rcases List.mem_cons.mp ha with rfl | ha'
      · rcases List.mem_cons.mp hp with rfl | hp'
        · exact .inl rfl
        · exact hs.1 p hp'
      · rcases List.mem_cons.mp hp with rfl | hp'
        · exact (hs.1 a ha').symm
        · exact (hg.near a ha').1 p hp'
    · rcases List.mem_cons.mp ha with rfl | ha
      · exact hs.2 m hm
      · exact (hg.near a ha).2 m hm
  | stop e =>
    subst e
    have hsub : ∀ {p : Nat} {before after : List Nat} {v : Nat}, p ∈ before ++ after → p ∈ before ++ v :: after := by
      intro p b a v hp
      rcases List.mem_append.mp hp with hp | hp
      · exact List.mem_append_left _ hp
      · exact List.mem_append_right _ (.tail _ hp)
    exact ⟨fun a ha => ⟨fun p hp => (hg.near a (hsub ha)).1 p (hsub hp), (hg.near a (hsub ha)).2⟩, hg.written⟩

theorem World.Reachable.good {H : History} {w : World} (h : World.Reachable H w) : w.Good H := by
  induction h with
  | init => exact ⟨by simp, by simp⟩
  | step _ hs ih => exact hs.good ih

/-- Corresponding declarations are related by the documented rules. -/
theorem History.Documented.related {H : History} (hH : H.Documented) {v v' : Nat} {k k' : TypeKey} (h : H.Corresponds v k v' k')
    {ns : Namespace} {f : Schema} {d : Declaration} (hd : (H.schemas v').Declares k' ns f d) :
    ∃ R, CompatibleSchemas (H.schemas v) (H.schemas v') R ∧ R k k' := by
  cases h with
  | same => exact ⟨_, C18_schemas_reflexive _ (hH.loaded _) (hH.valid _), rfl, _, _, _, hd⟩
  | newer h => exact ⟨_, hH.change _, h⟩
  | older h => exact ⟨_, C18_schemas_symmetric _ _ (hH.loaded _) (hH.valid _) _ (hH.change _), h⟩

/-- **C94.** Let each version of the schemas be valid and each single change obey the documented rules, and let programs be started only when everything in use is at most
one version away. Whatever happened - programs of two versions running side by side, updates, rollbacks, messages kept, copied, dropped and reordered - every program which is running reads every
message which is around, in Rust and in TypeScript, as a message of any of its declarations which corresponds to the writer's. -/
theorem C94_rollout {H : History} (hH : H.Documented) {w : World} (hw : World.Reachable H w) {m : Sent} (hm : m ∈ w.messages) {v : Nat} (hv : v ∈ w.programs) :
    Near m.version v ∧ ∀ k', H.Corresponds m.version m.key v k' → RustReads H v k' m ∧ TsReads H v k' m := by
  have hg := hw.good
  refine ⟨(hg.near v hv).2 m hm, fun k' hk => ⟨fun hA ns f d hd lim hlim hsz out => ?_, fun hA ns f d hd hsz hj hp x before after hi scratch => ?_⟩⟩
  · obtain ⟨R, hR, h⟩ := hH.related hk hd
    exact C82_rust_reader hA hR h hd (hg.written m hm) hlim hsz out
  · obtain ⟨R, hR, h⟩ := hH.related hk hd
    exact C82_typescript_reader hA hR h hd (hg.written m hm) hsz hj hi scratch

theorem World.Steps.reachable {H : History} {P : World → Prop} {w w' : World} (h : World.Steps H P w w') (hw : World.Reachable H w) : World.Reachable H w' := by
  induction h with
  | done => exact hw
  | step _ hs _ ih => exact ih (.step hw hs)

/-- Some programs have been replaced, the others are next. -/
theorem replaceAll {H : History} {a b : Nat} (hab : Near a b) {ms : List Sent} (hm : ∀ m ∈ ms, Near m.version b) (n : Nat) : ∀ (i j : Nat), i + j = n →
    World.Steps H (fun w => n ≤ w.programs.length) ⟨List.replicate i b ++ List.replicate j a, ms⟩ ⟨List.replicate n b, ms⟩
  | i, 0, e => by
    cases e
    simpa using World.Steps.done (H := H) (P := fun w => i ≤ w.programs.length) (w := ⟨List.replicate i b, ms⟩) (by simp)
  | i, j + 1, e => by
    have hnear : ∀ p ∈ List.replicate i b ++ List.replicate (j + 1) a, Near p b := by
      intro p hp
      rcases List.mem_append.mp hp with hp | hp
      · rw [List.eq_of_mem_replicate hp]; exact .inl rfl
      · rw [List.eq_of_mem_replicate hp]; exact hab
    refine .step (by simp; omega) (.start (v := b) ⟨hnear, hm⟩) ?_
    refine .step (by simp; omega) (.stop (before := b :: List.replicate i b) (v := a) (after := List.replicate j a) (by simp [List.replicate_succ])) ?_
    have := replaceAll (H := H) hab hm n (i + 1) j (by omega)
    rwa [List.replicate_succ] at this

/-- **C94 (updates).** Let all programs which are running be of version `a`, and let all messages be at most one version away from `b`, which is the next version or
the previous one. Then the programs can be replaced one by one by programs of version `b`, such that there are never fewer programs running than before, and no message is lost. -/
theorem C94_update (H : History) {a b : Nat} (hab : Near a b) {w : World} (hp : ∀ p ∈ w.programs, p = a) (hm : ∀ m ∈ w.messages, Near m.version b) :
    ∃ w', World.Steps H (fun u => w.programs.length ≤ u.programs.length) w w' ∧ w'.messages = w.messages ∧ w'.programs.length = w.programs.length ∧
      ∀ p ∈ w'.programs, p = b := by
  refine ⟨⟨List.replicate w.programs.length b, w.messages⟩, ?_, rfl, by simp, fun p h => List.eq_of_mem_replicate h⟩
  have h := replaceAll (H := H) hab hm w.programs.length 0 w.programs.length (by omega)
  have e : w.programs = List.replicate w.programs.length a := List.eq_replicate_iff.mpr ⟨rfl, hp⟩
  rw [List.replicate_zero, List.nil_append, ← e] at h
  exact h

/-! ### Waiting is necessary -/

/-- The first change: in `shape`, the optional field `kind` becomes asymmetric. -/
def exampleAsymmetric (d : Declaration) : Declaration :=
  if d.name.snakeCase = "shape".toList then
    { d with fields := d.fields.map (fun f => if f.rule = .optional then { f with rule := .asymmetric } else f) } else d

/-- The schemas with an asymmetric field `kind`. -/
def exampleSchemas1 : Schemas := editSchemas exampleAsymmetric exampleSchemas

/-- The schemas with a required field `kind`. -/
def exampleSchemas2 : Schemas := editSchemas exampleUnsafe exampleSchemas1

/-- The versions. -/
def exampleVersion : Nat → Schemas
  | 0 => exampleSchemas
  | 1 => exampleSchemas1
  | _ + 2 => exampleSchemas2

/-- The field `kind` is optional, then asymmetric, then required. -/
def exampleHistory : History := ⟨fun _ => asciiTable, exampleVersion, fun n => (exampleVersion n).Self⟩

theorem exampleSchemas1_loaded : exampleSchemas1.Loaded := by constructor <;> decide +kernel
theorem exampleSchemas2_loaded : exampleSchemas2.Loaded := by constructor <;> decide +kernel
theorem exampleSchemas2_eq : exampleSchemas2 = editSchemas exampleUnsafe exampleSchemas := by rfl

theorem exampleAsymmetric_safe : ∀ e ∈ exampleSchemas, ∀ d ∈ e.2.declarations, SafeEdit d (exampleAsymmetric d) := by
  have h : ∀ e ∈ exampleSchemas, ∀ d ∈ e.2.declarations, (exampleAsymmetric d).variant = d.variant ∧
      (exampleAsymmetric d).name.snakeCase = d.name.snakeCase ∧
      (∀ f ∈ d.fields, (∃ f' ∈ (exampleAsymmetric d).fields, f'.index = f.index ∧
        (f.rule = f'.rule ∨ f.rule = .asymmetric ∨ f'.rule = .asymmetric) ∧ f'.type.variant = f.type.variant) ∨
        (f.rule ≠ .required ∧ ∀ f' ∈ (exampleAsymmetric d).fields, f'.index ≠ f.index)) ∧
      (∀ f' ∈ (exampleAsymmetric d).fields, (∃ f ∈ d.fields, f.index = f'.index) ∨ f'.rule ≠ .required) := by
    decide +kernel
  intro e he d hd
  obtain ⟨h1, h2, h3, h4⟩ := h e he d hd
  exact ⟨h1, h2, h3, h4⟩

theorem exampleUnsafe_safe : ∀ e ∈ exampleSchemas1, ∀ d ∈ e.2.declarations, SafeEdit d (exampleUnsafe d) := by
  have h : ∀ e ∈ exampleSchemas1, ∀ d ∈ e.2.declarations, (exampleUnsafe d).variant = d.variant ∧
      (exampleUnsafe d).name.snakeCase = d.name.snakeCase ∧
      (∀ f ∈ d.fields, (∃ f' ∈ (exampleUnsafe d).fields, f'.index = f.index ∧
        (f.rule = f'.rule ∨ f.rule = .asymmetric ∨ f'.rule = .asymmetric) ∧ f'.type.variant = f.type.variant) ∨
        (f.rule ≠ .required ∧ ∀ f' ∈ (exampleUnsafe d).fields, f'.index ≠ f.index)) ∧
      (∀ f' ∈ (exampleUnsafe d).fields, (∃ f ∈ d.fields, f.index = f'.index) ∨ f'.rule ≠ .required) := by
    decide +kernel
  intro e he d hd
  obtain ⟨h1, h2, h3, h4⟩ := h e he d hd
  exact ⟨h1, h2, h3, h4⟩

theorem exampleHistory_documented : exampleHistory.Documented where
  loaded
    | 0 => exampleSchemas_loaded
    | 1 => exampleSchemas1_loaded
    | _ + 2 => exampleSchemas2_loaded
  valid
    | 0 => (by decide +kernel : validate exampleSchemas = .ok [])
    | 1 => (by decide +kernel : validate exampleSchemas1 = .ok [])
    | _ + 2 => (by decide +kernel : validate exampleSchemas2 = .ok [])
  change
    | 0 => safeEdits_compatible exampleSchemas exampleSchemas_loaded (by decide +kernel) _ exampleAsymmetric_safe
    | 1 => safeEdits_compatible exampleSchemas1 exampleSchemas1_loaded (by decide +kernel) _ exampleUnsafe_safe
    | _ + 2 => C18_schemas_reflexive exampleSchemas2 exampleSchemas2_loaded (by decide +kernel)

theorem exampleHistory_accepted : ∀ n, Accepted (exampleHistory.table n) (exampleHistory.schemas n) ∧ TsAccepted (exampleHistory.table n) (exampleHistory.schemas n)
  | 0 => ⟨exampleSchemas_accepted, exampleSchemas_tsAccepted⟩
  | 1 => ⟨accepted_of_plain asciiTable_ascii exampleSchemas1_loaded (by decide +kernel) (by decide +kernel),
      C72_names asciiTable_ascii _ exampleSchemas1_loaded (by decide +kernel) (clearSchemas_spec (by decide +kernel))⟩
  | _ + 2 => exampleUnsafe_accepted

/-- **C94 (waiting is necessary), C18 (schemas, not transitive).** There is a history of schemas, each accepted by both generators, in which each single change obeys the documented rules, and a message which
programs of version 0 or 2 write and programs of version 2 or 0, respectively, reject, in both languages. -/
theorem C94_waiting : ∃ H : History, H.Documented ∧ (∀ n, Accepted (H.table n) (H.schemas n) ∧ TsAccepted (H.table n) (H.schemas n)) ∧
    ∃ k, H.next 0 k k ∧ H.next 1 k k ∧
      ((∃ t, Breaks (H.table 0) (H.schemas 0) k (H.table 2) (H.schemas 2) k t) ∨ ∃ t, Breaks (H.table 2) (H.schemas 2) k (H.table 0) (H.schemas 0) k t) := by
  obtain ⟨k, ns, s, d, hd, hb⟩ := exampleUnsafe_breaks
  refine ⟨exampleHistory, exampleHistory_documented, exampleHistory_accepted, k, ⟨rfl, ns, s, d, hd⟩, ⟨rfl, ?_⟩, hb⟩
  obtain ⟨-, -, -, ns', s', d', -, h, -⟩ := exampleHistory_documented.change 0 k k ⟨rfl, ns, s, d, hd⟩
  exact ⟨ns', s', d', h⟩

/-! ### Example -/

/-- A message of version 0 is around while programs of versions 0 and 1 are running. -/
theorem exampleWorld : ∃ bs, World.Reachable exampleHistory ⟨[1, 0], [⟨0, (["main".toList], "shape".toList), exampleShapeTree, bs⟩]⟩ := by
  obtain ⟨c, hc, -⟩ := C30_wire_type exampleSchemas exampleSchemas_loaded (by decide +kernel) (["main".toList], "shape".toList) ⟨[ident "main"]⟩
    exampleMain (exampleMain.declarations[0]) ⟨.tail _ (.head _), .head _, by decide +kernel⟩
  obtain ⟨-, h⟩ := C67_serialize exampleSchemas_accepted hc exampleShape_holds (by decide +kernel) 1000 ([], []) [] []
  refine ⟨_, .step (.step (.step .init (.start (v := 0) ?_)) (.write (v := 0) (.head _) (.rust exampleSchemas_accepted exampleShape_holds h))) (.start (v := 1) ?_)⟩
  · constructor <;> intro _ h <;> cases h
  · constructor
    · intro p hp
      cases hp with
      | head => exact .inr (.inr rfl)
      | tail _ hp => cases hp
    · intro m hm
      cases hm with
      | head => exact .inr (.inr rfl)
      | tail _ hm => cases hm

/-- The program of version 1 reads it. -/
example : ∃ bs, RustReads exampleHistory 1 (["main".toList], "shape".toList) ⟨0, (["main".toList], "shape".toList), exampleShapeTree, bs⟩ ∧
    TsReads exampleHistory 1 (["main".toList], "shape".toList) ⟨0, (["main".toList], "shape".toList), exampleShapeTree, bs⟩ := by
  obtain ⟨bs, h⟩ := exampleWorld
  exact ⟨bs, (C94_rollout exampleHistory_documented h (.head _) (v := 1) (.head _)).2 _
    (.newer ⟨rfl, ⟨[ident "main"]⟩, exampleMain, exampleMain.declarations[0], .tail _ (.head _), .head _, (by decide +kernel : ((["main".toList], "shape".toList) : TypeKey) = _)⟩)⟩

end Typical

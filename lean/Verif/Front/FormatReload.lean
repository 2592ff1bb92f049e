import Verif.Front.SameForms
import Verif.Props.Driver

/-!
# Loading files of which some were formatted
-/

namespace Typical

theorem importDenotes_moved {E E' : LoadEnv} {p : List Str} {imp imp' : Import} {q q' : List Str} (hb : E'.base = E.base)
    (hcb : E'.canonicalBase = E.canonicalBase) (hcan : E'.fs.canonicalize = E.fs.canonicalize) (hp : imp'.path = imp.path)
    (h : ImportDenotes E p imp q) (h' : ImportDenotes E' p imp' q') : q' = q := by
  rw [ImportDenotes] at h h'
  rw [hb, hcb, hcan, hp, h] at h'
  injection h' with h'
  exact (List.append_cancel_left h').symm

theorem resolved_target {T : CharTable} {E E' : LoadEnv} {p : List Str} (hb : E'.base = E.base)
    (hcb : E'.canonicalBase = E.canonicalBase) (hcan : E'.fs.canonicalize = E.fs.canonicalize)
    {is is' js js' : List (Identifier × Import)} (h : Each SameImport is is')
    (hr : Each (fun i i' => i'.1 = i.1 ∧ ∃ q ns, ImportDenotes E p i.2 q ∧ pathToNamespace T q = some ns ∧ i'.2 = { i.2 with namespace_ := some ns }) is js)
    (hr' : Each (fun i i' => i'.1 = i.1 ∧ ∃ q ns, ImportDenotes E' p i.2 q ∧ pathToNamespace T q = some ns ∧ i'.2 = { i.2 with namespace_ := some ns }) is' js') :
    Each SameTarget js js' := by
  induction h generalizing js js' with
  | nil => cases hr; cases hr'; exact .nil
  | cons h0 _ ih =>
    cases hr with
    | cons k0 kr =>
      cases hr' with
      | cons k0' kr' =>
        refine .cons ?_ (ih kr kr')
        obtain ⟨e1, q, ns, hq, hns, e2⟩ := k0
        obtain ⟨e1', q', ns', hq', hns', e2'⟩ := k0'
        have := importDenotes_moved hb hcb hcan h0.2 hq hq'
        subst this
        rw [hns] at hns'
        injection hns' with hns'
        subst hns'
        refine ⟨?_, ?_⟩
        · rw [e1, e1']; exact h0.1
        · rw [e2, e2']

theorem typeBack_forms {T : CharTable} {a b : TypeVariant} (h : TypeBack T a b) (hn : TypeNames (SnakeForms T) (PascalForms T) a) :
    SameTypeForms T a b ∧ SameFieldType a b := by
  induction h with
  | array _ ih => exact ⟨.array (ih hn).1, (ih hn).2⟩
  | bare => exact ⟨.bare hn.2.2, trivial, hn.2.ok.2⟩
  | qualified => exact ⟨.qualified (hn.1 _ rfl).ok.2 hn.2.2, (hn.1 _ rfl).ok.2, hn.2.ok.2⟩
  | bool => exact ⟨.bool, trivial⟩
  | bytes => exact ⟨.bytes, trivial⟩
  | f64 => exact ⟨.f64, trivial⟩
  | s64 => exact ⟨.s64, trivial⟩
  | string => exact ⟨.string, trivial⟩
  | u64 => exact ⟨.u64, trivial⟩
  | unit => exact ⟨.unit, trivial⟩

theorem SameForms.refl {T : CharTable} (a : Identifier) : SameForms T a a := ⟨rfl, rfl, rfl⟩
theorem SameName.refl (a : Identifier) : SameName a a := sameName_iff.mpr rfl

theorem each_refl {α : Type} {R : α → α → Prop} (h : ∀ a, R a a) : ∀ l : List α, Each R l l
  | [] => .nil
  | a :: l => .cons (h a) (each_refl h l)

theorem sameTypeForms_refl {T : CharTable} : (t : TypeVariant) → SameTypeForms T t t ∧ SameFieldType t t
  | .array _ t => ⟨.array (sameTypeForms_refl t).1, (sameTypeForms_refl (T := T) t).2⟩
  | .custom none n => ⟨.bare (.refl n), trivial, .refl n⟩
  | .custom (some i) n => ⟨.qualified (.refl i) (.refl n), .refl i, .refl n⟩
  | .bool => ⟨.bool, trivial⟩
  | .bytes => ⟨.bytes, trivial⟩
  | .f64 => ⟨.f64, trivial⟩
  | .s64 => ⟨.s64, trivial⟩
  | .string => ⟨.string, trivial⟩
  | .u64 => ⟨.u64, trivial⟩
  | .unit => ⟨.unit, trivial⟩

/-- The same declaration in both senses. -/
def SameBoth (T : CharTable) (d d' : Declaration) : Prop := SameDeclForms T d d' ∧ SameDecl₀ d d'

theorem SameBoth.refl {T : CharTable} (d : Declaration) : SameBoth T d d :=
  ⟨⟨rfl, .refl _, each_refl (fun f => ⟨rfl, .refl _, (sameTypeForms_refl _).1, rfl⟩) _⟩,
    ⟨rfl, each_refl (fun f => ⟨rfl, rfl, (sameTypeForms_refl (T := T) _).2⟩) _, rfl⟩⟩

theorem schemaBack_both {T : CharTable} {F : Nat → Str → Str} {s s' : Schema} (h : SchemaBack T F s s')
    (hn : NamesOk T (SnakeForms T) (PascalForms T) s) :
    Each SameImport s.imports s'.imports ∧ Each (SameBoth T) s.declarations s'.declarations := by
  refine ⟨each_imp h.imports ?_, each_imp h.declarations ?_⟩
  · intro i hi i' hb
    have := importBack_name hb ((hn.imports i hi).imp id (fun h => h.ok.2))
    exact ⟨by simp [SameName, Identifier.same, this], hb.1⟩
  · intro d hd d' hb
    refine ⟨⟨hb.variant, ?_, each_imp hb.fields ?_⟩, ⟨?_, each_imp hb.fields ?_, hb.deleted⟩⟩
    · rw [hb.name]; exact (hn.declarations d hd).2
    · intro f hf f' hb'
      obtain ⟨h1, h2⟩ := hn.fields d hd f hf
      exact ⟨hb'.rule, by rw [hb'.name]; exact h1.2, (typeBack_forms hb'.type h2).1, hb'.index⟩
    · rw [hb.name]; exact (hn.declarations d hd).2.snake.symm
    · intro f hf f' hb'
      obtain ⟨h1, h2⟩ := hn.fields d hd f hf
      exact ⟨by rw [hb'.name]; exact h1.2.snake.symm, hb'.index, (typeBack_forms hb'.type h2).2⟩

theorem each_imp₂ {α β : Type} {R S : α → β → Prop} {as : List α} {bs : List β} (h : Each R as bs)
    (hrs : ∀ a ∈ as, ∀ b ∈ bs, R a b → S a b) : Each S as bs := by
  induction h with
  | nil => exact .nil
  | cons h0 _ ih => exact .cons (hrs _ (by simp) _ (by simp) h0) (ih (fun a ha b hb' hb => hrs a (by simp [ha]) b (by simp [hb']) hb))

/-- If some of the files get their formatted text, and the others keep theirs, the files are loaded as before, with schemas which are the
same. -/
theorem reload {T : CharTable} (hT : T.Ascii) (hS : T.SpaceApart) {F : Nat → Str → Str} {fs fs' : FileSystem} {fuel : Nat} {path dir : FPath}
    {S : List (Namespace × LoadedFile)} (h : loadSchemas T fs fuel path = .ok S) (hdir : path.parent = some dir)
    (hcan : fs'.canonicalize = fs.canonicalize)
    (hnew : ∀ e ∈ S, fs'.read (dir.join (.rel e.2.path)) = some e.2.contents ∨ fs'.read (dir.join (.rel e.2.path)) = some (format T F e.2.schema))
    (hn : ∀ e ∈ S, NamesOk T (SnakeForms T) (PascalForms T) e.2.schema) (hc : ∀ e ∈ S, CommentsOk (Fillable T F) e.2.schema) :
    ∃ S', loadSchemas T fs' fuel path = .ok S' ∧ Each (fun e e' => e'.1 = e.1 ∧ e'.2.path = e.2.path ∧
      Each SameTarget e.2.schema.imports e'.2.schema.imports ∧ Each (SameBoth T) e.2.schema.declarations e'.2.schema.declarations) S S' := by
  obtain ⟨E, name, hE, hparent, hfs⟩ := load_parent h
  rw [hdir] at hparent
  injection hparent with hparent
  subst hparent
  obtain ⟨E0, name0, hE0, hload⟩ := C40_loaded h
  rw [hE] at hE0
  injection hE0 with hE0; injection hE0 with e1 e2
  subst e1; subst e2
  let E' : LoadEnv := ⟨fs', E.base, E.canonicalBase⟩
  have hE' : loadEnv fs' path = some (E', name) := by
    unfold loadEnv at hE ⊢
    rw [hdir] at hE ⊢
    dsimp only at hE ⊢
    rw [hcan]
    split at hE
    · cases hE
    · split at hE
      · cases hE
      · injection hE with hE; injection hE with k1 k2
        subst k2
        have : E'.canonicalBase = E.canonicalBase := rfl
        rw [← k1] at this
        simp only at this
        show some ((⟨fs', E.base, _⟩ : LoadEnv), _) = some (E', _)
        rw [← this]
  have hres : ∀ e ∈ S, ∃ s, Parses T E e.2.path e.2.contents s ∧ ResolvedSchema T E e.2.path s e.2.schema :=
    fun e he => (hload.sound e he).2.2
  have hback : ∀ e ∈ S, ∀ s, Parses T E e.2.path e.2.contents s → ∃ c' s', Parses T E' e.2.path c' s' ∧
      Each SameImport s.imports s'.imports ∧ Each (SameBoth T) s.declarations s'.declarations := by
    intro e he s hs
    obtain ⟨hrd, toks, t1, t2⟩ := hs
    obtain ⟨s0, hs0, hr0⟩ := hres e he
    obtain ⟨-, rfl⟩ := parses_unique ⟨hrd, toks, t1, t2⟩ hs0
    rcases hnew e he with hold | hfmt
    · exact ⟨_, s, ⟨hold, toks, t1, t2⟩, each_refl (fun i => ⟨.refl _, rfl⟩) _, each_refl .refl _⟩
    have himpN : ∀ {is is' : List (Identifier × Import)}, Each (fun i i' => i'.1 = i.1 ∧ ∃ q ns, ImportDenotes E e.2.path i.2 q ∧
        pathToNamespace T q = some ns ∧ i'.2 = { i.2 with namespace_ := some ns }) is is' →
        (∀ i ∈ is', NamedAfterFile T i.1 i.2.path ∨ SnakeForms T i.1) →
        ∀ i ∈ is, NamedAfterFile T i.1 i.2.path ∨ SnakeForms T i.1 := by
      intro is is' hE
      induction hE with
      | nil => intro _; simp
      | cons h0 _ ih =>
        intro hall i hi
        rcases List.mem_cons.mp hi with rfl | hi
        · have := hall _ (List.mem_cons_self ..)
          obtain ⟨k1, q, ns, -, -, k2⟩ := h0
          rw [k1, k2] at this
          exact this
        · exact ih (fun i hi => hall i (List.mem_cons_of_mem _ hi)) i hi
    have hns : NamesOk T (SnakeForms T) (PascalForms T) s := by
      have := hn e he
      refine ⟨himpN hr0.imports this.imports, ?_, ?_⟩
      · have := this.declarations; rw [hr0.declarations] at this; exact this
      · have := this.fields; rw [hr0.declarations] at this; exact this
    have hcs : CommentsOk (Fillable T F) s := by
      have := hc e he
      refine ⟨?_, ?_, ?_⟩
      · have := this.schema; rw [hr0.comment] at this; exact this
      · have := this.declarations; rw [hr0.declarations] at this; exact this
      · have := this.fields; rw [hr0.declarations] at this; exact this
    have hf := parsed_formattable (F := F) hT hS t1 t2 (namesOk_mono (N' := SnakePlain T) (M' := PascalPlain T) (fun _ h => h.1)
      (fun _ h => h.1) hns) hcs
    obtain ⟨toks', s', g1, g2, g3⟩ := format_parses hT hS hf (fun i hi => (hns.imports i hi).imp id (fun h => h.ok.2))
    rw [format_resolved hr0] at hfmt
    obtain ⟨k1, k2⟩ := schemaBack_both g3 hns
    exact ⟨_, s', ⟨hfmt, toks', g1, g2⟩, k1, k2⟩
  have hrun : ∃ S', loadSchemas T fs' fuel path = .ok S' ∧ Each (fun e e' => e'.1 = e.1 ∧ e'.2.path = e.2.path) S S' := by
    unfold loadSchemas at h ⊢
    rw [hE] at h
    rw [hE']
    dsimp only at h ⊢
    cases hns : pathToNamespace T [name] with
    | none => rw [hns] at h; cases h
    | some ns =>
      rw [hns] at h
      dsimp only at h ⊢
      exact loadLoop_same (E := E) (E' := E') rfl rfl (by rw [hfs]; exact hcan)
        (fun e he c s hs => by
          obtain ⟨s0, hs0, -⟩ := hres e he
          obtain ⟨rfl, rfl⟩ := parses_unique hs hs0
          obtain ⟨c', s', k1, k2, -⟩ := hback e he _ hs
          exact ⟨c', s', k1, k2⟩) fuel _ [] [] .nil h
  obtain ⟨S', hS', hsame⟩ := hrun
  refine ⟨S', hS', each_imp₂ hsame ?_⟩
  intro e he e' he' hp
  obtain ⟨E2, name2, hE2, hload2⟩ := C40_loaded hS'
  rw [hE'] at hE2
  injection hE2 with hE2; injection hE2 with e1 e2
  rw [← e1] at hload2
  obtain ⟨-, -, s2, k4, k5⟩ := hload2.sound e' he'
  obtain ⟨s0, hs0, hr0⟩ := hres e he
  obtain ⟨c', s', k1, k2, k3⟩ := hback e he s0 hs0
  rw [hp.2] at k4 k5
  obtain ⟨-, rfl⟩ := parses_unique k1 k4
  refine ⟨hp.1, hp.2, resolved_target (E := E) (E' := E') rfl rfl (by rw [hfs]; exact hcan) k2 hr0.imports k5.imports, ?_⟩
  rw [hr0.declarations, k5.declarations]
  exact k3

end Typical

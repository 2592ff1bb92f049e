import Verif.TsGen.Stack
import Verif.TsGen.DesChoice
import Verif.Spec.Depth

/-!
# Helper: how much of the stack generated TypeScript code needs
-/

namespace Typical.TsGen

open Gen (NCTy NTy NFields DeclName FieldName Ev)

section
variable {T : CharTable} {S : Schemas} {P : Prog} {cost : Callee → Nat} {C : Nat} (hC : ∀ f, cost f ≤ C)
include hC

/-- Functions at the top of the file: three nested calls. -/
theorem runtime_needs (f : RuntimeFn) : Needs P cost (.runtime f) (3 * C) := by
  have leaf : ∀ f, runtimeCalls f = [] → ∀ r, C ≤ r → Needs P cost (.runtime f) r := by
    intro f hf r hr
    have := hC (.runtime f)
    refine .intro (q := 0) (by omega) fun g hg => ?_
    rw [Prog.callees, Prog.body] at hg
    simp only at hg
    rw [runtime_callees, hf] at hg
    cases hg
  have second : ∀ f, (∀ g ∈ runtimeCalls f, runtimeCalls g = []) → ∀ r, 2 * C ≤ r → Needs P cost (.runtime f) r := by
    intro f hf r hr
    have := hC (.runtime f)
    refine .intro (q := C) (by omega) fun g hg => ?_
    rw [Prog.callees, Prog.body] at hg
    simp only at hg
    rw [runtime_callees] at hg
    obtain ⟨h, hh, rfl⟩ := List.mem_map.mp hg
    exact leaf h (hf h hh) _ (Nat.le_refl _)
  have := hC (.runtime f)
  refine .intro (q := 2 * C) (by omega) fun g hg => ?_
  rw [Prog.callees, Prog.body] at hg
  simp only at hg
  rw [runtime_callees] at hg
  obtain ⟨h, hh, rfl⟩ := List.mem_map.mp hg
  refine second h ?_ _ (Nat.le_refl _)
  revert hh
  cases f <;> cases h <;> decide +kernel

/-- What `deserializeUnsafe` needs. -/
def DesNeeds (P : Prog) (cost : Callee → Nat) (C : Nat) (c : NCTy) : Prop :=
  c.erase.NoOptionalChoice → c.erase.WF → Needs P cost (.decl c.path .deserializeUnsafe) ((c.erase.height + 3) * C)

omit hC in
theorem breakAtEnd_callees (c : Site) : breakAtEnd.callees c = [] := rfl

omit hC in
theorem u64Deserialization_callees (c : Site) (isField : Bool) : ∀ g ∈ (u64Deserialization isField).callees c, ∃ f, g = .runtime f := by
  unfold u64Deserialization readVarint
  cases isField
  · callees [Bool.false_eq_true, if_false]
    simp
  · callees [if_true]
    simp

omit hC in
theorem viaInteger_callees (c : Site) (isField : Bool) {e : Ex} (he : e.callees c = []) : ∀ g ∈ (viaInteger isField e).callees c, ∃ f, g = .runtime f := by
  unfold viaInteger
  callees [he]
  exact u64Deserialization_callees c isField

omit hC in
/-- Which functions the code for a type calls. -/
theorem deserialization_callees (s : Schema) (ns' : Namespace) (c : Site) : (tv : TypeVariant) → (isField : Bool) →
    ∀ g ∈ (deserialization T s ns' isField tv).callees c,
      (∃ f, g = .runtime f) ∨ ∃ i n q, tv.Mentions i n ∧ tsResolve c.exports c.path (customPath T s ns' i n) = some q ∧ g = .decl q .deserializeUnsafe
  | .array _ t, isField => by
    have ih := deserialization_callees s ns' c t false
    rw [deserialization]
    split
    · unfold subView readVarint
      callees [breakAtEnd_callees]
      simp only [List.append_assoc, List.mem_append, List.mem_cons, List.not_mem_nil, or_false]
      rintro g (rfl | hg)
      · exact .inl ⟨_, rfl⟩
      · rcases ih g hg with h | ⟨i, n, q, h1, h2, h3⟩
        · exact .inl h
        · exact .inr ⟨i, n, q, .array h1, h2, h3⟩
    · split
      · exact fun g hg => .inl (viaInteger_callees c isField rfl g hg)
      · callees [breakAtEnd_callees]
        intro g hg
        rcases ih g hg with h | ⟨i, n, q, h1, h2, h3⟩
        · exact .inl h
        · exact .inr ⟨i, n, q, .array h1, h2, h3⟩
  | .bool, isField => by rw [deserialization]; exact fun g hg => .inl (viaInteger_callees c isField rfl g hg)
  | .bytes, _ => by rw [deserialization]; callees []; simp
  | .string, _ => by rw [deserialization]; callees []; simp
  | .custom i n, _ => by
    rw [deserialization]
    callees []
    intro g hg
    obtain ⟨q, h1, h2⟩ := mem_resolved hg
    exact .inr ⟨i, n, q, .custom _ _, h1, h2⟩
  | .f64, isField => by
    rw [deserialization]
    unfold getFloat
    split <;> (callees []; simp)
  | .s64, isField => by
    rw [deserialization]
    callees []
    intro g hg
    rcases List.mem_append.mp hg with hg | hg
    · exact .inl (u64Deserialization_callees c isField g hg)
    · exact .inl ⟨_, List.mem_singleton.mp hg⟩
  | .u64, isField => by rw [deserialization]; exact fun g hg => .inl (u64Deserialization_callees c isField g hg)
  | .unit, _ => by rw [deserialization]; callees []; simp

/-- What the declarations which a type mentions need. -/
def MentionsNeed (S : Schemas) (T : CharTable) (P : Prog) (cost : Callee → Nat) (C : Nat) (ns : Namespace) (s : Schema) (tv : TypeVariant) (t : NTy) : Prop :=
  t.erase.NoOptionalChoice → t.erase.WF → ∀ i n, tv.Mentions i n → ∃ k c, s.RefersTo ns i n k ∧ Named T S k c ∧
    Needs P cost (.decl c.path .deserializeUnsafe) ((t.erase.height + 3) * C)

omit hC in
theorem resolved_path {path : List Str} {s : Schema} {ns ns' : Namespace} {tv : TypeVariant} (hr : Resolves T S P path s ns ns' tv) {i : Option Identifier}
    {n : Identifier} (hm : tv.Mentions i n) {k : List Str × Str} {c : NCTy} (hk : s.RefersTo ns i n k) (hN : Named T S k c) {q : List Str}
    (hq : tsResolve P.exports path (customPath T s ns' i n) = some q) : q = c.path := by
  obtain ⟨ns₂, s₂, d₂, hd, hp⟩ := named_path hN
  have := hr i n k hm hk ns₂ s₂ d₂ hd
  rw [hq] at this
  rw [hp]
  exact Option.some.inj this

/-- What the code for a type calls. -/
theorem callees_need {ns : Namespace} {s : Schema} {tv : TypeVariant} {t : NTy} (h : MentionsNeed S T P cost C ns s tv t)
    (h1 : t.erase.NoOptionalChoice) (h2 : t.erase.WF) {ns' : Namespace} {path : List Str} (hr : Resolves T S P path s ns ns' tv) (isField : Bool) :
    ∀ g ∈ (deserialization T s ns' isField tv).callees ⟨path, P.exports⟩, Needs P cost g ((t.erase.height + 3) * C) := by
  intro g hg
  rcases deserialization_callees s ns' _ tv isField g hg with ⟨f, rfl⟩ | ⟨i, n, q, hm, hq, rfl⟩
  · exact (runtime_needs hC f).mono (Nat.mul_le_mul_right C (by omega))
  · obtain ⟨k, c, hk, hN, hn⟩ := h h1 h2 i n hm
    rw [resolved_path hr hm hk hN hq]
    exact hn

omit hC in
theorem enterField_callees (c : Site) : enterField.callees c = [] := rfl

omit hC in
theorem skipField_callees (c : Site) : skipField.callees c = [] := rfl

theorem structCases_need {ns ns' : Namespace} {s : Schema} {path : List Str} {l : List Field} {fs : NFields}
    (h : FieldsHave T (fun tv t => NamedType T S ns s tv t ∧ MentionsNeed S T P cost C ns s tv t) l fs) (h1 : fs.erase.NoOptionalChoice)
    (h2 : fs.erase.WF) (hr : ∀ f ∈ l, Resolves T S P path s ns ns' f.type.variant) :
    ∀ g ∈ (structCases T s ns' l).callees ⟨path, P.exports⟩, Needs P cost g ((fs.erase.height + 3) * C) := by
  induction h with
  | nil => rw [structCases, skipField_callees]; intro g hg; cases hg
  | @cons f t l fs hq _ ih =>
    obtain ⟨g1, g2⟩ : t.erase.NoOptionalChoice ∧ fs.erase.NoOptionalChoice := h1
    obtain ⟨-, g3, g4⟩ : _ ∧ t.erase.WF ∧ fs.erase.WF := h2
    have hh : (NFields.cons (fieldName T f) f.index f.rule t fs).erase.height = max t.erase.height fs.erase.height := rfl
    rw [hh, structCases]
    callees [enterField_callees]
    intro g hg
    rcases List.mem_append.mp hg with hg | hg
    · exact (callees_need hC hq.2 g1 g3 (hr f List.mem_cons_self) true g hg).mono (Nat.mul_le_mul_right C (by omega))
    · exact (ih g2 g4 (fun f hf => hr f (List.mem_cons_of_mem _ hf)) g hg).mono (Nat.mul_le_mul_right C (by omega))

omit hC in
theorem choiceResult_callees (c : Site) {f : Field} (hf : f.rule ≠ .optional) : (choiceResult T f).callees c = [] := by
  rw [choiceResult, if_neg hf]; rfl

omit hC in
theorem no_optional {Q : TypeVariant → NTy → Prop} {l : List Field} {fs : NFields} (h : FieldsHave T Q l fs) (hn : fs.erase.indices.Nodup)
    (ho : ∀ i t, fs.erase.lookup i ≠ some (.optional, t)) : ∀ f ∈ l, f.rule ≠ .optional := by
  induction h with
  | nil => intro f hf; cases hf
  | @cons f t l fs _ _ ih =>
    have hn : (f.index :: fs.erase.indices).Nodup := hn
    have hl : ∀ i, (NFields.cons (fieldName T f) f.index f.rule t fs).erase.lookup i = if i = f.index then some (f.rule, t.erase) else fs.erase.lookup i :=
      fun _ => rfl
    intro g hg
    rcases List.mem_cons.mp hg with rfl | hg
    · intro e
      refine ho g.index t.erase ?_
      rw [hl, if_pos rfl, e]
    · refine ih (List.nodup_cons.mp hn).2 (fun i t' e => ho i t' ?_) g hg
      rw [hl, if_neg, e]
      rintro rfl
      exact (List.nodup_cons.mp hn).1 (Fields.lookup_mem e)

theorem choiceCases_need {ns ns' : Namespace} {s : Schema} {path : List Str} {l : List Field} {fs : NFields}
    (h : FieldsHave T (fun tv t => NamedType T S ns s tv t ∧ MentionsNeed S T P cost C ns s tv t) l fs) (h1 : fs.erase.NoOptionalChoice)
    (h2 : fs.erase.WF) (ho : ∀ f ∈ l, f.rule ≠ .optional) (hr : ∀ f ∈ l, Resolves T S P path s ns ns' f.type.variant) :
    ∀ g ∈ (choiceCases T s ns' l).callees ⟨path, P.exports⟩, Needs P cost g ((fs.erase.height + 3) * C) := by
  induction h with
  | nil => rw [choiceCases, skipField_callees]; intro g hg; cases hg
  | @cons f t l fs hq _ ih =>
    obtain ⟨g1, g2⟩ : t.erase.NoOptionalChoice ∧ fs.erase.NoOptionalChoice := h1
    obtain ⟨-, g3, g4⟩ : _ ∧ t.erase.WF ∧ fs.erase.WF := h2
    have hh : (NFields.cons (fieldName T f) f.index f.rule t fs).erase.height = max t.erase.height fs.erase.height := rfl
    rw [hh, choiceCases]
    callees [enterField_callees, choiceResult_callees _ (ho f List.mem_cons_self)]
    intro g hg
    rcases List.mem_append.mp hg with hg | hg
    · exact (callees_need hC hq.2 g1 g3 (hr f List.mem_cons_self) true g hg).mono (Nat.mul_le_mul_right C (by omega))
    · exact (ih g2 g4 (fun f hf => ho f (List.mem_cons_of_mem _ hf)) (fun f hf => hr f (List.mem_cons_of_mem _ hf)) g hg).mono
        (Nat.mul_le_mul_right C (by omega))

omit hC in
theorem missing_callees (c : Site) : (l : List Field) → (Args.ofList (missingConditions T l)).callees c = []
  | [] => rfl
  | f :: l => by
    have ih := missing_callees c l
    unfold missingConditions at ih ⊢
    rw [List.filter_cons]
    split
    · rw [List.map_cons, Args.ofList, Args.callees, ih]; rfl
    · exact ih

omit hC in
theorem structDeserialize_callees {c : Site} {s : Schema} {ns' : Namespace} {l : List Field} :
    ∀ g ∈ (structDeserialize T s ns' l).callees c, g = .runtime .deserializeFieldHeader ∨ g ∈ (structCases T s ns' l).callees c := by
  have h1 : (declareLocals T l).callees c = [] := by unfold declareLocals; split <;> rfl
  have h2 : Stms.callees c (if l.isEmpty then .nil else stms [.blank]) = [] := by split <;> rfl
  have h3 : Stms.callees c (if (l.any fun f => decide (f.rule = .required)) = true then
      stms [.ifAny (args (missingConditions T l)) (stms [.throwMissing]), .blank] else .nil) = [] := by
    split
    · callees [missing_callees]
    · rfl
  unfold structDeserialize
  simp only [Stms.append_callees, h1, h2, h3]
  unfold structLoop readHeader
  callees [breakAtEnd_callees, localInits_callees]
  intro g hg
  simp only [List.cons_append, List.nil_append, List.mem_cons] at hg
  exact hg

omit hC in
theorem choiceDeserialize_callees {c : Site} {s : Schema} {ns' : Namespace} {l : List Field} :
    ∀ g ∈ (choiceDeserialize T s ns' l).callees c, g = .runtime .deserializeFieldHeader ∨ g ∈ (choiceCases T s ns' l).callees c := by
  unfold choiceDeserialize choiceLoop readHeader
  callees []
  intro g hg
  simp only [List.cons_append, List.nil_append, List.mem_cons] at hg
  exact hg

/-- What `deserializeUnsafe` needs. -/
theorem des_needs (hP : Implements T S P) {k : List Str × Str} {c : NCTy} (h : Named T S k c) : DesNeeds P cost C c := by
  refine Named.induct (QC := DesNeeds P cost C) (QT := MentionsNeed S T P cost C) ?_ ?_ ?_ ?_ ?_ ?_ ?_ ?_ ?_ ?_ h
  · intro k ns s d fs h1 h2 _ h4 g1 g2
    obtain ⟨ns', hR⟩ := hP k ns s d h1
    have := hC (.decl (NCTy.struct (declName T ns d) fs).path .deserializeUnsafe)
    have hh : (NCTy.struct (declName T ns d) fs).erase.height = 1 + fs.erase.height := rfl
    refine .intro (q := (fs.erase.height + 3) * C) ?_ fun g hg => ?_
    · rw [hh, show (1 + fs.erase.height + 3) * C = (fs.erase.height + 3) * C + C by rw [← Nat.succ_mul]; congr 1; omega]
      omega
    · have hc : P.code (NCTy.struct (declName T ns d) fs).path = some (declCode T s ns' d).body := hR.code
      rw [Prog.callees, Prog.body, hc] at hg
      simp only [Option.map_some, declCode, h2] at hg
      rcases structDeserialize_callees g hg with rfl | hg
      · exact (runtime_needs hC _).mono (Nat.mul_le_mul_right C (by omega))
      · exact structCases_need hC h4 g1 g2.2 hR.resolves g hg
  · intro k ns s d fs h1 h2 _ h4 g1 g2
    obtain ⟨ns', hR⟩ := hP k ns s d h1
    have := hC (.decl (NCTy.choice (declName T ns d) fs).path .deserializeUnsafe)
    have hh : (NCTy.choice (declName T ns d) fs).erase.height = 1 + fs.erase.height := rfl
    refine .intro (q := (fs.erase.height + 3) * C) ?_ fun g hg => ?_
    · rw [hh, show (1 + fs.erase.height + 3) * C = (fs.erase.height + 3) * C + C by rw [← Nat.succ_mul]; congr 1; omega]
      omega
    · have hc : P.code (NCTy.choice (declName T ns d) fs).path = some (declCode T s ns' d).body := hR.code
      rw [Prog.callees, Prog.body, hc] at hg
      simp only [Option.map_some, declCode, h2] at hg
      rcases choiceDeserialize_callees g hg with rfl | hg
      · exact (runtime_needs hC _).mono (Nat.mul_le_mul_right C (by omega))
      · exact choiceCases_need hC h4 g1.2 g2.2 (no_optional h4 g2.1 g1.1) hR.resolves g hg
  · intro ns s _ _ i n hm; cases hm
  · intro ns s tv sc ht _ _ i n hm; cases ht <;> cases hm
  · intro ns s _ _ i n hm; cases hm
  · intro ns s _ _ i n hm; cases hm
  · intro ns s r _ _ i n hm; cases hm with | array hm => cases hm
  · intro ns s r inner sc ht _ _ _ i n hm
    cases hm with
    | array hm => cases ht <;> cases hm
  · intro ns s r inner c ht ih g1 g2 i n hm
    cases hm with
    | array hm => exact ih g1 g2 i n hm
  · intro ns s i n k c hk hN ih g1 g2 i' n' hm
    cases hm
    exact ⟨k, c, hk, hN, ih g1 g2⟩

/-- What `deserialize` needs. -/
theorem deserialize_needs (hP : Implements T S P) {k : List Str × Str} {c : NCTy} (h : Named T S k c) (h1 : c.erase.NoOptionalChoice) (h2 : c.erase.WF) :
    Needs P cost (.decl c.path .deserialize) ((c.erase.height + 4) * C) := by
  obtain ⟨ns, s, d, hd, hp⟩ := named_path h
  obtain ⟨ns', hR⟩ := hP k ns s d hd
  have := hC (.decl c.path .deserialize)
  refine .intro (q := (c.erase.height + 3) * C) ?_ fun g hg => ?_
  · rw [show (c.erase.height + 4) * C = (c.erase.height + 3) * C + C by rw [← Nat.succ_mul]]
    omega
  · rw [Prog.callees, Prog.body, hp, hR.code] at hg
    simp only [Option.map_some, declCode, deserializeFunction] at hg
    revert hg
    callees []
    intro hg
    simp only [List.cons_append, List.nil_append, List.mem_cons, List.not_mem_nil, or_false, or_self] at hg
    rw [hg, ← hp]
    exact des_needs hC hP h h1 h2

end

end Typical.TsGen

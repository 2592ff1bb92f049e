import Verif.Gen.Ev

/-!
# Helper: the generated code for atlases computes the atlases of the model
-/

namespace Typical.Gen

attribute [local simp] M.bind M.pure M.get M.ofOption M.scoped M.closure v Ex.m let' letMut tryThen args Lit.val lookup
  RuntimeFn.run StdFn.run Method.run BinOp.run Val.asU64 Val.asUsize Val.fst Val.snd

/-! ### What is assumed about the program -/

/-- The type which has this function: `from_` is a function of the `Out` type here, since that type selects the conversion. -/
def Fn.owner : Fn → NameSuffix
  | .atlas => .out
  | .serializeWithAtlas => .out
  | .from_ => .out
  | .deserializeFromReaderRef => .in_
  | .size => .atlas

/-- A function of a declaration. -/
def DeclCode.body (c : DeclCode) : Fn → Ex
  | .atlas => c.atlas
  | .serializeWithAtlas => c.serializeWithAtlas
  | .from_ => c.from_
  | .deserializeFromReaderRef => c.deserializeFromReaderRef
  | .size => c.size

/-- `P` contains the code for the declarations of `S`, and its names are resolved as they should. -/
def Implements (T : CharTable) (S : Schemas) (P : Prog) : Prop :=
  ∀ k ns s d, S.Declares k ns s d → ∃ ns' : Namespace,
    ns'.components.map rustSnake = ns.components.map rustSnake ∧
    (∀ f : Fn, P ((declName T ns d).id f.owner) f = some ((declCode T s ns' d).body f)) ∧
    (∀ f ∈ d.fields, ∀ i n k', f.type.variant.Mentions i n → s.RefersTo ns i n k' → ∀ ns₂ s₂ d₂, S.Declares k' ns₂ s₂ d₂ →
      rustResolve (ns.components.map rustSnake) (typePath T s ns' i n .in_).supers (typePath T s ns' i n .in_).modules =
        some (ns₂.components.map rustSnake) ∧ (typePath T s ns' i n .in_).name = rustPascal T d₂.name (some .in_)) ∧
    (d.variant = .struct → ("_size".toList :: d.fields.map (fun f => rustSnake f.name)).Nodup) ∧
    (d.variant = .choice → (d.fields.map (fun f => rustPascal T f.name none)).Nodup) ∧
    (∀ f ∈ d.fields, f.index < 2 ^ 64)

/-- The names of variants. -/
def NFields.variants : NFields → List Str
  | .nil => []
  | .cons n _ _ _ rest => n.variant :: rest.variants

/-- The names of members. -/
def NFields.members : NFields → List Str
  | .nil => []
  | .cons n _ _ _ rest => n.member :: rest.members

theorem NamedFields.variants {T : CharTable} {S : Schemas} {ns : Namespace} {s : Schema} {l : List Field} {fs : NFields} :
    NamedFields T S ns s l fs → fs.variants = l.map (fun f => rustPascal T f.name none)
  | .nil => rfl
  | .cons _ h => by simp only [NFields.variants, List.map_cons, NamedFields.variants h]; rfl

theorem NamedFields.members {T : CharTable} {S : Schemas} {ns : Namespace} {s : Schema} {l : List Field} {fs : NFields} :
    NamedFields T S ns s l fs → fs.members = l.map (fun f => rustSnake f.name)
  | .nil => rfl
  | .cons _ h => by simp only [NFields.members, List.map_cons, NamedFields.members h]; rfl

theorem encAtlasSel_mem {fb : Bool} : (fs : NFields) → (p : fs.erase.AtlasSel fb) → (fs.encAtlasSel p).1 ∈ fs.variants
  | .nil, e => e.elim
  | .cons _ _ _ _ _, .inl _ => by simp [NFields.encAtlasSel, NFields.variants]
  | .cons n i r t rest, .inr p => by
    have := encAtlasSel_mem rest p
    simp only [NFields.encAtlasSel, NFields.variants]
    exact List.mem_cons_of_mem _ this

theorem encSel_mem {d : Dir} {fb : Bool} : (fs : NFields) → (p : fs.erase.Sel d fb) → (fs.encSel d p).1 ∈ fs.variants
  | .nil, e => e.elim
  | .cons _ _ _ .unit _, .inl _ => by simp [NFields.encSel, NFields.variants]
  | .cons _ _ _ (.scalar _) _, .inl _ => by simp [NFields.encSel, NFields.variants]
  | .cons _ _ _ (.comp _) _, .inl _ => by simp [NFields.encSel, NFields.variants]
  | .cons n i r .unit rest, .inr p => List.mem_cons_of_mem _ (encSel_mem rest p)
  | .cons n i r (.scalar _) rest, .inr p => List.mem_cons_of_mem _ (encSel_mem rest p)
  | .cons n i r (.comp _) rest, .inr p => List.mem_cons_of_mem _ (encSel_mem rest p)

theorem encSel_inr {d : Dir} {fb : Bool} (n : FieldName) (i : Nat) (r : Rule) (t : NTy) (rest : NFields) (p : rest.erase.Sel d fb) :
    NFields.encSel d (.cons n i r t rest) (.inr p) = rest.encSel d p := by
  cases t <;> rfl

theorem required_iff (r : Rule) : r = .required ↔ r.hasFallback .out = false := by
  cases r <;> simp [Rule.hasFallback]

/-! ### Numbers and scalars -/

theorem atlasU64_eval (c : Ctx) (isField : Bool) {env : List (Var × Val)} {out : Bytes} {rds : List Bytes} {x : UInt64}
    (h : lookup .payload env = some (.u64 x)) :
    (atlasU64 c.mod.length isField).eval c ⟨env, out, rds⟩ =
      some (.val (.usize (if isField then u64FieldSize x else varintSizeFromValue x)), ⟨env, out, rds⟩) := by
  cases isField
  · simp [atlasU64, Ex.eval, Args.eval, h]
  · have hx : x.toNat < 2 ^ 64 := x.toNat_lt
    simp only [atlasU64, if_true, Ex.eval, Arms.eval, Pat.run, v, M.bind, M.get, h, Option.map_some, u64FieldSize]
    by_cases h0 : x = 0
    · subst h0; simp [Lit.val]
    · have h0' : x.toNat ≠ 0 := fun g => h0 (UInt64.toNat_inj.mp (by simpa using g))
      rw [if_neg h0', if_neg h0]
      have e : (x ≤ 567382630219903) ↔ x.toNat ≤ 567382630219903 := by rw [UInt64.le_iff_toNat_le]; rfl
      by_cases h1 : x.toNat ≤ 567382630219903
      · rw [if_pos ⟨by omega, h1⟩, if_pos (e.mpr h1)]
        simp [Args.eval, Ex.eval, h]
      · rw [if_neg (by omega), if_neg (fun g => h1 (e.mp g)), if_pos ⟨by omega, by omega⟩]
        simp [Lit.val]

/-- The value of a payload whose type is given by a type expression: scalars. -/
inductive IsScalar : TypeVariant → Scalar → Prop
  | bool : IsScalar .bool .bool
  | s64 : IsScalar .s64 .s64
  | u64 : IsScalar .u64 .u64
  | f64 : IsScalar .f64 .f64

theorem scalar_eval (c : Ctx) (isField : Bool) {tv : TypeVariant} {s : Scalar} (ht : IsScalar tv s) (x : s.Val)
    {env : List (Var × Val)} {out : Bytes} {rds : List Bytes} (h : lookup .payload env = some (encScalar s x)) :
    (atlasCalculation c.mod.length isField tv).eval c ⟨env, out, rds⟩ =
      some (.val (.usize (if isField then scalarFieldSize s x else scalarElemSize s x)), ⟨env, out, rds⟩) := by
  cases ht with
  | bool =>
    have h' : lookup .payload env = some (.bool x) := h
    cases isField
    · simp [atlasCalculation, Ex.eval, scalarElemSize]
    · simp only [atlasCalculation, if_true, Ex.eval, Args.eval, args, v, M.bind, M.get, h', Option.map_some, StdFn.run, M.pure,
        scalarFieldSize]
      cases x <;> rfl
  | u64 => exact atlasU64_eval c isField h
  | s64 =>
    have h' : lookup .payload env = some (.i64 x) := h
    have := atlasU64_eval c isField (env := (.payload, .u64 (zigzagEncode x)) :: (.zigzag, .u64 (zigzagEncode x)) :: env)
      (out := out) (rds := rds) (x := zigzagEncode x) (by simp)
    simp [atlasCalculation, Ex.eval, Args.eval, h', this, scalarFieldSize, scalarElemSize]
  | f64 =>
    change UInt64 at x
    have h' : lookup .payload env = some (.f64 x) := h
    cases isField
    · simp [atlasCalculation, Ex.eval, scalarElemSize]
    · simp only [atlasCalculation, if_true, Ex.eval, Args.eval, v, Ex.m, M.bind, M.get, h', Option.map_some, Method.run, M.pure,
        Lit.val, BinOp.run, M.ofOption, scalarFieldSize, f64FieldSize]
      by_cases h0 : x = (0 : UInt64)
      · subst h0; rfl
      · have : (x == (UInt64.ofNat 0)) = false := by simpa using h0
        rw [this, if_neg h0]
        rfl

theorem sized_comp {T : CharTable} {S : Schemas} {ns : Namespace} {s : Schema} {tv : TypeVariant} {c : NCTy}
    (h : NamedType T S ns s tv (.comp c)) : sized tv = true := by
  cases h <;> rfl

theorem sized_scalar {T : CharTable} {S : Schemas} {ns : Namespace} {s : Schema} {tv : TypeVariant} {sc : Scalar}
    (h : NamedType T S ns s tv (.scalar sc)) : sized tv = false := by
  cases h <;> rfl

/-! ### Sizes recorded in atlases -/

theorem choiceSize_eval (T : CharTable) (S : Schemas) (d : Declaration) (c : Ctx) (n : Nat) {fb : Bool} {ns : Namespace} {s : Schema}
    (fbv : List Val) (hfb : fbv.length = if fb then 1 else 0) (st : St) :
    ∀ (l : List Field) (fs : NFields), NamedFields T S ns s l fs → fs.variants.Nodup → (p : fs.erase.AtlasSel fb) →
    (choiceSizeArms T d l).eval c (.variant (c.mod, rustPascal T d.name (some .atlas)) (fs.encAtlasSel p).1
      (.usize n :: ((fs.encAtlasSel p).2 ++ fbv))) st = some (.val (.usize n), st)
  | _, _, .nil, _, p => p.elim
  | _, _, .cons (f := f) (t := t) (fs := l) (Fs := fs) ht h, hn, .inl p => by
    have hr := required_iff f.rule
    have hok := p.ok
    simp only [choiceSizeArms, Arms.eval, NFields.encAtlasSel, Pat.run, fieldName]
    have hb : bindAll ([some Var.size, none] ++ if f.rule = Rule.required then [] else [none])
        (Val.usize n :: ([NTy.encAtlas t p.val] ++ fbv)) = some [(.size, .usize n)] := by
      cases fb
      · rw [if_pos (hr.mpr hok)]
        obtain rfl : fbv = [] := List.eq_nil_of_length_eq_zero (by simpa using hfb)
        rfl
      · rw [if_neg (fun g => by rw [hr.mp g] at hok; cases hok)]
        match fbv, hfb with
        | [x], _ => rfl
    simp only [if_true, hb, Option.map_some, Ex.eval]
    simp [Ex.eval]
  | _, _, .cons (f := f) (t := t) (fs := l) (Fs := fs) ht h, hn, .inr p => by
    have hm := encAtlasSel_mem fs p
    have hn' := List.nodup_cons.mp hn
    have hne : (fs.encAtlasSel p).1 ≠ rustPascal T f.name none := fun g => hn'.1 (show rustPascal T f.name none ∈ _ from g ▸ hm)
    simp only [choiceSizeArms, Arms.eval, NFields.encAtlasSel, Pat.run, if_true, if_neg hne]
    exact choiceSize_eval T S d c n fbv hfb st l fs h hn'.2 p

section
variable {T : CharTable} {S : Schemas} {P : Prog} (H : Implements T S P) (lim : Nat)
include H

theorem struct_size {k : List Str × Str} {n : DeclName} {fs : NFields} (h : Named T S k (.struct n fs))
    (a : (NCTy.struct n fs).erase.Atlas) (s : St) :
    Calls lim P (n.id .atlas) .size [(NCTy.struct n fs).encAtlas a] s
      (.val (.usize ((NCTy.struct n fs).erase.atlasSize a)), s) := by
  cases h with
  | struct hd hv hf =>
    obtain ⟨ns', h1, h2, h3, h4, h5, h6⟩ := H _ _ _ _ hd
    have h2 := h2 .size
    simp only [DeclCode.body, declCode, hv] at h2
    refine Calls.intro (env' := [(.self, (NCTy.struct _ fs).encAtlas a)]) h2 (.of fun m => ?_) (.val _)
    simp [Ex.eval, Fn.params, NCTy.encAtlas, Val.field, member, NCTy.erase, CTy.atlasSize]

theorem choice_size {k : List Str × Str} {n : DeclName} {fs : NFields} (h : Named T S k (.choice n fs))
    (a : (NCTy.choice n fs).erase.Atlas) (s : St) :
    Calls lim P (n.id .atlas) .size [(NCTy.choice n fs).encAtlas a] s
      (.val (.usize ((NCTy.choice n fs).erase.atlasSize a)), s) := by
  cases h with
  | @choice _ ns sc d _ hd hv hf =>
    obtain ⟨ns', h1, h2, h3, h4, h5, h6⟩ := H _ _ _ _ hd
    have h2 := h2 .size
    simp only [DeclCode.body, declCode, hv] at h2
    have hn : fs.variants.Nodup := by rw [hf.variants]; exact h5 hv
    obtain ⟨env, out, rds⟩ := s
    refine Calls.intro (env' := [(.self, (NCTy.choice _ fs).encAtlas a)]) h2 (.of fun m => ?_) (.val _)
    simp only [Ex.eval, Fn.params, List.zip_cons_cons, List.zip_nil_left, v, M.bind, M.get, lookup, if_true, Option.map_some]
    cases a with
    | last b =>
      have := choiceSize_eval T S d ((top lim P ((declName T ns d).id .atlas)).ctx m) b.1 (fb := false) [] rfl
        ⟨[(.self, (NCTy.choice (declName T ns d) fs).encAtlas (.last b))], out, rds⟩ _ fs hf hn b.2
      rw [List.append_nil] at this
      exact this
    | more b rest =>
      exact choiceSize_eval T S d ((top lim P ((declName T ns d).id .atlas)).ctx m) b.1 (fb := true) [_] rfl
        ⟨[(.self, (NCTy.choice (declName T ns d) fs).encAtlas (.more b rest))], out, rds⟩ _ fs hf hn b.2

theorem size_method {k : List Str × Str} {c : NCTy} (h : Named T S k c) (a : c.erase.Atlas) (s : St) :
    Ev (fun n => Method.run (callFn lim P n) .size (c.encAtlas a) [] s = some (.val (.usize (c.erase.atlasSize a)), s)) := by
  cases c with
  | struct n fs => exact (struct_size H lim h a s).mono fun n h => h
  | choice n fs =>
    refine (choice_size H lim h a s).mono fun n h => ?_
    cases a with
    | last b => exact h
    | more b rest => exact h
  | _ => cases h

theorem atlasLookup_eval {F : Fam} (hF : F.P = P) {ns : Namespace} {s : Schema} {tv : TypeVariant} {t : NTy}
    (h : NamedType T S ns s tv t) (a : t.erase.Atlas) {env : List (Var × Val)} (out : Bytes) (rds : List Bytes)
    (he : lookup .payloadAtlas env = some (t.encAtlas a)) :
    Evals F (atlasLookup tv) ⟨env, out, rds⟩ (.val (.usize (t.erase.atlasSize a)), ⟨env, out, rds⟩) := by
  cases h with
  | custom h1 h2 =>
    refine (size_method H F.lim h2 a ⟨env, out, rds⟩).mono fun n h => ?_
    simp only [NTy.encAtlas] at he
    subst hF
    simp only [atlasLookup, Ex.m, v, Ex.eval, M.bind, M.get, he, Option.map_some, Args.eval, Fam.ctx_call, h]
    rfl
  | array h1 =>
    simp only [NTy.encAtlas, NCTy.encAtlas] at he
    refine .of fun n => ?_
    have e : sized _ = true := sized_comp h1
    simp only [atlasLookup, e, if_true, Ex.eval, v, M.bind, M.get, he, Option.map_some]
    rfl
  | scalars h1 =>
    simp only [NTy.encAtlas, NCTy.encAtlas] at he
    refine .of fun n => ?_
    have e : sized _ = false := sized_scalar h1
    simp only [atlasLookup, e, Bool.false_eq_true, if_false, Ex.eval, v, M.bind, M.get, he, Option.map_some]
    rfl
  | _ =>
    simp only [NTy.encAtlas, NCTy.encAtlas] at he
    refine .of fun n => ?_
    simp [atlasLookup, Ex.eval, he, sized] <;> rfl

end

end Typical.Gen

import Verif.Gen.SerProof

/-!
# Helper: the generated conversions agree with those of the model
-/

namespace Typical.Gen

attribute [local simp] M.bind M.pure M.get M.ofOption M.scoped M.closure v Ex.m let' letMut tryThen args Lit.val lookup
  RuntimeFn.run StdFn.run Method.run BinOp.run Val.asU64 Val.asUsize Val.fst Val.snd

/-- The `into` method of a type converts as in the model. -/
def FromC (P : Prog) (c : NCTy) : Prop := ∀ (lim : Nat) (m : c.erase.Msg .out) (s : St),
  Ev (fun n => Method.run (callFn lim P n) .into (c.enc .out m) [] s = some (.val (c.enc .inn (c.erase.toIn m)), s))

/-- The code which converts a payload converts as in the model. -/
def FromT (P : Prog) (tv : TypeVariant) (t : NTy) : Prop :=
  (innermostCustom tv = false → ∀ m : t.erase.Msg .out, t.enc .out m = t.enc .inn (t.erase.toIn m) ∧
    ∀ call s, Method.run call .into (t.enc .out m) [] s = some (.val (t.enc .out m), s)) ∧
  (innermostCustom tv = true → ∀ F : Fam, F.P = P → ∀ (m : t.erase.Msg .out) (env : List (Var × Val)) (out : Bytes) (rds : List Bytes),
    lookup .x env = some (t.enc .out m) →
    Evals F (convertElement tv) ⟨env, out, rds⟩ (.val (t.enc .inn (t.erase.toIn m)), ⟨env, out, rds⟩)) ∧
  (∀ F : Fam, F.P = P → ∀ (m : t.erase.Msg .out) (env : List (Var × Val)) (out : Bytes) (rds : List Bytes) (e : Ex),
    Evals F e ⟨env, out, rds⟩ (.val (t.enc .out m), ⟨env, out, rds⟩) →
    Evals F (intoInvocation e tv) ⟨env, out, rds⟩ (.val (t.enc .inn (t.erase.toIn m)), ⟨env, out, rds⟩))

theorem plain_from {P : Prog} {tv : TypeVariant} {t : NTy} (hc : innermostCustom tv = false)
    (h : ∀ m : t.erase.Msg .out, t.enc .out m = t.enc .inn (t.erase.toIn m) ∧
      ∀ call s, Method.run call .into (t.enc .out m) [] s = some (.val (t.enc .out m), s)) : FromT P tv t := by
  refine ⟨fun _ => h, fun g => (by rw [hc] at g; cases g), fun F hF m env out rds e he => ?_⟩
  have e' : intoInvocation e tv = e.m .into := by
    cases tv with
    | array r t => simp only [intoInvocation]; rw [if_neg (by simpa [innermostCustom] using hc)]
    | _ => rfl
  refine he.mono fun n he => ?_
  rw [e']
  simp only [Ex.m, Ex.eval, M.bind, he, Args.eval, (h m).2]
  rw [← (h m).1]

section
variable {T : CharTable} {S : Schemas} {P : Prog} (H : Implements T S P)

theorem unit_from : FromT P .unit .unit := plain_from rfl fun _ => ⟨rfl, fun _ _ => rfl⟩

theorem scalar_from {tv : TypeVariant} {sc : Scalar} (h : IsScalar tv sc) : FromT P tv (.scalar sc) := by
  refine plain_from (by cases h <;> rfl) fun m => ⟨rfl, fun call s => ?_⟩
  cases sc <;> rfl

theorem bytes_from : FromT P .bytes (.comp .bytes) := plain_from rfl fun _ => ⟨rfl, fun _ _ => rfl⟩

theorem string_from : FromT P .string (.comp .string) := plain_from rfl fun _ => ⟨rfl, fun _ _ => rfl⟩

theorem units_from (r : SourceRange) : FromT P (.array r .unit) (.comp .units) := plain_from rfl fun _ => ⟨rfl, fun _ _ => rfl⟩

theorem scalars_from {r : SourceRange} {inner : TypeVariant} {sc : Scalar} (h : IsScalar inner sc) :
    FromT P (.array r inner) (.comp (.scalars sc)) :=
  plain_from (by cases h <;> rfl) fun _ => ⟨rfl, fun _ _ => rfl⟩

/-- Convert the elements of a vector. -/
theorem mapVec_from {F : Fam} (hF : F.P = P) {inner : TypeVariant} {c : NCTy} (hq : FromT P inner (.comp c))
    (hc : innermostCustom inner = true) (m : List (c.erase.Msg .out)) {env : List (Var × Val)} {out : Bytes} {rds : List Bytes} {e : Ex}
    (he : Evals F e ⟨env, out, rds⟩ (.val (.vec (m.map (c.enc .out))), ⟨env, out, rds⟩)) :
    Evals F (.mapVec (e.m .intoIter) .x (convertElement inner)) ⟨env, out, rds⟩
      (.val (.vec ((m.map c.erase.toIn).map (c.enc .inn))), ⟨env, out, rds⟩) := by
  have hmap := Ev.mapEach (s := ⟨env, out, rds⟩)
    (f := fun n y => ((convertElement inner).eval (F.ctx n)).closure [(.x, y)])
    (c.enc .out) (fun x => c.enc .inn (c.erase.toIn x)) m (by
      intro x hx
      refine (hq.2.1 hc F hF x ((.x, c.enc .out x) :: env) out rds (by simp [NTy.enc])).mono fun n h => ?_
      simp only [M.closure, scoped_ok (bs := [(.x, c.enc .out x)]) h]
      rfl)
  refine (he.and hmap).mono fun n ⟨he, hmap⟩ => ?_
  simp only [Ex.m, Ex.eval, M.bind, he, Args.eval, Method.run, M.pure, hmap, List.map_map]
  rfl

theorem array_from {r : SourceRange} {inner : TypeVariant} {c : NCTy} (hq : FromT P inner (.comp c)) :
    FromT P (.array r inner) (.comp (.array c)) := by
  by_cases g : innermostCustom inner = true
  · refine ⟨fun g' => by simp only [innermostCustom] at g'; rw [g] at g'; exact absurd g' (by simp), fun _ F hF m env out rds he => ?_,
      fun F hF m env out rds e he => ?_⟩
    · change List (c.erase.Msg .out) at m
      exact mapVec_from hF hq g m (e := v .x) (.of fun n => by simp only [v, Ex.eval, M.get, he]; rfl)
    · change List (c.erase.Msg .out) at m
      simp only [intoInvocation, g, if_true]
      exact mapVec_from hF hq g m he
  · replace g : innermostCustom inner = false := by simpa using g
    refine plain_from g fun m => ?_
    change List (c.erase.Msg .out) at m
    refine ⟨?_, fun _ _ => rfl⟩
    have h := hq.1 g
    simp only [NTy.enc, NCTy.enc]
    show _ = Val.vec (List.map (c.enc .inn) (List.map c.erase.toIn m))
    rw [List.map_map]
    congr 1
    exact List.map_congr_left fun x _ => (h x).1

theorem custom_from {i : Option Identifier} {n : Identifier} {c : NCTy} (hq : FromC P c) : FromT P (.custom i n) (.comp c) := by
  have key : ∀ F : Fam, F.P = P → ∀ (m : c.erase.Msg .out) (env : List (Var × Val)) (out : Bytes) (rds : List Bytes) (e : Ex),
      Evals F e ⟨env, out, rds⟩ (.val (c.enc .out m), ⟨env, out, rds⟩) →
      Evals F (e.m .into) ⟨env, out, rds⟩ (.val (c.enc .inn (c.erase.toIn m)), ⟨env, out, rds⟩) := by
    intro F hF m env out rds e he
    refine (he.and (hq F.lim m ⟨env, out, rds⟩)).mono fun n ⟨he, h⟩ => ?_
    simp only [Ex.m, Ex.eval, M.bind, he, Args.eval, Fam.ctx_call, hF, h]
  refine ⟨fun g => by simp [innermostCustom] at g, fun g F hF m env out rds he => ?_, fun F hF m env out rds e he => key F hF m env out rds e he⟩
  exact key F hF m env out rds (v .x) (.of fun n => by simp only [v, Ex.eval, M.get, he]; rfl)

/-- The members of the converted struct. -/
theorem structFrom_eval {F : Fam} (hF : F.P = P) {ns : Namespace} {s : Schema} (t : TypeId) (L : List (Str × Val))
    (env : List (Var × Val)) (out : Bytes) (rds : List Bytes) (hs : lookup .message env = some (.struct t L)) {l : List Field}
    {fs : NFields} : FieldsHave T (fun tv t => NamedType T S ns s tv t ∧ FromT P tv t) l fs →
    (m : fs.erase.Struct .out) → (∀ n y, (n, y) ∈ fs.encStruct .out m → member n L = some y) →
    Ev (fun n => ∀ k, (inits (l.map (fun f =>
      (rustSnake f.name,
       match f.rule with
       | .asymmetric => Ex.std .some (args [intoInvocation (.field (v .message) (rustSnake f.name)) f.type.variant])
       | .optional => .mapOption (.field (v .message) (rustSnake f.name)) .payload (intoInvocation (v .payload) f.type.variant)
       | .required => intoInvocation (.field (v .message) (rustSnake f.name)) f.type.variant)))).eval (F.ctx n) k ⟨env, out, rds⟩ =
      k (fs.encStruct .inn (fs.erase.structToIn m)) ⟨env, out, rds⟩)
  | .nil, m, hL => .of fun n k => by simp [inits, Inits.eval, NFields.encStruct]
  | .cons (f := f) (t := t) (l := l') (fs := Fs) ⟨h1, hq⟩ h2, m, hL => by
    have hm : member (rustSnake f.name) L = some (encSlot (t.enc .out) (f.rule.mayOmit .out) m.1) := hL _ _ List.mem_cons_self
    have ih := structFrom_eval hF _ L env out rds hs h2 m.2 (fun n y h => hL n y (List.mem_cons_of_mem _ h))
    obtain ⟨sr, cm, rule, nm, ty, idx⟩ := f
    have main : ∀ (e : Ex), Evals F e ⟨env, out, rds⟩
          (.val (encSlot (t.enc .inn) (rule.mayOmit .inn) (Slot.toIn t.erase.toIn rule m.1)), ⟨env, out, rds⟩) →
        Ev (fun n => ∀ k, (Inits.cons (rustSnake nm) e (inits (l'.map (fun f =>
      (rustSnake f.name,
       match f.rule with
       | .asymmetric => Ex.std .some (args [intoInvocation (.field (v .message) (rustSnake f.name)) f.type.variant])
       | .optional => .mapOption (.field (v .message) (rustSnake f.name)) .payload (intoInvocation (v .payload) f.type.variant)
       | .required => intoInvocation (.field (v .message) (rustSnake f.name)) f.type.variant))))).eval (F.ctx n) k ⟨env, out, rds⟩ =
        k ((rustSnake nm, encSlot (t.enc .inn) (rule.mayOmit .inn) (Slot.toIn t.erase.toIn rule m.1)) ::
          Fs.encStruct .inn (Fs.erase.structToIn m.2)) ⟨env, out, rds⟩) := by
      intro e he
      refine (he.and ih).mono fun n ⟨he, ih⟩ k => ?_
      simp only [Inits.eval, M.bind, he, ih]
    have get : ∀ p : t.erase.Msg .out, member (rustSnake nm) L = some (t.enc .out p) →
        Evals F (.field (v .message) (rustSnake nm)) ⟨env, out, rds⟩ (.val (t.enc .out p), ⟨env, out, rds⟩) := by
      intro p hm
      exact .of fun n => by simp [Ex.eval, hs, Val.field, hm]
    cases rule with
    | optional =>
      refine main _ ?_
      match m, hm with
      | (none, m), hm =>
        refine .of fun n => ?_
        simp [Ex.eval, hs, Val.field, hm, encSlot, Rule.mayOmit, Slot.toIn]
      | (some p, m), hm =>
        refine (hq.2.2 F hF p ((.payload, t.enc .out p) :: env) out rds (v .payload) (.of fun n => by simp [Ex.eval])).mono fun n h => ?_
        simp only [v] at h
        simp [Ex.eval, hs, Val.field, hm, encSlot, Rule.mayOmit, Slot.toIn, h]
    | required =>
      obtain ⟨a, m⟩ := m
      change t.erase.Msg .out at a
      exact main _ (hq.2.2 F hF a env out rds _ (get a hm))
    | asymmetric =>
      obtain ⟨a, m⟩ := m
      change t.erase.Msg .out at a
      refine main _ ((hq.2.2 F hF a env out rds _ (get a hm)).mono fun n h => ?_)
      simp only [v] at h
      simp [Ex.eval, Args.eval, h, encSlot, Rule.mayOmit, Slot.toIn]

/-- A converted variant; `y` is the converted fallback. -/
def encTurned (t : TypeId) (fs : NFields) (y : Val) : fs.erase.Sel .inn true ⊕ fs.erase.Sel .inn false → Val
  | .inl a => .variant t (fs.encSel .inn a).1 ((fs.encSel .inn a).2 ++ [y])
  | .inr b => .variant t (fs.encSel .inn b).1 (fs.encSel .inn b).2

/-- The code for the payload of a variant. -/
theorem payload_from {F : Fam} (hF : F.P = P) {ns : Namespace} {s : Schema} {f : Field} {t : NTy}
    (h1 : NamedType T S ns s f.type.variant t) (hq : FromT P f.type.variant t) (p : t.erase.Msg .out) {env : List (Var × Val)}
    (out : Bytes) (rds : List Bytes) (he : t ≠ .unit → lookup .payload env = some (t.enc .out p)) (tail : List Ex) (x : List Val)
    (ht : Ev (fun n => ∀ k, (args tail).eval (F.ctx n) k ⟨env, out, rds⟩ = k x ⟨env, out, rds⟩)) :
    Ev (fun n => ∀ k, (args ((if f.type.variant = .unit then [] else [intoInvocation (v .payload) f.type.variant]) ++ tail)).eval (F.ctx n) k
      ⟨env, out, rds⟩ = k (t.encPayload .inn (t.erase.toIn p) ++ x) ⟨env, out, rds⟩) := by
  by_cases hu : f.type.variant = .unit
  · obtain rfl := h1.unit_iff.mp hu
    simp only [hu, if_true, List.nil_append]
    exact ht
  · have hu' : t ≠ .unit := fun g => hu (h1.unit_iff.mpr g)
    have hp : t.encPayload .inn (t.erase.toIn p) = [t.enc .inn (t.erase.toIn p)] := by
      cases t with
      | unit => exact absurd rfl hu'
      | _ => rfl
    have := hq.2.2 F hF p env out rds (v .payload) (.of fun n => by simp [Ex.eval, he hu'])
    refine (this.and ht).mono fun n ⟨h, ht⟩ k => ?_
    simp only [hu, if_false, List.cons_append, List.nil_append, args, Args.eval, M.bind, h, ht, hp]

/-- The arms of a choice's conversion, for variants with fallback. -/
theorem fromArms_more {F : Fam} (hF : F.P = P) {ns : Namespace} {s : Schema} {x y : Val}
    (hx : ∀ s, Ev (fun k => Method.run (callFn F.lim P k) .into x [] s = some (.val y, s))) (d : Declaration) (st : St)
    {l : List Field} {fs : NFields} :
    FieldsHave T (fun tv t => NamedType T S ns s tv t ∧ FromT P tv t) l fs → fs.variants.Nodup → (p : fs.erase.Sel .out true) →
    Ev (fun n => (choiceFromArms T d l).eval (F.ctx n)
      (.variant (F.t.1, rustPascal T d.name (some .out)) (fs.encSel .out p).1 ((fs.encSel .out p).2 ++ [x])) st =
      some (.val (encTurned (F.t.1, rustPascal T d.name (some .in_)) fs y (fs.erase.linkToIn p)), st))
  | .nil, _, p => p.elim
  | .cons (f := f) (t := t) (l := l') (fs := Fs) ⟨h1, hq⟩ h2, hn, .inl p => by
    obtain ⟨env, out, rds⟩ := st
    have hok := p.ok
    obtain ⟨bs, hb, hb1, hb2, -⟩ := bind_out h1 p [x] rfl env
    have hx1 := hb2 x (by simp)
    rw [encSel_inl]
    by_cases hr : f.rule = .optional
    · have hr' : f.rule.hasFallback .inn = true := by rw [hr]; rfl
      have ht : Ev (fun n => ∀ k, (args [.std .boxNew (args [(Ex.paren (.deref (v .fallback))).m .into])]).eval (F.ctx n) k
          ⟨bs ++ env, out, rds⟩ = k [y] ⟨bs ++ env, out, rds⟩) := by
        refine (hx ⟨bs ++ env, out, rds⟩).mono fun n h k => ?_
        simp only [args, Args.eval, Ex.eval, Ex.m, v, M.bind, M.get, hx1, Option.map_some, Fam.ctx_call, hF, h, StdFn.run, M.pure]
      refine (payload_from hF h1 hq p.val out rds hb1 _ _ ht).mono fun n h => ?_
      simp only [choiceFromArms, Arms.eval, Pat.run, Fam.ctx_mod, fieldName, if_true, hb, Option.map_some, Ex.eval]
      refine scoped_ok ?_
      rw [if_pos hr, h]
      simp only [M.pure, NFields.erase, Fields.linkToIn, hr', dite_true, encTurned, encSel_inl, fieldName]
    · have hr' : f.rule.hasFallback .inn = false := by cases hf : f.rule <;> simp_all [Rule.hasFallback]
      refine (payload_from hF h1 hq p.val out rds hb1 [] [] (.of fun n k => rfl)).mono fun n h => ?_
      simp only [choiceFromArms, Arms.eval, Pat.run, Fam.ctx_mod, fieldName, if_true, hb, Option.map_some, Ex.eval]
      refine scoped_ok ?_
      simp only [List.append_nil] at h
      simp only [hr, if_false, List.append_nil, h, M.pure, NFields.erase, Fields.linkToIn, hr', Bool.false_eq_true, dite_false, encTurned,
        encSel_inl, fieldName]
  | .cons (f := f) (t := t) (l := l') (fs := Fs) ⟨h1, hq⟩ h2, hn, .inr p => by
    have hm := encSel_mem Fs p
    have hn' := List.nodup_cons.mp hn
    have hne : (Fs.encSel .out p).1 ≠ rustPascal T f.name none := fun g => hn'.1 (show rustPascal T f.name none ∈ _ from g ▸ hm)
    refine (fromArms_more hF hx d st h2 hn'.2 p).mono fun n h => ?_
    rw [encSel_inr]
    simp only [choiceFromArms, Arms.eval, Pat.run, Fam.ctx_mod, if_true, if_neg hne]
    refine h.trans ?_
    simp only [NFields.erase, Fields.linkToIn]
    cases Fields.linkToIn Fs.erase p with
    | inl a => simp only [encTurned, encSel_inr]
    | inr a => simp only [encTurned, encSel_inr]

/-- The arms of a choice's conversion, for variants without fallback. -/
theorem fromArms_last {F : Fam} (hF : F.P = P) {ns : Namespace} {s : Schema} (d : Declaration) (st : St)
    {l : List Field} {fs : NFields} :
    FieldsHave T (fun tv t => NamedType T S ns s tv t ∧ FromT P tv t) l fs → fs.variants.Nodup → (p : fs.erase.Sel .out false) →
    Ev (fun n => (choiceFromArms T d l).eval (F.ctx n)
      (.variant (F.t.1, rustPascal T d.name (some .out)) (fs.encSel .out p).1 (fs.encSel .out p).2) st =
      some (.val (.variant (F.t.1, rustPascal T d.name (some .in_)) (fs.encSel .inn (fs.erase.lastToIn p)).1
        (fs.encSel .inn (fs.erase.lastToIn p)).2), st))
  | .nil, _, p => p.elim
  | .cons (f := f) (t := t) (l := l') (fs := Fs) ⟨h1, hq⟩ h2, hn, .inl p => by
    obtain ⟨env, out, rds⟩ := st
    have hok := p.ok
    have hr := (required_iff f.rule).mpr hok
    obtain ⟨bs, hb, hb1, hb2, -⟩ := bind_out h1 p [] rfl env
    rw [encSel_inl]
    refine (payload_from hF h1 hq p.val out rds hb1 [] [] (.of fun n k => rfl)).mono fun n h => ?_
    rw [List.append_nil] at hb
    simp only [choiceFromArms, Arms.eval, Pat.run, Fam.ctx_mod, fieldName, if_true, hb, Option.map_some, Ex.eval]
    refine scoped_ok ?_
    simp only [List.append_nil] at h
    have hr' : ¬ f.rule = .optional := by rw [hr]; simp
    simp only [hr', if_false, List.append_nil, h, M.pure, NFields.erase, Fields.lastToIn, encSel_inl]
  | .cons (f := f) (t := t) (l := l') (fs := Fs) ⟨h1, hq⟩ h2, hn, .inr p => by
    have hm := encSel_mem Fs p
    have hn' := List.nodup_cons.mp hn
    have hne : (Fs.encSel .out p).1 ≠ rustPascal T f.name none := fun g => hn'.1 (show rustPascal T f.name none ∈ _ from g ▸ hm)
    refine (fromArms_last hF d st h2 hn'.2 p).mono fun n h => ?_
    rw [encSel_inr]
    simp only [choiceFromArms, Arms.eval, Pat.run, Fam.ctx_mod, if_true, if_neg hne]
    refine h.trans ?_
    simp only [NFields.erase, Fields.lastToIn, encSel_inr]

include H in
theorem struct_from {k : List Str × Str} {ns : Namespace} {sc : Schema} {d : Declaration} {fs : NFields}
    (hd : S.Declares k ns sc d) (hv : d.variant = .struct) (hf : NamedFields T S ns sc d.fields fs)
    (hfq : FieldsHave T (fun tv t => NamedType T S ns sc tv t ∧ FromT P tv t) d.fields fs) :
    FromC P (.struct (declName T ns d) fs) := by
  rintro lim m ⟨env, out, rds⟩
  change fs.erase.Struct .out at m
  obtain ⟨ns', h1, h2, h3, h4, h5, h6⟩ := H _ _ _ _ hd
  have h2 := h2 .from_
  have hn' := List.nodup_cons.mp (h4 hv)
  simp only [DeclCode.body, declCode, hv] at h2
  have hnm : fs.members.Nodup := by rw [hf.members]; exact hn'.2
  have hL := member_spec (fs.encStruct .out m) (by rw [encStruct_names]; exact hnm)
  have key := structFrom_eval (F := top lim P ((declName T ns d).id .out)) rfl ((declName T ns d).id .out)
    (fs.encStruct .out m) [(.message, (NCTy.struct (declName T ns d) fs).enc .out m)] out rds rfl hfq m hL
  refine Calls.intro (env' := [(.message, (NCTy.struct (declName T ns d) fs).enc .out m)]) h2 (key.mono fun n h => ?_) (.val _)
  simp only [structFrom, Ex.eval]
  refine (h _).trans ?_
  rfl

theorem enc_more (d : Dir) (n : DeclName) (fs : NFields) (a : fs.erase.Sel d true) (rest : (NCTy.choice n fs).erase.Msg d) :
    (NCTy.choice n fs).enc d (.more a rest) =
      .variant (n.id (suffix d)) (fs.encSel d a).1 ((fs.encSel d a).2 ++ [(NCTy.choice n fs).enc d rest]) := rfl

include H in
theorem choice_from {k : List Str × Str} {ns : Namespace} {sc : Schema} {d : Declaration} {fs : NFields}
    (hd : S.Declares k ns sc d) (hv : d.variant = .choice) (hf : NamedFields T S ns sc d.fields fs)
    (hfq : FieldsHave T (fun tv t => NamedType T S ns sc tv t ∧ FromT P tv t) d.fields fs) :
    FromC P (.choice (declName T ns d) fs) := by
  intro lim m st
  obtain ⟨ns', h1, h2, h3, h4, h5, h6⟩ := H _ _ _ _ hd
  have h2 := h2 .from_
  simp only [DeclCode.body, declCode, hv] at h2
  have hn : fs.variants.Nodup := by rw [hf.variants]; exact h5 hv
  change Chain (fs.erase.Sel .out true) (fs.erase.Sel .out false) at m
  induction m generalizing st with
  | last b =>
    obtain ⟨env, out, rds⟩ := st
    let env' : List (Var × Val) := [(.message, (NCTy.choice (declName T ns d) fs).enc .out (.last b))]
    have key := fromArms_last (F := top lim P ((declName T ns d).id .out)) rfl d ⟨env', out, rds⟩ hfq hn b
    refine Calls.intro (env' := env') h2 (key.mono fun n h => ?_) (.val _)
    simp only [Ex.eval, v, M.bind, M.get, Fn.params, List.zip_cons_cons, List.zip_nil_left, lookup, if_true, Option.map_some]
    exact h
  | more a rest ih =>
    obtain ⟨env, out, rds⟩ := st
    let env' : List (Var × Val) := [(.message, (NCTy.choice (declName T ns d) fs).enc .out (.more a rest))]
    have key := fromArms_more (F := top lim P ((declName T ns d).id .out)) rfl (fun s => ih s) d ⟨env', out, rds⟩ hfq hn a
    refine Calls.intro (env' := env') h2 (key.mono fun n h => ?_) (.val _)
    simp only [Ex.eval, v, M.bind, M.get, Fn.params, List.zip_cons_cons, List.zip_nil_left, lookup, if_true, Option.map_some]
    refine h.trans ?_
    show _ = some (Out.val (NCTy.enc .inn (.choice (declName T ns d) fs) (Chain.toIn (Fields.linkToIn fs.erase) (Fields.lastToIn fs.erase) (.more a rest))), _)
    simp only [Chain.toIn]
    cases Fields.linkToIn fs.erase a with
    | inl a => rfl
    | inr a => rfl

include H in
/-- The `into` method. -/
theorem Named.into {k : List Str × Str} {c : NCTy} (h : Named T S k c) : FromC P c :=
  Named.induct (QC := FromC P) (QT := fun _ _ tv t => FromT P tv t)
    (fun _ _ _ _ _ hd hv hf hq => struct_from H hd hv hf hq)
    (fun _ _ _ _ _ hd hv hf hq => choice_from H hd hv hf hq)
    (fun _ _ => unit_from) (fun _ _ _ _ h => scalar_from h.isScalar) (fun _ _ => bytes_from) (fun _ _ => string_from)
    (fun _ _ r => units_from r) (fun _ _ _ _ _ h _ => scalars_from h.isScalar) (fun _ _ _ _ _ _ hq => array_from hq)
    (fun _ _ _ _ _ _ _ _ hq => custom_from hq) h

end

end Typical.Gen

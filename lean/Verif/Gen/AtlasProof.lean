import Verif.Gen.AtlasLemmas
import Verif.Gen.Induct

/-!
# Helper: the generated `atlas` methods compute the atlases of the model
-/

namespace Typical.Gen

attribute [local simp] M.bind M.pure M.get M.ofOption M.scoped M.closure v Ex.m let' letMut tryThen args Lit.val lookup
  RuntimeFn.run StdFn.run Method.run BinOp.run Val.asU64 Val.asUsize Val.fst Val.snd

/-- The atlas of a payload. -/
def NTy.atlasOf (isField : Bool) : (t : NTy) → t.erase.Msg .out → t.erase.Atlas
  | .unit, _ => (0 : Nat)
  | .scalar s, x => if isField then scalarFieldSize s x else scalarElemSize s x
  | .comp c, m => c.erase.atlas isField m

theorem NTy.atlasOf_true (t : NTy) (m : t.erase.Msg .out) : t.atlasOf true m = t.erase.atlas m := by
  cases t <;> rfl

theorem NamedType.unit_iff {T : CharTable} {S : Schemas} {ns : Namespace} {s : Schema} {tv : TypeVariant} {t : NTy}
    (h : NamedType T S ns s tv t) : tv = .unit ↔ t = .unit := by
  cases h <;> simp

theorem NamedType.integerEncoded {T : CharTable} {S : Schemas} {ns : Namespace} {s : Schema} {tv : TypeVariant} {t : NTy}
    (h : NamedType T S ns s tv t) : Gen.integerEncoded tv = t.erase.integerEncoded := by
  cases h <;> rfl

theorem NamedType.isScalar {T : CharTable} {S : Schemas} {ns : Namespace} {s : Schema} {tv : TypeVariant} {sc : Scalar}
    (h : NamedType T S ns s tv (.scalar sc)) : IsScalar tv sc := by
  cases h <;> constructor

/-- The payload of a variant, if any. -/
def NTy.encPayload (d : Dir) (t : NTy) (m : t.erase.Msg d) : List Val :=
  match t, m with
  | .unit, _ => []
  | .scalar s, m => [NTy.enc d (.scalar s) m]
  | .comp c, m => [NTy.enc d (.comp c) m]

theorem encSel_inl {d : Dir} {fb : Bool} (n : FieldName) (i : Nat) (r : Rule) (t : NTy) (rest : NFields)
    (p : Guard (r.hasFallback d = fb) (t.erase.Msg d)) :
    NFields.encSel d (.cons n i r t rest) (.inl p) = (n.variant, t.encPayload d p.val) := by
  cases t <;> rfl

theorem toNat_index {i : Nat} (h : i < 2 ^ 64) : (UInt64.ofNat i).toNat = i := by
  rw [UInt64.toNat_ofNat']; exact Nat.mod_eq_of_lt h

theorem headerAndPayload_eval (c : Ctx) (f : Field) (hi : f.index < 2 ^ 64) {env : List (Var × Val)} (out : Bytes)
    (rds : List Bytes) {n : Nat} (he : lookup .payloadSize env = some (.usize n))
    (hn : fieldHeaderSize f.index n (integerEncoded f.type.variant) + n < 2 ^ 64) :
    (headerAndPayload c.mod.length f).eval c ⟨env, out, rds⟩ =
      some (.val (.usize (fieldHeaderSize f.index n (integerEncoded f.type.variant) + n)), ⟨env, out, rds⟩) := by
  simp [headerAndPayload, Ex.eval, Args.eval, he, Nat.mod_eq_of_lt hi, show _ < 18446744073709551616 from hn]

/-- The fallback of a variant: its value, its atlas, its size. -/
inductive Fallback (lim : Nat) (P : Prog) : Bool → List Val → List Val → Nat → Prop
  | none : Fallback lim P false [] [] 0
  | some {x a n} : (∀ s, Ev (fun k => Method.run (callFn lim P k) .atlas x [] s = some (.val a, s))) →
    (∀ s, Ev (fun k => Method.run (callFn lim P k) .size a [] s = some (.val (.usize n), s))) →
    Fallback lim P true [x] [a] n

theorem Fallback.length {lim : Nat} {P : Prog} {fb : Bool} {x a : List Val} {n : Nat} (h : Fallback lim P fb x a n) :
    x.length = if fb then 1 else 0 := by
  cases h <;> rfl

/-- The variables bound by the pattern for a variant. -/
theorem bind_out {T : CharTable} {S : Schemas} {ns : Namespace} {s : Schema} {f : Field} {t : NTy} {fb : Bool}
    (h : NamedType T S ns s f.type.variant t) (p : Guard (f.rule.hasFallback .out = fb) (t.erase.Msg .out)) (fbv : List Val)
    (hfb : fbv.length = if fb then 1 else 0) (env : List (Var × Val)) :
    ∃ bs, bindAll (outBinders f) (t.encPayload .out p.val ++ fbv) = some bs ∧
      (t ≠ .unit → lookup .payload (bs ++ env) = some (t.enc .out p.val)) ∧
      (∀ x, x ∈ fbv → lookup .fallback (bs ++ env) = some x) ∧
      (∀ w, w ≠ .payload → w ≠ .fallback → lookup w (bs ++ env) = lookup w env) := by
  have hok := p.ok
  have hreq := required_iff f.rule
  cases fb with
  | false =>
    obtain rfl : fbv = [] := List.eq_nil_of_length_eq_zero (by simpa using hfb)
    have hr := hreq.mpr hok
    by_cases hu : f.type.variant = .unit
    · obtain rfl := h.unit_iff.mp hu
      exact ⟨[], by simp [outBinders, hu, hr, bindAll, NTy.encPayload], by simp, by simp, by simp⟩
    · have hu' : t ≠ .unit := fun g => hu (h.unit_iff.mpr g)
      have hp : t.encPayload .out p.val = [t.enc .out p.val] := by
        cases t with
        | unit => exact absurd rfl hu'
        | _ => rfl
      exact ⟨[(.payload, t.enc .out p.val)], by simp [outBinders, hu, hr, bindAll, hp], by simp [lookup], by simp,
        fun w h1 _ => by simp [lookup, h1]⟩
  | true =>
    have hr : f.rule ≠ .required := fun g => by rw [hreq.mp g] at hok; cases hok
    match fbv, hfb with
    | [x], _ =>
      by_cases hu : f.type.variant = .unit
      · obtain rfl := h.unit_iff.mp hu
        exact ⟨[(.fallback, x)], by simp [outBinders, hu, hr, bindAll, NTy.encPayload], by simp, by simp [lookup],
          fun w _ h2 => by simp [lookup, h2]⟩
      · have hu' : t ≠ .unit := fun g => hu (h.unit_iff.mpr g)
        have hp : t.encPayload .out p.val = [t.enc .out p.val] := by
          cases t with
          | unit => exact absurd rfl hu'
          | _ => rfl
        exact ⟨[(.payload, t.enc .out p.val), (.fallback, x)], by simp [outBinders, hu, hr, bindAll, hp], by simp [lookup],
          by simp [lookup], fun w h1 h2 => by simp [lookup, h1, h2]⟩

theorem scoped_ok {m : M} {bs env env' : List (Var × Val)} {out out' : Bytes} {rds rds' : List Bytes} {o : Out}
    (h : m ⟨bs ++ env, out, rds⟩ = some (o, ⟨bs ++ env', out', rds'⟩)) :
    m.scoped bs ⟨env, out, rds⟩ = some (o, ⟨env', out', rds'⟩) := by
  simp [M.scoped, h]

theorem unitPayload_ok {T : CharTable} {S : Schemas} {ns : Namespace} {s : Schema} {f : Field} {t : NTy} {F : Fam} {e : Ex}
    {out out' : Bytes} {rds : List Bytes} {o : Out} {fbv : List Val} {env : List (Var × Val)}
    (h : NamedType T S ns s f.type.variant t) (p : t.erase.Msg .out)
    (hp : t ≠ .unit → lookup .payload env = some (t.enc .out p))
    (he : ∀ env, lookup .payload env = some (t.enc .out p) ∧ (∀ x, x ∈ fbv → lookup .fallback env = some x) →
      Evals F e ⟨env, out, rds⟩ (o, ⟨env, out', rds⟩))
    (hx : ∀ x, x ∈ fbv → lookup .fallback env = some x) :
    Evals F (unitPayload f e) ⟨env, out, rds⟩ (o, ⟨env, out', rds⟩) := by
  unfold unitPayload
  by_cases hu : f.type.variant = .unit
  · obtain rfl := h.unit_iff.mp hu
    rw [if_pos hu]
    refine (he ((.payload, .unit) :: env) ⟨by simp [NTy.enc], by simpa using hx⟩).mono fun n h => ?_
    simp only [let', Ex.eval, M.bind, M.pure, Lit.val]
    exact scoped_ok h
  · rw [if_neg hu]
    exact he env ⟨hp (fun g => hu (h.unit_iff.mpr g)), hx⟩

/-- The variables after the definitions at the beginning of a struct's `atlas`. -/
def NFields.atlasEnv : (fs : NFields) → fs.erase.AtlasStruct → List (Var × Val) → List (Var × Val)
  | .nil, _, env => env
  | .cons n _ r t rest, a, env =>
    NFields.atlasEnv rest a.2 ((.field n.member, encSlot t.encAtlas (r.mayOmit .out) a.1) :: env)

theorem atlasEnv_length : (fs : NFields) → (a : fs.erase.AtlasStruct) → (env : List (Var × Val)) →
    (fs.atlasEnv a env).length = fs.members.length + env.length
  | .nil, _, _ => by simp [NFields.atlasEnv, NFields.members]
  | .cons n i r t rest, a, env => by
    simp only [NFields.atlasEnv, NFields.members, List.length_cons]
    rw [atlasEnv_length rest a.2]
    simp only [List.length_cons]
    omega

theorem atlasEnv_other (x : Var) : (fs : NFields) → (a : fs.erase.AtlasStruct) → (env : List (Var × Val)) →
    (∀ n ∈ fs.members, x ≠ .field n) → lookup x (fs.atlasEnv a env) = lookup x env
  | .nil, _, _, _ => rfl
  | .cons n i r t rest, a, env, h => by
    rw [NFields.atlasEnv, atlasEnv_other x rest a.2 _ (fun m hm => h m (List.mem_cons_of_mem _ hm))]
    simp only [lookup, if_neg (h n.member List.mem_cons_self)]

theorem encAtlasStruct_names : (fs : NFields) → (a : fs.erase.AtlasStruct) →
    (fs.encAtlasStruct a).map Prod.fst = fs.members
  | .nil, _ => rfl
  | .cons n i r t rest, a => by
    simp only [NFields.encAtlasStruct, NFields.members, List.map_cons, encAtlasStruct_names rest a.2]

theorem encStruct_names (d : Dir) : (fs : NFields) → (m : fs.erase.Struct d) → (fs.encStruct d m).map Prod.fst = fs.members
  | .nil, _ => rfl
  | .cons n i r t rest, a => by
    simp only [NFields.encStruct, NFields.members, List.map_cons, encStruct_names d rest a.2]

theorem atlasEnv_field : (fs : NFields) → (a : fs.erase.AtlasStruct) → (env : List (Var × Val)) → fs.members.Nodup →
    ∀ n x, (n, x) ∈ fs.encAtlasStruct a → lookup (.field n) (fs.atlasEnv a env) = some x
  | .nil, _, _, _, n, x, h => by cases h
  | .cons m i r t rest, a, env, hn, n, x, h => by
    have hn' := List.nodup_cons.mp hn
    rw [NFields.atlasEnv]
    cases h with
    | head =>
      rw [atlasEnv_other _ rest a.2 _ (fun k hk g => hn'.1 (by injection g with g; rw [g]; exact hk))]
      simp [lookup]
    | tail _ h => exact atlasEnv_field rest a.2 _ hn'.2 n x h

theorem member_spec : ∀ (l : List (Str × Val)), (l.map Prod.fst).Nodup → ∀ n x, (n, x) ∈ l → member n l = some x
  | [], _, n, x, h => by cases h
  | (m, y) :: l, hn, n, x, h => by
    have hn' := List.nodup_cons.mp hn
    cases h with
    | head => simp [member]
    | tail _ h =>
      replace h : (n, x) ∈ l := h
      have : m ≠ n := fun g => hn'.1 (by rw [g]; exact List.mem_map.mpr ⟨_, h, rfl⟩)
      simp only [member, if_neg this]
      exact member_spec l hn'.2 n x h

section
variable {T : CharTable} {S : Schemas} {P : Prog} (H : Implements T S P)

theorem inits_eval {ns : Namespace} {s : Schema} (c : Ctx) (k : List (Str × Val) → M) (st : St) {l : List Field} {fs : NFields} :
    NamedFields T S ns s l fs → (a : fs.erase.AtlasStruct) →
    (∀ n x, (n, x) ∈ fs.encAtlasStruct a → lookup (.field n) st.env = some x) →
    (inits (l.map (fun f => (rustSnake f.name, v (fieldVar f))))).eval c k st = k (fs.encAtlasStruct a) st
  | .nil, a, h => rfl
  | .cons (f := f) (Fs := Fs) h1 h2, a, h => by
    have h0 := h _ _ List.mem_cons_self
    have ih := fun k => inits_eval c k st h2 a.2 (fun n x hm => h n x (List.mem_cons_of_mem _ hm))
    simp only [List.map_cons, inits, Inits.eval, NFields.encAtlasStruct]
    simp only [v, fieldVar, Ex.eval, M.bind, M.get]
    simp only [fieldName] at h0
    rw [h0]
    simp only [Option.map_some, fieldName]
    exact ih _

theorem sum_eq (c : Ctx) {s s' : St} {n : Nat} : {es : Args} → es.sumFrom c (.usize 0) s = some (.val (.usize n), s') →
    es.sum c s = some (.val (.usize n), s')
  | .nil, h => by simpa only [Args.sumFrom, Args.sum] using h
  | .cons e es, h => by
    simp only [Args.sumFrom, Args.sum, M.bind] at h ⊢
    cases he : e.eval c s with
    | none => rw [he] at h; exact h
    | some r =>
      obtain ⟨o, s1⟩ := r
      rw [he] at h
      cases o with
      | val w =>
        cases w with
        | usize m =>
          by_cases hm : m < 2 ^ 64
          · simpa only [BinOp.run, Nat.zero_add, if_pos hm, M.ofOption, Option.map_some] using h
          · simp [BinOp.run, M.ofOption, show ¬ m < 18446744073709551616 from hm] at h
        | _ => simp [BinOp.run, M.ofOption] at h
      | _ => exact h

include H in
theorem fieldSizes_eval {F : Fam} (hF : F.P = P) {ns : Namespace} {s : Schema} (env : List (Var × Val)) (out : Bytes) (rds : List Bytes)
    {l : List Field} {fs : NFields} : NamedFields T S ns s l fs → (∀ f ∈ l, f.index < 2 ^ 64) → (m : fs.erase.Struct .out) → (a : Nat) →
    (∀ n x, (n, x) ∈ fs.encAtlasStruct (fs.erase.structAtlas m).2 → lookup (.field n) env = some x) →
    a + (fs.erase.structAtlas m).1 < 2 ^ 64 →
    Ev (fun n => (args (l.map (structFieldSize F.t.1.length))).sumFrom (F.ctx n) (.usize a) ⟨env, out, rds⟩ =
      some (.val (.usize (a + (fs.erase.structAtlas m).1)), ⟨env, out, rds⟩))
  | .nil, hi, m, a, h, _ => .of fun n => rfl
  | .cons (f := f) (t := t) (fs := l') (Fs := Fs) h1 h2, hi, m, a, h, hb => by
    have hi0 := hi f List.mem_cons_self
    have h0 := h _ _ List.mem_cons_self
    have ih := fun a hb' => fieldSizes_eval hF env out rds h2 (fun g hg => hi g (List.mem_cons_of_mem _ hg)) m.2 a
      (fun n x hm => h n x (List.mem_cons_of_mem _ hm)) hb'
    have key : ∀ a : t.erase.Atlas, fieldHeaderSize f.index (t.erase.atlasSize a) t.erase.integerEncoded + t.erase.atlasSize a < 2 ^ 64 → Ev (fun n =>
        (let' .payloadSize (atlasLookup f.type.variant) (headerAndPayload F.t.1.length f)).eval (F.ctx n)
          ⟨(.payloadAtlas, t.encAtlas a) :: env, out, rds⟩ =
        some (.val (.usize (fieldHeaderSize f.index (t.erase.atlasSize a) t.erase.integerEncoded + t.erase.atlasSize a)),
          ⟨(.payloadAtlas, t.encAtlas a) :: env, out, rds⟩)) := by
      intro a ha
      refine (atlasLookup_eval H hF h1 a (env := (.payloadAtlas, t.encAtlas a) :: env) out rds (by simp)).mono fun n h => ?_
      have := headerAndPayload_eval (F.ctx n) f hi0 (env := (.payloadSize, .usize (t.erase.atlasSize a)) ::
        (.payloadAtlas, t.encAtlas a) :: env) out rds (n := t.erase.atlasSize a) (by simp) (by rw [h1.integerEncoded]; exact ha)
      rw [Fam.ctx_mod] at this
      simp [Ex.eval, h, this, h1.integerEncoded]
    have main : ∀ k, Ev (fun n => (structFieldSize F.t.1.length f).eval (F.ctx n) ⟨env, out, rds⟩ = some (.val (.usize k), ⟨env, out, rds⟩)) →
        k + (Fs.erase.structAtlas m.2).1 = (Fields.structAtlas (.cons f.index f.rule t.erase Fs.erase) m).1 →
        Ev (fun n => (args ((f :: l').map (structFieldSize F.t.1.length))).sumFrom (F.ctx n) (.usize a) ⟨env, out, rds⟩ =
          some (.val (.usize (a + (Fields.structAtlas (.cons f.index f.rule t.erase Fs.erase) m).1)), ⟨env, out, rds⟩)) := by
      intro k hk e
      have hb : a + (Fields.structAtlas (.cons f.index f.rule t.erase Fs.erase) m).1 < 2 ^ 64 := hb
      refine (hk.and (ih (a + k) (by omega))).mono fun n ⟨hk, ih⟩ => ?_
      have hk1 : a + k < 2 ^ 64 := by omega
      simp only [List.map_cons, args, Args.sumFrom, M.bind, hk, ih, M.ofOption, BinOp.run, Option.map_some, ← e, if_pos hk1, Nat.add_assoc]
    clear ih
    obtain ⟨sr, cm, rule, nm, ty, idx⟩ := f
    cases rule with
    | optional =>
      match m, h0 with
      | (none, m), h0 =>
        refine main 0 (.of fun n => ?_) ?_
        · have h0 : lookup (.field (rustSnake nm)) env = some .none := h0
          simp [structFieldSize, fieldVar, Ex.eval, Args.eval, h0]
        · rfl
      | (some p, m), h0 =>
        refine main (fieldHeaderSize idx (t.erase.atlasSize (t.erase.atlas p)) t.erase.integerEncoded +
          t.erase.atlasSize (t.erase.atlas p)) ((key (t.erase.atlas p) (Nat.lt_of_le_of_lt (Nat.le_add_right _ _) (Nat.lt_of_le_of_lt (Nat.le_add_left _ a) hb))).mono fun n key => ?_) rfl
        have h0 : lookup (.field (rustSnake nm)) env = some (.some (t.encAtlas (t.erase.atlas p))) := h0
        simp only [let', v] at key
        simp [structFieldSize, fieldVar, Ex.eval, Args.eval, h0]
        simp [Ex.eval] at key
        simp [key]
    | required =>
      refine main (fieldHeaderSize idx (t.erase.atlasSize (t.erase.atlas m.1)) t.erase.integerEncoded +
        t.erase.atlasSize (t.erase.atlas m.1)) ((key (t.erase.atlas m.1) (Nat.lt_of_le_of_lt (Nat.le_add_right _ _) (Nat.lt_of_le_of_lt (Nat.le_add_left _ a) hb))).mono fun n key => ?_) rfl
      have h0 : lookup (.field (rustSnake nm)) env = some (t.encAtlas (t.erase.atlas m.1)) := h0
      simp [structFieldSize, fieldVar, Ex.eval, Args.eval, h0]
      simp [Ex.eval] at key
      simp [key]
    | asymmetric =>
      refine main (fieldHeaderSize idx (t.erase.atlasSize (t.erase.atlas m.1)) t.erase.integerEncoded +
        t.erase.atlasSize (t.erase.atlas m.1)) ((key (t.erase.atlas m.1) (Nat.lt_of_le_of_lt (Nat.le_add_right _ _) (Nat.lt_of_le_of_lt (Nat.le_add_left _ a) hb))).mono fun n key => ?_) rfl
      have h0 : lookup (.field (rustSnake nm)) env = some (t.encAtlas (t.erase.atlas m.1)) := h0
      simp [structFieldSize, fieldVar, Ex.eval, Args.eval, h0]
      simp [Ex.eval] at key
      simp [key]

theorem encAtlas_more (isField : Bool) (n : DeclName) (fs : NFields) (a : fs.erase.Sel .out true)
    (rest : (NCTy.choice n fs).erase.Msg .out) :
    (NCTy.choice n fs).encAtlas (CTy.atlas isField (NCTy.choice n fs).erase (.more a rest)) =
      .variant (n.id .atlas) (fs.encAtlasSel (fs.erase.selAtlas a).2).1
        (.usize ((fs.erase.selAtlas a).1 + CTy.atlasSize (NCTy.choice n fs).erase (CTy.atlas isField (NCTy.choice n fs).erase rest)) ::
          ((fs.encAtlasSel (fs.erase.selAtlas a).2).2 ++
            [(NCTy.choice n fs).encAtlas (CTy.atlas isField (NCTy.choice n fs).erase rest)])) := by
  cases rest <;> rfl

theorem atlasSize_more (isField : Bool) (n : DeclName) (fs : NFields) (a : fs.erase.Sel .out true)
    (rest : (NCTy.choice n fs).erase.Msg .out) :
    CTy.atlasSize (NCTy.choice n fs).erase (CTy.atlas isField (NCTy.choice n fs).erase (.more a rest)) =
      (fs.erase.selAtlas a).1 + CTy.atlasSize (NCTy.choice n fs).erase (CTy.atlas isField (NCTy.choice n fs).erase rest) := by
  cases rest <;> rfl

/-- The `atlas` method of a type computes the atlases of the model. -/
def AtlasC (P : Prog) (c : NCTy) : Prop := ∀ (lim : Nat) (isField : Bool) (m : c.erase.Msg .out) (s : St),
  c.erase.atlasSize (c.erase.atlas isField m) < 2 ^ 64 →
  Ev (fun n => Method.run (callFn lim P n) .atlas (c.enc .out m) [] s = some (.val (c.encAtlas (c.erase.atlas isField m)), s))

/-- The code for the atlas of a payload computes the atlases of the model. -/
def AtlasT (P : Prog) (tv : TypeVariant) (t : NTy) : Prop := ∀ F : Fam, F.P = P → ∀ (isField : Bool) (m : t.erase.Msg .out)
  (env : List (Var × Val)) (out : Bytes) (rds : List Bytes), lookup .payload env = some (t.enc .out m) →
    t.erase.atlasSize (t.atlasOf isField m) < 2 ^ 64 →
    Evals F (atlasCalculation F.t.1.length isField tv) ⟨env, out, rds⟩ (.val (t.encAtlas (t.atlasOf isField m)), ⟨env, out, rds⟩)

/-- The definitions at the beginning of a struct's `atlas`. -/
theorem atlasLets_eval {F : Fam} (hF : F.P = P) {ns : Namespace} {s : Schema} {l : List Field} {fs : NFields} (rest : Ex)
    (x : Val) (t : TypeId) (L : List (Str × Val)) (out : Bytes) (rds : List Bytes) :
    FieldsHave T (fun tv t => NamedType T S ns s tv t ∧ AtlasT P tv t) l fs → (m : fs.erase.Struct .out) → (env : List (Var × Val)) → lookup .self env = some (.struct t L) →
    (∀ n y, (n, y) ∈ fs.encStruct .out m → member n L = some y) → (fs.erase.structAtlas m).1 < 2 ^ 64 →
    Evals F rest ⟨fs.atlasEnv (fs.erase.structAtlas m).2 env, out, rds⟩
      (.val x, ⟨fs.atlasEnv (fs.erase.structAtlas m).2 env, out, rds⟩) →
    Evals F (structAtlasLets F.t.1.length rest l) ⟨env, out, rds⟩ (.val x, ⟨env, out, rds⟩)
  | .nil, m, env, hs, hL, _, hr => hr
  | .cons (f := f) (t := t) (l := l') (fs := Fs) ⟨h1, hq⟩ h2, m, env, hs, hL, hb, hr => by
    obtain ⟨sr, cm, rule, nm, ty, idx⟩ := f
    have hm : member (rustSnake nm) L = some (encSlot (t.enc .out) (rule.mayOmit .out) m.1) := hL _ _ List.mem_cons_self
    have ih := fun y => atlasLets_eval hF rest x _ L out rds h2 m.2 ((.field (rustSnake nm), y) :: env)
      (by simpa [lookup] using hs) (fun n y h => hL n y (List.mem_cons_of_mem _ h)) (Nat.lt_of_le_of_lt (Nat.le_add_left _ _) hb)
    have hv : ∀ e : Ex, (∃ y, Evals F e ⟨env, out, rds⟩ (.val y, ⟨env, out, rds⟩) ∧
        y = encSlot t.encAtlas (rule.mayOmit .out) (Slot.map t.erase.atlas m.1)) →
        Evals F (let' (.field (rustSnake nm)) e (structAtlasLets F.t.1.length rest l')) ⟨env, out, rds⟩
          (.val x, ⟨env, out, rds⟩) := by
      rintro e ⟨y, he, rfl⟩
      refine (he.and (ih (encSlot t.encAtlas (rule.mayOmit .out) (Slot.map t.erase.atlas m.1)) hr)).mono fun n ⟨h1, h2⟩ => ?_
      simp [Ex.eval, h1, h2]
    have key : ∀ (p : t.erase.Msg .out) (env : List (Var × Val)), lookup .payload env = some (t.enc .out p) →
        fieldHeaderSize idx (t.erase.atlasSize (t.erase.atlas p)) t.erase.integerEncoded + t.erase.atlasSize (t.erase.atlas p) < 2 ^ 64 →
        Evals F (atlasCalculation F.t.1.length true ty.variant) ⟨env, out, rds⟩
          (.val (t.encAtlas (t.erase.atlas p)), ⟨env, out, rds⟩) :=
      fun p env h hb => t.atlasOf_true p ▸ hq F hF true p env out rds h (by rw [t.atlasOf_true]; omega)
    cases rule with
    | optional =>
      refine hv _ ?_
      match m, hm with
      | (none, m), hm =>
        refine ⟨_, .of fun n => ?_, rfl⟩
        simp [Ex.eval, Args.eval, hs, Val.field, hm, encSlot, Rule.mayOmit, Slot.map]
      | (some p, m), hm =>
        refine ⟨_, (key p ((.payload, t.enc .out p) :: env) (by simp) (Nat.lt_of_le_of_lt (Nat.le_add_right _ _) hb)).mono fun n h => ?_, rfl⟩
        simp [Ex.eval, Args.eval, hs, Val.field, hm, encSlot, Rule.mayOmit, Slot.map, h]
    | required =>
      obtain ⟨a, m⟩ := m
      change t.erase.Msg .out at a
      replace hm : member (rustSnake nm) L = some (t.enc .out a) := hm
      refine hv _ ⟨t.encAtlas (t.erase.atlas a), (key a ((.payload, t.enc .out a) :: env) (by simp) (Nat.lt_of_le_of_lt (Nat.le_add_right _ _) hb)).mono fun n h => ?_, rfl⟩
      simp [Ex.eval, Args.eval, hs, Val.field, hm, encSlot, Rule.mayOmit, Slot.map, h]
    | asymmetric =>
      obtain ⟨a, m⟩ := m
      change t.erase.Msg .out at a
      replace hm : member (rustSnake nm) L = some (t.enc .out a) := hm
      refine hv _ ⟨t.encAtlas (t.erase.atlas a), (key a ((.payload, t.enc .out a) :: env) (by simp) (Nat.lt_of_le_of_lt (Nat.le_add_right _ _) hb)).mono fun n h => ?_, rfl⟩
      simp [Ex.eval, Args.eval, hs, Val.field, hm, encSlot, Rule.mayOmit, Slot.map, h]

include H in
/-- The arms of a choice's `atlas`. -/
theorem atlasArms_eval {F : Fam} (hF : F.P = P) {ns : Namespace} {s : Schema} {fb : Bool} {fbv fba : List Val} {extra : Nat}
    (hfb : Fallback F.lim P fb fbv fba extra) (d : Declaration) (st : St) {l : List Field} {fs : NFields} :
    FieldsHave T (fun tv t => NamedType T S ns s tv t ∧ AtlasT P tv t) l fs → fs.variants.Nodup → (∀ f ∈ l, f.index < 2 ^ 64) → (p : fs.erase.Sel .out fb) →
    (fs.erase.selAtlas p).1 + extra < 2 ^ 64 →
    Ev (fun n => (choiceAtlasArms T F.t.1.length d l).eval (F.ctx n)
      (.variant (F.t.1, rustPascal T d.name (some .out)) (fs.encSel .out p).1 ((fs.encSel .out p).2 ++ fbv)) st =
      some (.val (.variant (F.t.1, rustPascal T d.name (some .atlas)) (fs.encAtlasSel (fs.erase.selAtlas p).2).1
        (.usize ((fs.erase.selAtlas p).1 + extra) :: ((fs.encAtlasSel (fs.erase.selAtlas p).2).2 ++ fba))), st))
  | .nil, _, _, p, _ => p.elim
  | .cons (f := f) (t := t) (l := l') (fs := Fs) ⟨h1, hq⟩ h2, hn, hi, .inl p, hb => by
    have hok := p.ok
    have hreq := required_iff f.rule
    have hi0 := hi f List.mem_cons_self
    obtain ⟨env, out, rds⟩ := st
    let A := t.erase.atlas p.val
    let N := t.erase.atlasSize A
    have hN : fieldHeaderSize f.index N t.erase.integerEncoded + N + extra < 2 ^ 64 := hb
    have body : ∀ env, lookup .payload env = some (t.enc .out p.val) → (∀ x, x ∈ fbv → lookup .fallback env = some x) →
        Evals F (let' .payloadAtlas (atlasCalculation F.t.1.length true f.type.variant)
          (let' .payloadSize (.brace (let' .payloadAtlas (.ref (v .payloadAtlas)) (atlasLookup f.type.variant)))
          (if f.rule = .required then
            .variantLit (rustPascal T d.name (some .atlas)) (rustPascal T f.name none)
              (args [headerAndPayload F.t.1.length f, v .payloadAtlas])
          else
            let' .fallbackAtlas ((v .fallback).m .atlas)
            (.variantLit (rustPascal T d.name (some .atlas)) (rustPascal T f.name none)
              (args [.bin .add (headerAndPayload F.t.1.length f) ((v .fallbackAtlas).m .size), v .payloadAtlas,
                .std .boxNew (args [v .fallbackAtlas])]))))) ⟨env, out, rds⟩
          (.val (.variant (F.t.1, rustPascal T d.name (some .atlas)) (rustPascal T f.name none)
            (.usize (fieldHeaderSize f.index N t.erase.integerEncoded + N + extra) :: (t.encAtlas A :: fba))), ⟨env, out, rds⟩) := by
      intro env he hx
      have k1 := hq F hF true p.val env out rds he (by rw [NTy.atlasOf_true]; show N < _; omega)
      rw [NTy.atlasOf_true] at k1
      have k2 := atlasLookup_eval H hF h1 A (env := (.payloadAtlas, t.encAtlas A) :: (.payloadAtlas, t.encAtlas A) :: env) out rds
        (by simp)
      have k3 : ∀ n, ∀ env', lookup .payloadSize env' = some (.usize N) →
          (headerAndPayload F.t.1.length f).eval (F.ctx n) ⟨env', out, rds⟩ =
          some (.val (.usize (fieldHeaderSize f.index N t.erase.integerEncoded + N)), ⟨env', out, rds⟩) := by
        intro n env' h
        rw [← h1.integerEncoded]
        exact headerAndPayload_eval (F.ctx n) f hi0 out rds h (by rw [h1.integerEncoded]; omega)
      cases hfb with
      | none =>
        rw [if_pos (hreq.mpr hok)]
        refine (k1.and k2).mono fun n ⟨k1, k2⟩ => ?_
        have k3 := k3 n ((.payloadSize, .usize N) :: (.payloadAtlas, t.encAtlas A) :: env) (by simp)
        simp [Ex.eval, Args.eval, k1, k2, A, N] at k3 ⊢
        simp [k3]
      | @some x a n ha hsz =>
        rw [if_neg (fun g => by rw [hreq.mp g] at hok; cases hok)]
        have hx := hx x (by simp)
        have k4 := ha ⟨(.payloadSize, .usize N) :: (.payloadAtlas, t.encAtlas A) :: env, out, rds⟩
        have k5 := hsz ⟨(.fallbackAtlas, a) :: (.payloadSize, .usize N) :: (.payloadAtlas, t.encAtlas A) :: env, out, rds⟩
        refine ((k1.and k2).and (k4.and k5)).mono fun n ⟨⟨k1, k2⟩, k4, k5⟩ => ?_
        have k3 := k3 n ((.fallbackAtlas, a) :: (.payloadSize, .usize N) :: (.payloadAtlas, t.encAtlas A) :: env) (by simp)
        rw [← hF] at k4 k5
        simp only [Ex.eval, Args.eval, let', v, Ex.m, args, M.bind, M.get, M.scoped, k1, k2, lookup, Option.map_some, if_true,
          List.cons_append, List.nil_append, reduceCtorEq, if_false, hx, Fam.ctx_call, A, N, List.length_cons, List.length_nil,
          List.drop_succ_cons, List.drop_zero, Fam.ctx_mod] at k3 k4 k5 ⊢
        simp only [k4, k3, k5, Option.map_some, M.ofOption, BinOp.run, if_pos (show fieldHeaderSize f.index (t.erase.atlasSize (t.erase.atlas p.val)) t.erase.integerEncoded + t.erase.atlasSize (t.erase.atlas p.val) + _ < 2 ^ 64 from hN), lookup, if_true, reduceCtorEq, if_false, StdFn.run, M.pure,
          List.drop_succ_cons, List.drop_zero, List.length_cons, List.length_nil]
    rw [encSel_inl]
    obtain ⟨bs, hb, hb1, hb2, -⟩ := bind_out h1 p fbv hfb.length env
    have main : Evals F (unitPayload f _) ⟨bs ++ env, out, rds⟩ (_, ⟨bs ++ env, out, rds⟩) :=
      unitPayload_ok h1 p.val hb1 (fun env' h => body env' h.1 h.2) hb2
    refine main.mono fun n h => ?_
    simp only [choiceAtlasArms, Arms.eval, Pat.run, Fam.ctx_mod, fieldName, if_true, hb, Option.map_some]
    simp only [Ex.eval]
    exact scoped_ok h
  | .cons (f := f) (t := t) (l := l') (fs := Fs) ⟨h1, hq⟩ h2, hn, hi, .inr p, hb => by
    have hm := encSel_mem Fs p
    have hn' := List.nodup_cons.mp hn
    have hne : (Fs.encSel .out p).1 ≠ rustPascal T f.name none := fun g => hn'.1 (show rustPascal T f.name none ∈ _ from g ▸ hm)
    refine (atlasArms_eval hF hfb d st h2 hn'.2 (fun g hg => hi g (List.mem_cons_of_mem _ hg)) p hb).mono fun n h => ?_
    rw [encSel_inr]
    simp only [choiceAtlasArms, Arms.eval, Pat.run, Fam.ctx_mod, if_true, if_neg hne]
    exact h

include H in
theorem struct_atlas {k : List Str × Str} {ns : Namespace} {sc : Schema} {d : Declaration} {fs : NFields}
    (hd : S.Declares k ns sc d) (hv : d.variant = .struct) (hf : NamedFields T S ns sc d.fields fs)
    (hfq : FieldsHave T (fun tv t => NamedType T S ns sc tv t ∧ AtlasT P tv t) d.fields fs) :
    AtlasC P (.struct (declName T ns d) fs) := by
  rintro lim isField m ⟨env, out, rds⟩ hb
  replace hb : (fs.erase.structAtlas m).1 < 2 ^ 64 := hb
  obtain ⟨ns', h1, h2, h3, h4, h5, h6⟩ := H _ _ _ _ hd
  have h2 := h2 .atlas
  have hn := h4 hv
  have hs : ns'.components.length = (ns.components.map rustSnake).length := by rw [← h1, List.length_map]
  simp only [DeclCode.body, declCode, hv] at h2
  have hm := encStruct_names .out fs m
  have hn' := List.nodup_cons.mp hn
  have hnm : fs.members.Nodup := by rw [hf.members]; exact hn'.2
  let V := (NCTy.struct (declName T ns d) fs).enc .out m
  have key : Evals (top lim P ((declName T ns d).id .out)) (structAtlas T ns'.components.length d)
      ⟨[(.self, V)], out, rds⟩
      (.val ((NCTy.struct (declName T ns d) fs).encAtlas (CTy.atlas isField (.struct fs.erase) m)), ⟨[(.self, V)], out, rds⟩) := by
    have hsup : ns'.components.length = (top lim P ((declName T ns d).id .out)).t.1.length := hs
    rw [hsup]
    have hlit : ∀ env, (∀ n x, (n, x) ∈ fs.encAtlasStruct (fs.erase.structAtlas m).2 → lookup (.field n) env = some x) →
        Evals (top lim P ((declName T ns d).id .out))
          (.structLit (rustPascal T d.name (some .atlas))
            (.cons "_size".toList (.sumLines (args (d.fields.map
              (structFieldSize (top lim P ((declName T ns d).id .out)).t.1.length))))
              (inits (d.fields.map (fun f => (rustSnake f.name, v (fieldVar f))))))) ⟨env, out, rds⟩
          (.val ((NCTy.struct (declName T ns d) fs).encAtlas (CTy.atlas isField (.struct fs.erase) m)), ⟨env, out, rds⟩) := by
      intro env he
      refine (fieldSizes_eval H (F := top lim P ((declName T ns d).id .out)) rfl env out rds hf h6 m 0 he (by rw [Nat.zero_add]; exact hb)).mono fun n h => ?_
      rw [Nat.zero_add] at h
      replace h := sum_eq _ h
      have hi := fun k => inits_eval ((top lim P ((declName T ns d).id .out)).ctx n) k ⟨env, out, rds⟩ hf
        (fs.erase.structAtlas m).2 he
      simp only [Ex.eval, Inits.eval, M.bind, h, hi]
      rfl
    unfold structAtlas
    by_cases hemp : d.fields.isEmpty
    · simp only [hemp, if_true]
      refine hlit _ ?_
      intro n x hx
      have : fs = .nil := by
        generalize d.fields = l at hf hemp
        cases hf with
        | nil => rfl
        | cons _ _ => simp at hemp
      subst this
      cases hx
    · simp only [hemp, Bool.false_eq_true, if_false]
      refine atlasLets_eval (F := top lim P ((declName T ns d).id .out)) rfl _ _ _ (fs.encStruct .out m) out rds hfq m
        _ (by simp [V, NCTy.enc]; rfl) (member_spec _ (by rw [hm]; exact hnm)) hb ?_
      refine (hlit _ (atlasEnv_field fs _ [(.self, V)] hnm)).mono fun n h => ?_
      simpa only [Ex.eval] using h
  exact Calls.intro h2 key (.val _)

include H in
theorem choice_atlas {k : List Str × Str} {ns : Namespace} {sc : Schema} {d : Declaration} {fs : NFields}
    (hd : S.Declares k ns sc d) (hv : d.variant = .choice) (hf : NamedFields T S ns sc d.fields fs)
    (hfq : FieldsHave T (fun tv t => NamedType T S ns sc tv t ∧ AtlasT P tv t) d.fields fs) :
    AtlasC P (.choice (declName T ns d) fs) := by
  intro lim isField m st hb
  have hd' := hd
  have hnamed : Named T S _ (.choice (declName T ns d) fs) := .choice hd hv hf
  obtain ⟨ns', h1, h2, h3, h4, h5, h6⟩ := H _ _ _ _ hd
  have h2 := h2 .atlas
  have hs : ns'.components.length = (top lim P ((declName T ns d).id .out)).t.1.length := by
    show _ = (ns.components.map rustSnake).length
    rw [← h1, List.length_map]
  simp only [DeclCode.body, declCode, hv, hs] at h2
  have hn : fs.variants.Nodup := by rw [hf.variants]; exact h5 hv
  have arms := fun {fb fbv fba extra} (hfb : Fallback lim P fb fbv fba extra) st p =>
    atlasArms_eval H (F := top lim P ((declName T ns d).id .out)) rfl hfb d st hfq hn h6 p
  change Chain (fs.erase.Sel .out true) (fs.erase.Sel .out false) at m
  induction m generalizing st with
  | last b =>
    obtain ⟨env, out, rds⟩ := st
    have key := arms .none ⟨[(.self, (NCTy.choice (declName T ns d) fs).enc .out (.last b))], out, rds⟩ b hb
    refine Calls.intro (env' := [(.self, (NCTy.choice (declName T ns d) fs).enc .out (.last b))]) h2 (key.mono fun n h => ?_) (.val _)
    simp only [List.append_nil, Nat.add_zero] at h
    simp only [Ex.eval, v, M.bind, M.get, Fn.params, List.zip_cons_cons, List.zip_nil_left, lookup, if_true, Option.map_some]
    exact h
  | more a rest ih =>
    obtain ⟨env, out, rds⟩ := st
    have hb : (fs.erase.selAtlas a).1 + CTy.atlasSize (NCTy.choice (declName T ns d) fs).erase (CTy.atlas isField (NCTy.choice (declName T ns d) fs).erase rest) <
        2 ^ 64 := by
      rw [← atlasSize_more isField (declName T ns d) fs a rest]
      exact hb
    have key := arms (.some (fun st => ih st (by omega)) (fun st => size_method H lim hnamed _ st))
      ⟨[(.self, (NCTy.choice (declName T ns d) fs).enc .out (.more a rest))], out, rds⟩ a hb
    refine Calls.intro (env' := [(.self, (NCTy.choice (declName T ns d) fs).enc .out (.more a rest))]) h2 (key.mono fun n h => ?_)
      (.val _)
    simp only [Ex.eval, v, M.bind, M.get, Fn.params, List.zip_cons_cons, List.zip_nil_left, lookup, if_true, Option.map_some]
    exact h.trans (congrArg (fun x => some (Out.val x, _)) (encAtlas_more isField (declName T ns d) fs a rest).symm)

theorem le_foldl {α : Type} (h : α → Nat) {a : α} : {l : List α} → a ∈ l → (x : Nat) → h a ≤ l.foldl (fun x a => x + h a) x
  | b :: l, hm, x => by
    rw [List.foldl_cons]
    cases hm with
    | head => rw [foldl_add]; omega
    | tail _ hm => exact le_foldl h hm _

theorem scalar_atlas {tv : TypeVariant} {sc : Scalar} (h : IsScalar tv sc) : AtlasT P tv (.scalar sc) := by
  intro F hF isField m env out rds he hb
  exact .of fun n => scalar_eval (F.ctx n) isField h m he

theorem unit_atlas : AtlasT P .unit .unit := by
  intro F hF isField m env out rds he hb
  refine .of fun n => ?_
  simp only [atlasCalculation, Ex.eval, M.pure, Lit.val]
  rfl

theorem bytes_atlas : AtlasT P .bytes (.comp .bytes) := by
  intro F hF isField m env out rds he hb
  refine .of fun n => ?_
  simp only [NTy.enc, NCTy.enc] at he
  simp only [atlasCalculation, Ex.eval, Args.eval, M.bind, M.get, v, Ex.m, he, Option.map_some, Method.run, M.pure]
  rfl

theorem string_atlas : AtlasT P .string (.comp .string) := by
  intro F hF isField m env out rds he hb
  refine .of fun n => ?_
  simp only [NTy.enc, NCTy.enc] at he
  simp only [atlasCalculation, Ex.eval, Args.eval, M.bind, M.get, v, Ex.m, he, Option.map_some, Method.run, M.pure]
  rfl

theorem units_atlas (r : SourceRange) : AtlasT P (.array r .unit) (.comp .units) := by
  intro F hF isField m env out rds he hb
  refine .of fun n => ?_
  change UInt64 at m
  simp only [NTy.enc, NCTy.enc] at he
  have := atlasU64_eval (F.ctx n) isField (env := (.payload, .u64 m) :: env) (out := out) (rds := rds) (x := m) (by simp)
  have e : UInt64.ofNat (List.replicate m.toNat Val.unit).length = m := by simp
  simp only [atlasCalculation, sized, Bool.false_eq_true, if_false, if_true, Ex.eval, Args.eval, M.bind, M.get, let', v, Ex.m, he,
    Option.map_some, Method.run, M.pure, Val.asU64, M.ofOption, M.scoped, e, List.cons_append, List.nil_append]
  rw [Fam.ctx_mod] at this
  rw [this]
  rfl

theorem scalars_atlas {ns : Namespace} {s : Schema} {r : SourceRange} {inner : TypeVariant} {sc : Scalar} (h : NamedType T S ns s inner (.scalar sc)) :
    AtlasT P (.array r inner) (.comp (.scalars sc)) := by
  intro F hF isField m env out rds he hb
  change List sc.Val at m
  have hs := sized_scalar h
  have hu : inner ≠ .unit := fun g => by rw [g] at hs; subst g; cases h
  have hsc := h.isScalar
  simp only [NTy.enc, NCTy.enc] at he
  by_cases hf : inner = .f64
  · subst hf
    cases h
    refine .of fun n => ?_
    simp only [atlasCalculation, hs, Bool.false_eq_true, if_false, if_neg hu, if_true, Ex.eval, Args.eval, M.bind, M.get, v, Ex.m, he,
      Option.map_some, Method.run, M.pure, Lit.val, BinOp.run, M.ofOption, List.length_map,
      if_pos (show 8 * m.length < 2 ^ 64 from hb)]
    rfl
  · have hsc' : sc ≠ .f64 := fun g => by subst g; cases hsc; exact hf rfl
    have e : scalarsSize sc m = m.foldl (fun x a => x + scalarElemSize sc a) 0 := by
      cases sc <;> first | rfl | exact absurd rfl hsc'
    replace hb : scalarsSize sc m < 2 ^ 64 := hb
    rw [e] at hb
    have key := Ev.sumEach (s := ⟨env, out, rds⟩)
      (f := fun n a y => ((Ex.bin .add (v .x) (atlasCalculation F.t.1.length false inner)).eval (F.ctx n)).closure
        [(.payload, y), (.x, a)]) (encScalar sc) (scalarElemSize sc) m 0 hb (by
        intro a ha x hx
        refine .of fun n => ?_
        have := scalar_eval (F.ctx n) false hsc a (env := (.payload, encScalar sc a) :: (.x, .usize x) :: env) (out := out)
          (rds := rds) (by simp)
        simp only [Fam.ctx_mod] at this
        simp only [Nat.reducePow] at hx
        simp [Ex.eval, this, hx])
    refine key.mono fun n key => ?_
    simp only [atlasCalculation, hs, Bool.false_eq_true, if_false, if_neg hu, if_neg hf, Ex.eval, Args.eval, M.bind, M.get, v, Ex.m, he,
      Option.map_some, Method.run, M.pure]
    simp only [Ex.eval, v] at key
    rw [key, ← e]
    rfl

include H in
theorem array_atlas {ns : Namespace} {s : Schema} {r : SourceRange} {inner : TypeVariant} {c : NCTy} (h : NamedType T S ns s inner (.comp c))
    (hq : AtlasT P inner (.comp c)) : AtlasT P (.array r inner) (.comp (.array c)) := by
  intro F hF isField m env out rds he hb
  change List (CTy.Msg .out c.erase) at m
  have hs := sized_comp h
  simp only [NTy.enc, NCTy.enc] at he
  let A : List (CTy.Atlas c.erase) := List.map (c.erase.atlas false) m
  replace hb : A.foldl (fun x a => x + varintSizeFromValue (UInt64.ofNat (c.erase.atlasSize a)) + c.erase.atlasSize a) 0 < 2 ^ 64 := hb
  simp only [Nat.add_assoc] at hb
  have hel : ∀ a ∈ A, c.erase.atlasSize a < 2 ^ 64 := fun a ha =>
    Nat.lt_of_le_of_lt (Nat.le_trans (Nat.le_add_left _ _) (le_foldl (fun a => varintSizeFromValue (UInt64.ofNat (c.erase.atlasSize a)) +
      c.erase.atlasSize a) ha 0)) hb
  have hmap := Ev.mapEach (s := ⟨env, out, rds⟩)
    (f := fun n y => ((atlasCalculation F.t.1.length false inner).eval (F.ctx n)).closure [(.payload, y)])
    (c.enc .out) (fun x => c.encAtlas (c.erase.atlas false x)) m (by
      intro x hx
      refine (hq F hF false x ((.payload, c.enc .out x) :: env) out rds (by simp [NTy.enc])
        (hel _ (List.mem_map_of_mem hx))).mono fun n h => ?_
      simp only [NTy.atlasOf, NTy.encAtlas] at h
      simp [h])
  let env' := (Var.atlases, Val.vec (A.map c.encAtlas)) :: env
  have hfold := Ev.sumEach (s := ⟨env', out, rds⟩)
    (f := fun n a y => ((Ex.brace (let' .atlasSize (atlasLookup inner)
          (.bin .add (.bin .add (v .x) (.runtime F.t.1.length .varintSizeFromValue (args [.asU64 (v .atlasSize)])))
            (v .atlasSize)))).eval (F.ctx n)).closure [(.payloadAtlas, y), (.x, a)])
    c.encAtlas (fun a => varintSizeFromValue (UInt64.ofNat (c.erase.atlasSize a)) + c.erase.atlasSize a) A 0 hb (by
      intro a ha x hx
      refine (atlasLookup_eval H hF h a (env := (.payloadAtlas, c.encAtlas a) :: (.x, .usize x) :: env') out rds
        (by simp [NTy.encAtlas])).mono fun n h => ?_
      replace hx : x + varintSizeFromValue (UInt64.ofNat (c.erase.atlasSize a)) + c.erase.atlasSize a < 18446744073709551616 := by
        have : x + (varintSizeFromValue (UInt64.ofNat (c.erase.atlasSize a)) + c.erase.atlasSize a) < 18446744073709551616 := hx
        omega
      have hx' : x + varintSizeFromValue (UInt64.ofNat (c.erase.atlasSize a)) < 18446744073709551616 := by omega
      simp [Ex.eval, Args.eval, h, NTy.erase, Ty.atlasSize, hx, hx']
      omega)
  refine (hmap.and hfold).mono fun n ⟨hmap, hfold⟩ => ?_
  have e : List.map (fun x => c.encAtlas (c.erase.atlas false x)) m = A.map c.encAtlas := by
    simp only [A, List.map_map]; rfl
  rw [e] at hmap
  simp only [atlasCalculation, hs, if_true, Ex.eval, Args.eval, M.bind, M.get, let', v, Ex.m, he,
      Option.map_some, Method.run, M.pure, hmap, M.scoped, List.cons_append, List.nil_append, lookup, env'] at hfold ⊢
  simp only [hfold, Option.map_some, List.length_cons, List.length_nil, List.drop_succ_cons, List.drop_zero]
  simp only [← Nat.add_assoc]
  rfl

theorem custom_atlas {i : Option Identifier} {n : Identifier} {c : NCTy} (hq : AtlasC P c) : AtlasT P (.custom i n) (.comp c) := by
  intro F hF isField m env out rds he hb
  refine (hq F.lim isField m ⟨env, out, rds⟩ hb).mono fun n h => ?_
  simp only [NTy.enc] at he
  simp only [atlasCalculation, Ex.m, v, Ex.eval, M.bind, M.get, he, Option.map_some, Args.eval, Fam.ctx_call, hF, h]
  rfl

include H in
/-- The `atlas` method. -/
theorem Named.atlas {k : List Str × Str} {c : NCTy} (h : Named T S k c) : AtlasC P c :=
  Named.induct (QC := AtlasC P) (QT := fun _ _ tv t => AtlasT P tv t)
    (fun _ _ _ _ _ hd hv hf hq => struct_atlas H hd hv hf hq)
    (fun _ _ _ _ _ hd hv hf hq => choice_atlas H hd hv hf hq)
    (fun _ _ => unit_atlas) (fun _ _ _ _ h => scalar_atlas h.isScalar) (fun _ _ => bytes_atlas) (fun _ _ => string_atlas)
    (fun _ _ r => units_atlas r) (fun _ _ _ _ _ h _ => scalars_atlas h) (fun _ _ _ _ _ h hq => array_atlas H h hq)
    (fun _ _ _ _ _ _ _ _ hq => custom_atlas hq) h

end

end Typical.Gen

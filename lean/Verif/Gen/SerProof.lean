import Verif.Gen.AtlasProof

/-!
# Helper: the generated `serialize_with_atlas` methods write the bytes of the model
-/

namespace Typical.Gen

attribute [local simp] M.bind M.pure M.get M.ofOption M.scoped M.closure M.write v Ex.m let' letMut tryThen args Lit.val lookup
  RuntimeFn.run StdFn.run Method.run BinOp.run Val.asU64 Val.asUsize Val.fst Val.snd

/-- The bytes of a payload. -/
def NTy.encOf (isField : Bool) : (t : NTy) → t.erase.Msg .out → Bytes
  | .unit, _ => []
  | .scalar s, x => if isField then serScalarField s x else serScalarElem s x
  | .comp c, m => c.erase.enc isField m

theorem NTy.encOf_true (t : NTy) (m : t.erase.Msg .out) : t.encOf true m = t.erase.enc m := by
  cases t <;> rfl

theorem NTy.atlasSize_atlasOf (isField : Bool) (t : NTy) (m : t.erase.Msg .out) :
    t.erase.atlasSize (t.atlasOf isField m) = (t.encOf isField m).length := by
  cases t with
  | unit => rfl
  | scalar s =>
    cases isField
    · exact scalarElemSize_eq s m
    · exact scalarFieldSize_eq s m
  | comp c => exact (CTy.serWith_atlas isField c.erase m).2

theorem u64Serialization_eval (c : Ctx) (isField : Bool) {env : List (Var × Val)} (out : Bytes) (rds : List Bytes) {x : UInt64}
    (hx : lookup .varint env = some (.u64 x)) (hw : lookup .writer env = some .writer) :
    (u64Serialization c.mod.length isField).eval c ⟨env, out, rds⟩ =
      some (.val .unit, ⟨env, out ++ (if isField then u64Field x else serializeVarint x), rds⟩) := by
  cases isField
  · simp [u64Serialization, Ex.eval, Args.eval, hx, hw]
  · have hlt : x.toNat < 2 ^ 64 := x.toNat_lt
    simp only [u64Serialization, if_true, Ex.eval, Arms.eval, Pat.run, v, M.bind, M.get, hx, Option.map_some, u64Field]
    by_cases h0 : x = 0
    · subst h0; simp [Ex.eval]
    · have h0' : x.toNat ≠ 0 := fun g => h0 (UInt64.toNat_inj.mp (by simpa using g))
      rw [if_neg h0', if_neg h0]
      have e : (x ≤ 567382630219903) ↔ x.toNat ≤ 567382630219903 := by rw [UInt64.le_iff_toNat_le]; rfl
      by_cases h1 : x.toNat ≤ 567382630219903
      · rw [if_pos ⟨by omega, h1⟩, if_pos (e.mpr h1)]
        simp [Args.eval, Ex.eval, hx, hw]
      · rw [if_neg (by omega), if_neg (fun g => h1 (e.mp g)), if_pos ⟨by omega, by omega⟩]
        simp [Args.eval, Ex.eval, hx, hw]

/-- The `serialize_with_atlas` method of a type writes the bytes of the model. -/
def SerC (P : Prog) (c : NCTy) : Prop := ∀ (lim : Nat) (isField : Bool) (m : c.erase.Msg .out) (env : List (Var × Val)) (out : Bytes)
  (rds : List Bytes), Ev (fun n => Method.run (callFn lim P n) .serializeWithAtlas (c.enc .out m)
    [.writer, c.encAtlas (c.erase.atlas isField m)] ⟨env, out, rds⟩ =
      some (.val (.ok .unit), ⟨env, out ++ c.erase.enc isField m, rds⟩))

/-- The code which writes a payload writes the bytes of the model. -/
def SerT (P : Prog) (tv : TypeVariant) (t : NTy) : Prop := ∀ F : Fam, F.P = P → ∀ (isField : Bool) (m : t.erase.Msg .out)
  (env : List (Var × Val)) (out : Bytes) (rds : List Bytes) (rest : Ex) (r : Out × St),
    (t ≠ .unit → lookup .payload env = some (t.enc .out m)) → 
    (sized tv = true → lookup .payloadAtlas env = some (t.encAtlas (t.atlasOf isField m))) → lookup .writer env = some .writer →
    Evals F rest ⟨env, out ++ t.encOf isField m, rds⟩ r →
    Evals F (serializationInvocation F.t.1.length isField rest tv) ⟨env, out, rds⟩ r

section
variable {T : CharTable} {S : Schemas} {P : Prog} (H : Implements T S P)

theorem unit_ser : SerT P .unit .unit := by
  intro F hF isField m env out rds rest r hp ha hw hr
  simpa [NTy.encOf, serializationInvocation] using hr

theorem scalar_ser {tv : TypeVariant} {sc : Scalar} (h : IsScalar tv sc) : SerT P tv (.scalar sc) := by
  intro F hF isField m env out rds rest r hp ha hw hr
  have hp := hp (by simp)
  refine hr.mono fun n hr => ?_
  have hu := fun x => u64Serialization_eval (F.ctx n) isField (env := (.varint, .u64 x) :: env) out rds (x := x) (by simp) (by simp [hw])
  cases h with
  | bool =>
    change Bool at m
    replace hp : lookup .payload env = some (.bool m) := hp
    have hu := hu (boolToU64 m)
    simp only [Fam.ctx_mod] at hu
    simp only [serializationInvocation, Ex.eval, Args.eval, args, v, let', M.bind, M.get, hp, Option.map_some, StdFn.run, M.pure,
      M.scoped, List.cons_append, List.nil_append]
    rw [show (if m = true then (1 : UInt64) else 0) = boolToU64 m from rfl, hu]
    exact hr
  | u64 =>
    change UInt64 at m
    replace hp : lookup .payload env = some (.u64 m) := hp
    have hu := hu m
    simp only [Fam.ctx_mod] at hu
    simp only [serializationInvocation, Ex.eval, Args.eval, args, v, let', M.bind, M.get, hp, Option.map_some, StdFn.run, M.pure,
      M.scoped, List.cons_append, List.nil_append, hu]
    exact hr
  | s64 =>
    change Int64 at m
    replace hp : lookup .payload env = some (.i64 m) := hp
    have hu := hu (zigzagEncode m)
    simp only [Fam.ctx_mod] at hu
    simp only [serializationInvocation, Ex.eval, Args.eval, args, v, let', Fam.ctx_mod, if_true]
    simp only [M.bind, M.get, hp, Option.map_some, RuntimeFn.run, M.pure, M.scoped, List.cons_append, List.nil_append, hu]
    exact hr
  | f64 =>
    change UInt64 at m
    replace hp : lookup .payload env = some (.f64 m) := hp
    cases isField
    · replace hr : rest.eval (F.ctx n) ⟨env, out ++ toLeBytes m, rds⟩ = some r := hr
      simp [serializationInvocation, Ex.eval, Args.eval, hp, hw, hr]
    · replace hr : rest.eval (F.ctx n) ⟨env, out ++ f64Field m, rds⟩ = some r := hr
      by_cases h0 : m = (0 : UInt64)
      · subst h0
        simp only [f64Field, ne_eq, not_true_eq_false, if_false, List.append_nil] at hr
        simp [serializationInvocation, Ex.eval, Args.eval, hp, hw, hr]
      · simp only [f64Field, ne_eq, h0, not_false_eq_true, if_true] at hr
        have e : (m != (0 : UInt64)) = true := by simpa using h0
        simp [serializationInvocation, Ex.eval, Args.eval, hp, hw, hr, e]

theorem bytes_ser : SerT P .bytes (.comp .bytes) := by
  intro F hF isField m env out rds rest r hp ha hw hr
  have hp := hp (by simp)
  simp only [NTy.enc, NCTy.enc] at hp
  refine hr.mono fun n hr => ?_
  simp only [NTy.encOf, NCTy.erase, CTy.enc] at hr
  simp [serializationInvocation, Ex.eval, Args.eval, hp, hw, hr]

theorem string_ser : SerT P .string (.comp .string) := by
  intro F hF isField m env out rds rest r hp ha hw hr
  have hp := hp (by simp)
  simp only [NTy.enc, NCTy.enc] at hp
  refine hr.mono fun n hr => ?_
  simp only [NTy.encOf, NCTy.erase, CTy.enc] at hr
  simp [serializationInvocation, Ex.eval, Args.eval, hp, hw, hr]

theorem units_ser (rg : SourceRange) : SerT P (.array rg .unit) (.comp .units) := by
  intro F hF isField m env out rds rest r hp ha hw hr
  have hp := hp (by simp)
  change UInt64 at m
  simp only [NTy.enc, NCTy.enc] at hp
  refine hr.mono fun n hr => ?_
  have hu := u64Serialization_eval (F.ctx n) isField (env := (.varint, .u64 m) :: env) out rds (x := m) (by simp) (by simp [hw])
  have e : UInt64.ofNat (List.replicate m.toNat Val.unit).length = m := by simp
  simp only [Fam.ctx_mod] at hu
  simp only [serializationInvocation, sized, Bool.false_eq_true, if_false, if_true, Ex.eval, Args.eval, M.bind, M.get, let', v, Ex.m, hp,
    Option.map_some, Method.run, M.pure, Val.asU64, M.ofOption, M.scoped, e, List.cons_append, List.nil_append, hu]
  exact hr

theorem scalars_ser {ns : Namespace} {s : Schema} {rg : SourceRange} {inner : TypeVariant} {sc : Scalar}
    (h : NamedType T S ns s inner (.scalar sc)) : SerT P (.array rg inner) (.comp (.scalars sc)) := by
  intro F hF isField m env out rds rest r hp ha hw hr
  have hp := hp (by simp)
  change List sc.Val at m
  have hs := sized_scalar h
  have hu : inner ≠ .unit := fun g => by rw [g] at hs; subst g; cases h
  simp only [NTy.enc, NCTy.enc] at hp
  have key := Ev.forEach (f := fun n y => ((serializationInvocation F.t.1.length false .done inner).eval (F.ctx n)).scoped [(.payload, y)])
    (encScalar sc) (serScalarElem sc) env rds m out (by
      intro a _ out
      refine ⟨.unit, ?_⟩
      refine (scalar_ser h.isScalar F hF false a ((.payload, encScalar sc a) :: env) out rds .done
        (.val .unit, ⟨(.payload, encScalar sc a) :: env, out ++ serScalarElem sc a, rds⟩) (fun _ => by simp [NTy.enc])
        (fun g => by rw [hs] at g; cases g) (by simp [hw]) (.of fun n => by simp [Ex.eval, NTy.encOf])).mono fun n h => ?_
      exact scoped_ok (bs := [(.payload, encScalar sc a)]) h)
  refine (key.and hr).mono fun n ⟨key, hr⟩ => ?_
  simp only [serializationInvocation, hs, Bool.false_eq_true, if_false, if_neg hu, Ex.eval, M.bind, M.get, v, hp, Option.map_some, key]
  exact hr

theorem Ev.forZip {α β : Type} {f : Nat → Val → M} (enc : α → Val) (enc' : β → Val) (h : α → β) (g : α → Bytes) (env : List (Var × Val))
    (rds : List Bytes) (l : List α) (out : Bytes)
    (H : ∀ a ∈ l, ∀ out, ∃ v, Ev (fun n => f n (.pair (enc a) (enc' (h a))) ⟨env, out, rds⟩ = some (.val v, ⟨env, out ++ g a, rds⟩))) :
    Ev (fun n => Gen.forEach (f n) (((l.map enc).zip ((l.map h).map enc')).map (fun p => .pair p.1 p.2)) ⟨env, out, rds⟩ =
      some (.val .unit, ⟨env, out ++ l.flatMap g, rds⟩)) := by
  have e : ((l.map enc).zip ((l.map h).map enc')).map (fun p => Val.pair p.1 p.2) = l.map (fun a => Val.pair (enc a) (enc' (h a))) := by
    induction l with
    | nil => rfl
    | cons a l ih => simp only [List.map_cons, List.zip_cons_cons, ih (fun b hb => H b (List.mem_cons_of_mem _ hb))]
  rw [e]
  exact Ev.forEach _ g env rds l out H

theorem forZip_eval {F : Fam} {w w' : Var} {e e' b : Ex} {s : St} {l l' : List Val} {r : Out × St}
    (he : Evals F e s (.val (.vec l), s)) (he' : Evals F e' s (.val (.vec l'), s))
    (h : Ev (fun n => forEach (fun z =>
      match z with
      | .pair z z' => (b.eval (F.ctx n)).scoped [(w', z'), (w, z)]
      | _ => fun _ => none) ((l.zip l').map (fun p => .pair p.1 p.2)) s = some r)) :
    Evals F (.forZip w w' e e' b) s r := by
  refine ((he.and he').and h).mono fun n ⟨⟨he, he'⟩, h⟩ => ?_
  simp only [Ex.eval, M.bind, he, he']
  exact h

include H in
theorem array_ser {ns : Namespace} {s : Schema} {rg : SourceRange} {inner : TypeVariant} {c : NCTy}
    (h : NamedType T S ns s inner (.comp c)) (hq : SerT P inner (.comp c)) : SerT P (.array rg inner) (.comp (.array c)) := by
  intro F hF isField m env out rds rest r hp ha hw hr
  have hp := hp (by simp)
  have ha := ha rfl
  change List (CTy.Msg .out c.erase) at m
  have hs := sized_comp h
  simp only [NTy.enc, NCTy.enc] at hp
  simp only [NTy.encAtlas, NCTy.encAtlas, NTy.atlasOf, NCTy.erase, CTy.atlas] at ha
  have key := Ev.forZip (f := fun n z => match z with
      | .pair z z' => ((tryThen (.runtime F.t.1.length .serializeVarint (args [.asU64 (atlasLookup inner), v .writer]))
          (serializationInvocation F.t.1.length false .done inner)).eval (F.ctx n)).scoped [(.payloadAtlas, z'), (.payload, z)]
      | _ => fun _ => none)
    (c.enc .out) c.encAtlas (c.erase.atlas false)
    (fun x => serializeVarint (UInt64.ofNat (CTy.enc false c.erase x).length) ++ CTy.enc false c.erase x) env rds m out (by
      intro a _ out
      refine ⟨.unit, ?_⟩
      let env' := (Var.payloadAtlas, c.encAtlas (c.erase.atlas false a)) :: (Var.payload, c.enc .out a) :: env
      have h1 := atlasLookup_eval H hF h (c.erase.atlas false a) (env := env') out rds (by simp [env', NTy.encAtlas])
      have h2 := hq F hF false a env' (out ++ serializeVarint (UInt64.ofNat (CTy.enc false c.erase a).length)) rds .done
        (.val .unit, ⟨env', out ++ (serializeVarint (UInt64.ofNat (CTy.enc false c.erase a).length) ++ CTy.enc false c.erase a), rds⟩)
        (fun _ => by simp [NTy.enc, env']) (fun _ => by simp [env', NTy.encAtlas, NTy.atlasOf]) (by simp [hw, env'])
        (.of fun n => by simp [Ex.eval, NTy.encOf])
      have e : (NTy.comp c).erase.atlasSize (c.erase.atlas false a) = (CTy.enc false c.erase a).length :=
        (CTy.serWith_atlas false c.erase a).2
      rw [e] at h1
      refine (h1.and h2).mono fun n ⟨h1, h2⟩ => ?_
      refine scoped_ok (bs := [(.payloadAtlas, c.encAtlas (c.erase.atlas false a)), (.payload, c.enc .out a)]) ?_
      show _ = some (Out.val .unit, St.mk env' _ _)
      rw [← h2]
      simp [Ex.eval, Args.eval, h1, hw, env'])
  have main := forZip_eval (e := (v .payload).m .iter) (e' := .method (.snd (v .payloadAtlas)) .iter .nil)
    (.of fun n => by simp [Ex.eval, Args.eval, hp]) (.of fun n => by simp [Ex.eval, Args.eval, ha]) key
  refine (main.and hr).mono fun n ⟨main, hr⟩ => ?_
  simp only [serializationInvocation, hs, if_true]
  rw [Ex.eval]
  simp only [M.bind, main]
  exact hr

theorem custom_ser {i : Option Identifier} {n : Identifier} {c : NCTy} (hq : SerC P c) : SerT P (.custom i n) (.comp c) := by
  intro F hF isField m env out rds rest r hp ha hw hr
  have hp := hp (by simp)
  have ha := ha rfl
  simp only [NTy.enc] at hp
  simp only [NTy.encAtlas, NTy.atlasOf] at ha
  refine ((hq F.lim isField m env out rds).and hr).mono fun n ⟨h, hr⟩ => ?_
  simp only [serializationInvocation, tryThen, v, args, Ex.eval, M.bind, M.get, hp, ha, hw, Option.map_some, Args.eval, Fam.ctx_call, hF, h,
    M.pure]
  exact hr

include H in
theorem headerThen_eval {F : Fam} (hF : F.P = P) {ns : Namespace} {s : Schema} {f : Field} {t : NTy}
    (h : NamedType T S ns s f.type.variant t) (hi : f.index < 2 ^ 64) (a : t.erase.Atlas) {env : List (Var × Val)} (out : Bytes)
    (rds : List Bytes) {rest : Ex} {r : Out × St} (ha : lookup .payloadAtlas env = some (t.encAtlas a))
    (hw : lookup .writer env = some .writer)
    (hr : Evals F rest ⟨env, out ++ serializeFieldHeader f.index (t.erase.atlasSize a) t.erase.integerEncoded, rds⟩ r) :
    Evals F (headerThen F.t.1.length f rest) ⟨env, out, rds⟩ r := by
  refine ((atlasLookup_eval H hF h a (env := env) out rds ha).and hr).mono fun n ⟨h', hr⟩ => ?_
  simp only [headerThen, tryThen, v, args, Ex.eval, Fam.ctx_mod, if_true, Args.eval]
  simp only [M.bind, M.get, hw, Option.map_some, M.pure, Lit.val, h', RuntimeFn.run, M.write, toNat_index hi, h.integerEncoded]
  exact hr

include H in
theorem structSer_eval {F : Fam} (hF : F.P = P) {ns : Namespace} {s : Schema} (t t' : TypeId) (L L' : List (Str × Val))
    (env : List (Var × Val)) (rds : List Bytes) (hs : lookup .self env = some (.struct t L))
    (ha : lookup .atlas env = some (.struct t' L')) (hw : lookup .writer env = some .writer) {l : List Field} {fs : NFields} :
    FieldsHave T (fun tv t => NamedType T S ns s tv t ∧ SerT P tv t) l fs → (∀ f ∈ l, f.index < 2 ^ 64) →
    (m : fs.erase.Struct .out) → (out : Bytes) →
    (∀ n y, (n, y) ∈ fs.encStruct .out m → member n L = some y) →
    (∀ n y, (n, y) ∈ fs.encAtlasStruct (fs.erase.structAtlas m).2 → member n L' = some y) →
    Evals F (structSerialize F.t.1.length l) ⟨env, out, rds⟩ (.val (.ok .unit), ⟨env, out ++ fs.erase.encStruct m, rds⟩)
  | .nil, hi, m, out, hL, hL' => .of fun n => by
    simp [structSerialize, Ex.eval, Args.eval, NFields.erase, Fields.encStruct]
  | .cons (f := f) (t := t) (l := l') (fs := Fs) ⟨h1, hq⟩ h2, hi, m, out, hL, hL' => by
    have hi0 := hi f List.mem_cons_self
    have hm : member (rustSnake f.name) L = some (encSlot (t.enc .out) (f.rule.mayOmit .out) m.1) := hL _ _ List.mem_cons_self
    have hm' : member (rustSnake f.name) L' = some (encSlot t.encAtlas (f.rule.mayOmit .out) (Slot.map t.erase.atlas m.1)) :=
      hL' _ _ List.mem_cons_self
    have ih := fun out => structSer_eval hF _ _ L L' env rds hs ha hw h2 (fun g hg => hi g (List.mem_cons_of_mem _ hg)) m.2 out
      (fun n y h => hL n y (List.mem_cons_of_mem _ h)) (fun n y h => hL' n y (List.mem_cons_of_mem _ h))
    have key : ∀ (p : t.erase.Msg .out) (env : List (Var × Val)), lookup .payload env = some (t.enc .out p) →
        lookup .payloadAtlas env = some (t.encAtlas (t.erase.atlas p)) → lookup .writer env = some .writer →
        Evals F (headerThen F.t.1.length f (serializationInvocation F.t.1.length true .done f.type.variant)) ⟨env, out, rds⟩
          (.val .unit, ⟨env, out ++ wireField f.index t.erase.integerEncoded (t.erase.enc p), rds⟩) := by
      intro p env he ha hw
      refine headerThen_eval H hF h1 hi0 (t.erase.atlas p) out rds ha hw ?_
      refine hq F hF true p env _ rds .done _ (fun _ => he) (fun _ => by rw [NTy.atlasOf_true]; exact ha) hw (.of fun n => ?_)
      simp [Ex.eval, wireField, (Ty.serWith_atlas t.erase p).2, NTy.encOf_true]
    have main : ∀ (e : Ex) (b : Bytes), Evals F e ⟨env, out, rds⟩ (.val .unit, ⟨env, out ++ b, rds⟩) →
        b ++ Fs.erase.encStruct m.2 = Fields.encStruct (.cons f.index f.rule t.erase Fs.erase) m →
        Evals F (.seq e (.blank (structSerialize F.t.1.length l'))) ⟨env, out, rds⟩
          (.val (.ok .unit), ⟨env, out ++ Fields.encStruct (.cons f.index f.rule t.erase Fs.erase) m, rds⟩) := by
      intro e b he hb
      refine (he.and (ih (out ++ b))).mono fun n ⟨he, ih⟩ => ?_
      rw [← hb]
      simp [Ex.eval, he, ih]
    obtain ⟨sr, cm, rule, nm, ty, idx⟩ := f
    have fixed : ∀ p : t.erase.Msg .out, member (rustSnake nm) L = some (t.enc .out p) →
        member (rustSnake nm) L' = some (t.encAtlas (t.erase.atlas p)) →
        Evals F (.block (let' .payload (.ref (.field (v .self) (rustSnake nm)))
           (let' .payloadAtlas (.ref (.field (v .atlas) (rustSnake nm)))
             (headerThen F.t.1.length ⟨sr, cm, rule, nm, ty, idx⟩
               (serializationInvocation F.t.1.length true .done ty.variant))))) ⟨env, out, rds⟩
          (.val .unit, ⟨env, out ++ wireField idx t.erase.integerEncoded (t.erase.enc p), rds⟩) := by
      intro p hm hm'
      refine (key p ((.payloadAtlas, t.encAtlas (t.erase.atlas p)) :: (.payload, t.enc .out p) :: env) (by simp) (by simp)
        (by simp [hw])).mono fun n h => ?_
      simp [Ex.eval, hs, ha, Val.field, hm, hm', h]
    cases rule with
    | optional =>
      match m, hm, hm', ih, main with
      | (none, m), hm, hm', ih, main =>
        refine main _ [] (.of fun n => ?_) rfl
        simp [Ex.eval, hs, ha, Val.field, hm, hm', encSlot, Rule.mayOmit, Slot.map]
      | (some p, m), hm, hm', ih, main =>
        refine main _ (wireField idx t.erase.integerEncoded (t.erase.enc p))
          ((key p ((.payloadAtlas, t.encAtlas (t.erase.atlas p)) :: (.payload, t.enc .out p) :: env) (by simp) (by simp)
            (by simp [hw])).mono fun n h => ?_) rfl
        simp [Ex.eval, hs, ha, Val.field, hm, hm', encSlot, Rule.mayOmit, Slot.map, h]
    | required =>
      obtain ⟨a, m⟩ := m
      change t.erase.Msg .out at a
      exact main _ _ (fixed a hm hm') rfl
    | asymmetric =>
      obtain ⟨a, m⟩ := m
      change t.erase.Msg .out at a
      exact main _ _ (fixed a hm hm') rfl

/-- The fallback of a variant: its value, its atlas, its bytes. -/
inductive SerFallback (lim : Nat) (P : Prog) : Bool → List Val → List Val → Bytes → Prop
  | none : SerFallback lim P false [] [] []
  | some {x a b} : (∀ env out rds, Ev (fun k => Method.run (callFn lim P k) .serializeWithAtlas x [.writer, a] ⟨env, out, rds⟩ =
      some (.val (.ok .unit), ⟨env, out ++ b, rds⟩))) → SerFallback lim P true [x] [a] b

theorem SerFallback.length {lim : Nat} {P : Prog} {fb : Bool} {x a : List Val} {b : Bytes} (h : SerFallback lim P fb x a b) :
    x.length = if fb then 1 else 0 := by
  cases h <;> rfl

include H in
/-- The arms of a choice's `serialize_with_atlas`. -/
theorem serArms_eval {F : Fam} (hF : F.P = P) {ns : Namespace} {s : Schema} {fb : Bool} {fbv fba : List Val} {extra : Bytes}
    (hfb : SerFallback F.lim P fb fbv fba extra) (d : Declaration) (k : Nat) (env : List (Var × Val)) (out : Bytes) (rds : List Bytes)
    (hw : lookup .writer env = some .writer) {l : List Field} {fs : NFields} :
    FieldsHave T (fun tv t => NamedType T S ns s tv t ∧ SerT P tv t) l fs → fs.variants.Nodup → (∀ f ∈ l, f.index < 2 ^ 64) →
    (p : fs.erase.Sel .out fb) →
    Ev (fun n => (choiceSerializeArms T F.t.1.length d l).eval (F.ctx n)
      (.pair (.variant (F.t.1, rustPascal T d.name (some .out)) (fs.encSel .out p).1 ((fs.encSel .out p).2 ++ fbv))
        (.variant (F.t.1, rustPascal T d.name (some .atlas)) (fs.encAtlasSel (fs.erase.selAtlas p).2).1
          (.usize k :: ((fs.encAtlasSel (fs.erase.selAtlas p).2).2 ++ fba)))) ⟨env, out, rds⟩ =
      some (.val (.ok .unit), ⟨env, out ++ (fs.erase.encSel p ++ extra), rds⟩))
  | .nil, _, _, p => p.elim
  | .cons (f := f) (t := t) (l := l') (fs := Fs) ⟨h1, hq⟩ h2, hn, hi, .inl p => by
    have hok := p.ok
    have hreq := required_iff f.rule
    have hi0 := hi f List.mem_cons_self
    let A := t.erase.atlas p.val
    obtain ⟨bs', hb', ha1, ha2, ha3⟩ : ∃ bs', bindAll ([none, some .payloadAtlas] ++ (if f.rule = .required then [] else [some .fallbackAtlas]))
        (.usize k :: ([t.encAtlas A] ++ fba)) = some bs' ∧ lookup .payloadAtlas (bs' ++ env) = some (t.encAtlas A) ∧
        (∀ x ∈ fba, lookup .fallbackAtlas (bs' ++ env) = some x) ∧ lookup .writer (bs' ++ env) = some .writer := by
      cases hfb with
      | none => exact ⟨[(.payloadAtlas, t.encAtlas A)], by simp [hreq.mpr hok, bindAll], by simp, by simp, by simp [hw]⟩
      | @some x a b _ =>
        have : f.rule ≠ .required := fun g => by rw [hreq.mp g] at hok; cases hok
        exact ⟨[(.payloadAtlas, t.encAtlas A), (.fallbackAtlas, a)], by simp [this, bindAll], by simp, by simp, by simp [hw]⟩
    obtain ⟨bs, hb, hb1, hb2, hb3⟩ := bind_out h1 p fbv hfb.length (bs' ++ env)
    have b1 : lookup .payloadAtlas (bs ++ (bs' ++ env)) = some (t.encAtlas A) := by rw [hb3 _ (by simp) (by simp), ha1]
    have b3 : lookup .writer (bs ++ (bs' ++ env)) = some .writer := by rw [hb3 _ (by simp) (by simp), ha3]
    have hend : Evals F (if f.rule = .required then .std .ok (args [.lit .unit])
         else .method (v .fallback) .serializeWithAtlas (args [v .writer, v .fallbackAtlas]))
        ⟨bs ++ (bs' ++ env), out ++ wireField f.index t.erase.integerEncoded (t.erase.enc p.val), rds⟩
        (.val (.ok .unit), ⟨bs ++ (bs' ++ env), out ++ (wireField f.index t.erase.integerEncoded (t.erase.enc p.val) ++ extra), rds⟩) := by
      cases hfb with
      | none =>
        rw [if_pos (hreq.mpr hok)]
        exact .of fun n => by simp [Ex.eval, Args.eval]
      | @some x a b hx =>
        rw [if_neg (fun g => by rw [hreq.mp g] at hok; cases hok)]
        have c1 := hb2 x (by simp)
        have c2 : lookup .fallbackAtlas (bs ++ (bs' ++ env)) = some a := by rw [hb3 _ (by simp) (by simp)]; exact ha2 a (by simp)
        refine (hx (bs ++ (bs' ++ env)) (out ++ wireField f.index t.erase.integerEncoded (t.erase.enc p.val)) rds).mono fun n h => ?_
        simp only [Ex.eval, Args.eval, args, v, M.bind, M.get, c1, c2, b3, Option.map_some, Fam.ctx_call, hF, h, List.append_assoc]
    have main : Evals F (headerThen F.t.1.length f (serializationInvocation F.t.1.length true
        (if f.rule = .required then .std .ok (args [.lit .unit])
         else .method (v .fallback) .serializeWithAtlas (args [v .writer, v .fallbackAtlas])) f.type.variant))
        ⟨bs ++ (bs' ++ env), out, rds⟩
        (.val (.ok .unit), ⟨bs ++ (bs' ++ env), out ++ (wireField f.index t.erase.integerEncoded (t.erase.enc p.val) ++ extra), rds⟩) := by
      refine headerThen_eval H hF h1 hi0 A out rds b1 b3 ?_
      refine hq F hF true p.val _ _ rds _ _ hb1 (fun _ => by rw [NTy.atlasOf_true]; exact b1) b3 ?_
      rw [NTy.encOf_true, List.append_assoc, (Ty.serWith_atlas t.erase p.val).2]
      exact hend
    refine main.mono fun n h => ?_
    rw [encSel_inl]
    have hpat : Pat.run F.t.1 (.variants (rustPascal T d.name (some .out)) (rustPascal T f.name none) (outBinders f)
        (rustPascal T d.name (some .atlas)) (rustPascal T f.name none)
        ([none, some .payloadAtlas] ++ (if f.rule = .required then [] else [some .fallbackAtlas])))
        (.pair (.variant (F.t.1, rustPascal T d.name (some .out)) (rustPascal T f.name none) (t.encPayload .out p.val ++ fbv))
        (.variant (F.t.1, rustPascal T d.name (some .atlas)) (rustPascal T f.name none) (.usize k :: ([t.encAtlas A] ++ fba)))) =
        some (some (bs ++ bs')) := by
      rw [Pat.run, if_pos ⟨rfl, rfl⟩, if_pos ⟨rfl, rfl⟩, hb, hb']
    have e : NFields.encAtlasSel (.cons (fieldName T f) f.index f.rule t Fs)
        (Fields.selAtlas (.cons f.index f.rule t.erase Fs.erase) (.inl p)).2 = (rustPascal T f.name none, [t.encAtlas A]) := rfl
    simp only [choiceSerializeArms, Arms.eval, Fam.ctx_mod, fieldName]
    simp only [fieldName] at e
    have e' : Fields.encSel (.cons f.index f.rule t.erase Fs.erase) (.inl p) = wireField f.index t.erase.integerEncoded (t.erase.enc p.val) := rfl
    simp only [NFields.erase, e, hpat, e', Ex.eval]
    exact scoped_ok (bs := bs ++ bs') (by simpa only [List.append_assoc] using h)
  | .cons (f := f) (t := t) (l := l') (fs := Fs) ⟨h1, hq⟩ h2, hn, hi, .inr p => by
    have hm := encSel_mem Fs p
    have hn' := List.nodup_cons.mp hn
    have hne : (Fs.encSel .out p).1 ≠ rustPascal T f.name none := fun g => hn'.1 (show rustPascal T f.name none ∈ _ from g ▸ hm)
    refine (serArms_eval hF hfb d k env out rds hw h2 hn'.2 (fun g hg => hi g (List.mem_cons_of_mem _ hg)) p).mono fun n h => ?_
    rw [encSel_inr]
    simp only [choiceSerializeArms, Arms.eval, Pat.run, Fam.ctx_mod, hne, false_and, if_false, true_and, and_true, if_true]
    exact h

include H in
theorem struct_ser {k : List Str × Str} {ns : Namespace} {sc : Schema} {d : Declaration} {fs : NFields}
    (hd : S.Declares k ns sc d) (hv : d.variant = .struct) (hf : NamedFields T S ns sc d.fields fs)
    (hfq : FieldsHave T (fun tv t => NamedType T S ns sc tv t ∧ SerT P tv t) d.fields fs) :
    SerC P (.struct (declName T ns d) fs) := by
  rintro lim isField m env out rds
  change fs.erase.Struct .out at m
  obtain ⟨ns', h1, h2, h3, h4, h5, h6⟩ := H _ _ _ _ hd
  have h2 := h2 .serializeWithAtlas
  have hn' := List.nodup_cons.mp (h4 hv)
  have hs : ns'.components.length = (top lim P ((declName T ns d).id .out)).t.1.length := by
    show _ = (ns.components.map rustSnake).length
    rw [← h1, List.length_map]
  simp only [DeclCode.body, declCode, hv, hs] at h2
  have hnm : fs.members.Nodup := by rw [hf.members]; exact hn'.2
  have hL := member_spec (fs.encStruct .out m) (by rw [encStruct_names]; exact hnm)
  have hL' : ∀ n y, (n, y) ∈ fs.encAtlasStruct (fs.erase.structAtlas m).2 →
      member n (("_size".toList, .usize (fs.erase.structAtlas m).1) :: fs.encAtlasStruct (fs.erase.structAtlas m).2) = some y := by
    intro n y h
    refine member_spec _ ?_ n y (List.mem_cons_of_mem _ h)
    rw [List.map_cons, encAtlasStruct_names, hf.members]
    exact h4 hv
  have key := structSer_eval H (F := top lim P ((declName T ns d).id .out)) rfl ((declName T ns d).id .out) ((declName T ns d).id .atlas)
    (fs.encStruct .out m) (("_size".toList, .usize (fs.erase.structAtlas m).1) :: fs.encAtlasStruct (fs.erase.structAtlas m).2)
    [(.self, (NCTy.struct (declName T ns d) fs).enc .out m), (.writer, .writer),
      (.atlas, (NCTy.struct (declName T ns d) fs).encAtlas (CTy.atlas isField (.struct fs.erase) m))] rds
    rfl rfl rfl hfq h6 m out hL hL'
  exact Calls.intro h2 key (.val _)

include H in
theorem choice_ser {k : List Str × Str} {ns : Namespace} {sc : Schema} {d : Declaration} {fs : NFields}
    (hd : S.Declares k ns sc d) (hv : d.variant = .choice) (hf : NamedFields T S ns sc d.fields fs)
    (hfq : FieldsHave T (fun tv t => NamedType T S ns sc tv t ∧ SerT P tv t) d.fields fs) :
    SerC P (.choice (declName T ns d) fs) := by
  intro lim isField m env out rds
  obtain ⟨ns', h1, h2, h3, h4, h5, h6⟩ := H _ _ _ _ hd
  have h2 := h2 .serializeWithAtlas
  have hs : ns'.components.length = (top lim P ((declName T ns d).id .out)).t.1.length := by
    show _ = (ns.components.map rustSnake).length
    rw [← h1, List.length_map]
  simp only [DeclCode.body, declCode, hv, hs] at h2
  have hn : fs.variants.Nodup := by rw [hf.variants]; exact h5 hv
  have arms := fun {fb fbv fba extra} (hfb : SerFallback lim P fb fbv fba extra) k env out rds hw p =>
    serArms_eval H (F := top lim P ((declName T ns d).id .out)) rfl hfb d k env out rds hw hfq hn h6 p
  change Chain (fs.erase.Sel .out true) (fs.erase.Sel .out false) at m
  induction m generalizing env out rds with
  | last b =>
    let env' : List (Var × Val) := [(.self, (NCTy.choice (declName T ns d) fs).enc .out (.last b)), (.writer, .writer),
      (.atlas, (NCTy.choice (declName T ns d) fs).encAtlas (CTy.atlas isField (NCTy.choice (declName T ns d) fs).erase (.last b)))]
    have key := arms .none (fs.erase.selAtlas b).1 env' out rds rfl b
    refine Calls.intro (env' := env') h2 (key.mono fun n h => ?_) (.val _)
    simp only [List.append_nil] at h
    simp only [Ex.eval, v, M.bind, M.get, M.pure, Fn.params, List.zip_cons_cons, List.zip_nil_left, lookup, if_true, Option.map_some,
      reduceCtorEq, if_false]
    exact h
  | more a rest ih =>
    let env' : List (Var × Val) := [(.self, (NCTy.choice (declName T ns d) fs).enc .out (.more a rest)), (.writer, .writer),
      (.atlas, (NCTy.choice (declName T ns d) fs).encAtlas (CTy.atlas isField (NCTy.choice (declName T ns d) fs).erase (.more a rest)))]
    have key := arms (.some (fun env out rds => ih env out rds)) ((fs.erase.selAtlas a).1 +
      CTy.atlasSize (NCTy.choice (declName T ns d) fs).erase (CTy.atlas isField (NCTy.choice (declName T ns d) fs).erase rest))
      env' out rds rfl a
    refine Calls.intro (env' := env') h2 (key.mono fun n h => ?_) (.val _)
    simp only [Ex.eval, v, M.bind, M.get, M.pure, Fn.params, List.zip_cons_cons, List.zip_nil_left, lookup, if_true, Option.map_some,
      reduceCtorEq, if_false]
    refine Eq.trans ?_ h
    congr 2
    exact encAtlas_more isField (declName T ns d) fs a rest

include H in
/-- The `serialize_with_atlas` method. -/
theorem Named.ser {k : List Str × Str} {c : NCTy} (h : Named T S k c) : SerC P c :=
  Named.induct (QC := SerC P) (QT := fun _ _ tv t => SerT P tv t)
    (fun _ _ _ _ _ hd hv hf hq => struct_ser H hd hv hf hq)
    (fun _ _ _ _ _ hd hv hf hq => choice_ser H hd hv hf hq)
    (fun _ _ => unit_ser) (fun _ _ _ _ h => scalar_ser h.isScalar) (fun _ _ => bytes_ser) (fun _ _ => string_ser)
    (fun _ _ r => units_ser r) (fun _ _ _ _ _ h _ => scalars_ser h) (fun _ _ _ _ _ h hq => array_ser H h hq)
    (fun _ _ _ _ _ _ _ _ hq => custom_ser hq) h

include H in
/-- `Serialize::size`. -/
theorem Named.traitSize {k : List Str × Str} {c : NCTy} (h : Named T S k c) (lim : Nat) (t : TypeId) (m : c.erase.Msg .out)
    (env : List (Var × Val)) (out : Bytes) (rds : List Bytes) (he : lookup .self env = some (c.enc .out m))  (hb : size c.erase m < 2 ^ 64) :
    Evals (top lim P t) traitSize ⟨env, out, rds⟩ (.val (.usize (size c.erase m)), ⟨env, out, rds⟩) := by
  have h1 := Named.atlas H h lim false m ⟨env, out, rds⟩ hb
  have h2 := size_method H lim h (c.erase.atlas false m) ⟨env, out, rds⟩
  refine (h1.and h2).mono fun n ⟨h1, h2⟩ => ?_
  simp only [Gen.traitSize, Ex.eval, M.bind, M.get, he, Option.map_some, Args.eval, Fam.ctx_call, top, h1, h2]
  rfl

include H in
/-- `Serialize::serialize`. -/
theorem Named.traitSerialize {k : List Str × Str} {c : NCTy} (h : Named T S k c) (lim : Nat) (t : TypeId) (m : c.erase.Msg .out)
    (env : List (Var × Val)) (out : Bytes) (rds : List Bytes) (he : lookup .self env = some (c.enc .out m))
    (hw : lookup .writer env = some .writer)  (hb : size c.erase m < 2 ^ 64) :
    Evals (top lim P t) traitSerialize ⟨env, out, rds⟩ (.val (.ok .unit), ⟨env, out ++ c.erase.enc false m, rds⟩) := by
  have h1 := Named.atlas H h lim false m ⟨env, out, rds⟩ hb
  have h2 := Named.ser H h lim false m ((.atlas, c.encAtlas (c.erase.atlas false m)) :: env) out rds
  refine (h1.and h2).mono fun n ⟨h1, h2⟩ => ?_
  simp only [Gen.traitSerialize, Ex.eval, M.bind, M.get, he, hw, Option.map_some, Args.eval, Fam.ctx_call, top, h1, h2, M.scoped,
    List.cons_append, List.nil_append, lookup, if_true, if_false, reduceCtorEq]
  rfl

end

end Typical.Gen

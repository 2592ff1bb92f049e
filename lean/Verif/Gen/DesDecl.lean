import Verif.Gen.DesStruct
import Verif.FootprintLemmas

/-!
# Helper: the generated `deserialize_from_reader_ref` functions
-/

namespace Typical.Gen

theorem Err.out_ends (e : Err) : Ends e.out e.fnOut := by cases e <;> constructor

section
variable {T : CharTable} {S : Schemas} {P : Prog} {ns : Namespace} {sch : Schema}

theorem structSlots_eval {F : Fam} {ns' : Namespace} {rest : Ex} {out : Bytes} {rds : List Bytes} {o : Out} :
    ∀ {fl : List Field} {fs : NFields}, NamedFields T S ns sch fl fs → ∀ (env : List (Var × Val)) (st : St),
    Evals F rest ⟨fs.slotsEnv fs.erase.emptySlots env, out, rds⟩ (o, st) →
    ∃ st' : St, st'.out = st.out ∧ st'.readers = st.readers ∧ Evals F (structSlots T sch ns' rest fl) ⟨env, out, rds⟩ (o, st')
  | _, _, .nil, env, st, h => ⟨st, rfl, rfl, h⟩
  | _, _, .cons (f := f) (t := t) (Fs := Fs) h1 h2, env, st, h => by
    obtain ⟨st', e1, e2, h⟩ := structSlots_eval (ns' := ns') h2 ((fieldVar f, .none) :: env) st h
    refine ⟨{ st' with env := st'.env.drop 1 }, e1, e2, h.mono fun n h => ?_⟩
    simp only [structSlots, Ex.eval, M.scoped, List.cons_append, List.nil_append, h]
    rfl

/-- The check for missing fields, and the result. -/
def structEnd (T : CharTable) (supers : Nat) (d : Declaration) : Ex :=
  let result := Ex.std .ok (args [.structLit (rustPascal T d.name (some .in_)) (inits (d.fields.map (fun f =>
    (rustSnake f.name, if f.rule = .required then (v (fieldVar f)).m .unwrap else v (fieldVar f)))))])
  if (d.fields.filter (fun f => f.rule == .required)).isEmpty then result else
    .seq (.ifThen (.orLines (args ((d.fields.filter (fun f => f.rule == .required)).map (fun f => (v (fieldVar f)).m .isNone))))
      (.seq (.return_ (.errMissing supers)) .done)) (.blank result)

theorem structEnd_ok {F : Fam} {d : Declaration} {fs : NFields} (hf : NamedFields T S ns sch d.fields fs) (os : fs.erase.Slots)
    (m : fs.erase.Struct .inn) (hm : fs.erase.finish os = some m) (st : St)
    (h : ∀ n x, (n, x) ∈ fs.slotList os → lookup (.field n) st.env = some x) :
    Evals F (structEnd T F.t.1.length d) st (.val (.ok (.struct (F.t.1, rustPascal T d.name (some .in_)) (fs.encStruct .inn m))), st) := by
  have hmiss : fs.missing os = false := by
    cases hb : fs.missing os with
    | false => rfl
    | true => rw [(finish_missing fs os).mpr hb] at hm; cases hm
  have hres : Evals F (.std .ok (args [.structLit (rustPascal T d.name (some .in_)) (inits (d.fields.map (fun f =>
      (rustSnake f.name, if f.rule = .required then (v (fieldVar f)).m .unwrap else v (fieldVar f)))))])) st
      (.val (.ok (.struct (F.t.1, rustPascal T d.name (some .in_)) (fs.encStruct .inn m))), st) := .of fun n => by
    simp only [Ex.eval, args, Args.eval, M.bind]
    rw [result_eval (F.ctx n) _ st hf os m hm h]
    simp only [M.pure, StdFn.run]
    rfl
  unfold structEnd
  simp only
  split
  · exact hres
  · refine Evals.seq (s' := st) (x := .unit) (.of fun n => ?_) hres.blank
    rw [Ex.eval, Ex.eval]
    simp only [M.bind]
    rw [missing_eval (F.ctx n) st hf os h, hmiss]
    rfl

theorem structEnd_missing {F : Fam} {d : Declaration} {fs : NFields} (hf : NamedFields T S ns sch d.fields fs) (os : fs.erase.Slots)
    (hm : fs.erase.finish os = none) (st : St)
    (h : ∀ n x, (n, x) ∈ fs.slotList os → lookup (.field n) st.env = some x) :
    Evals F (structEnd T F.t.1.length d) st (.ret (.err .invalidData), st) := by
  have hmiss := (finish_missing fs os).mp hm
  have hor := fun n => missing_eval (F.ctx n) st hf os h
  unfold structEnd
  simp only
  split
  · next he =>
    rw [List.isEmpty_iff.mp he] at hor
    have := hor 0
    rw [hmiss] at this
    simp only [List.map_nil, args, Args.or, M.pure] at this
    cases this
  · refine Evals.seqOut (.of fun n => ?_) (by simp)
    rw [Ex.eval, Ex.eval]
    simp only [M.bind]
    rw [hor n, hmiss]
    simp only [Ex.eval]
    rw [if_pos (by rfl)]
    rfl

theorem struct_des (H : Implements T S P) {k : List Str × Str} {d : Declaration} {fs : NFields}
    (hd : S.Declares k ns sch d) (hv : d.variant = .struct) (hf : NamedFields T S ns sch d.fields fs)
    (hfq : FieldsHave T (fun tv t => NamedType T S ns sch tv t ∧ DesT T S P ns sch tv t) d.fields fs) :
    DesC P (.struct (declName T ns d) fs) := by
  intro lim isField n l s rds env out ha
  obtain ⟨ns', h1, h2, h3, h4, h5, h6⟩ := H _ _ _ _ hd
  have h2 := h2 .deserializeFromReaderRef
  have hn' := List.nodup_cons.mp (h4 hv)
  let F := top lim P ((declName T ns d).id .in_)
  have hs : ns'.components.length = F.t.1.length := by
    show _ = (ns.components.map rustSnake).length
    rw [← h1, List.length_map]
  simp only [DeclCode.body, declCode, hv, hs] at h2
  have hnm : fs.members.Nodup := by rw [hf.members]; exact hn'.2
  let base : List (Var × Val) := [(.reader, .reader (l.length + 1))]
  obtain ⟨l1, l2⟩ := structLoop_eval (F := F) rfl rfl (out := out) hfq (fun f hm => h3 f hm) hnm base (l := l) rfl (s.length + 1) s rds
    fs.erase.emptySlots ha
  have whole : ∀ {o : Out} {st : St}, Evals F (.seq (.loop (structRound T F.t.1.length sch ns' d.fields))
      (.blank (structEnd T F.t.1.length d))) ⟨fs.slotsEnv fs.erase.emptySlots base, out, rds⟩ (o, st) →
      ∃ st' : St, st'.out = st.out ∧ st'.readers = st.readers ∧
        Evals F (structDeserialize T F.t.1.length sch ns' d) ⟨base, out, rds⟩ (o, st') := by
    intro o st h
    by_cases he : d.fields.isEmpty = true
    · have e : structDeserialize T F.t.1.length sch ns' d = .seq (.loop (structRound T F.t.1.length sch ns' d.fields))
          (.blank (structEnd T F.t.1.length d)) := by
        unfold structDeserialize
        simp only [he, if_true]
        rfl
      rw [e]
      have hfs : fs = .nil := by
        have := List.isEmpty_iff.mp he
        rw [this] at hf
        cases hf
        rfl
      subst hfs
      exact ⟨st, rfl, rfl, h⟩
    · have e : structDeserialize T F.t.1.length sch ns' d = structSlots T sch ns' (.blank (.seq (.loop (structRound T F.t.1.length sch ns' d.fields))
          (.blank (structEnd T F.t.1.length d)))) d.fields := by
        unfold structDeserialize
        simp only [he]
        rfl
      rw [e]
      exact structSlots_eval hf base st h.blank
  have eq : CTy.deser lim isField (NCTy.struct (declName T ns d) fs).erase n s =
      (match structLoop (Fields.step lim fs.erase) (s.length + 1) s fs.erase.emptySlots with
      | .error e => .error e
      | .ok slots =>
        match fs.erase.finish slots with
        | none => .error .invalid
        | some m => .ok (m, [])) := by
    show CTy.deser lim isField (.struct fs.erase) n s = _
    rw [CTy.deser]
    cases structLoop (Fields.step lim fs.erase) (s.length + 1) s fs.erase.emptySlots with
    | error e => rfl
    | ok slots => cases hx : fs.erase.finish slots <;> simp only [hx] <;> rfl
  rw [eq]
  have hslots : ∀ os : fs.erase.Slots, ∀ n x, (n, x) ∈ fs.slotList os → lookup (.field n) (fs.slotsEnv os base) = some x :=
    fun os => slotsEnv_field fs os base hnm
  cases hl : structLoop (Fields.step lim fs.erase) (s.length + 1) s fs.erase.emptySlots with
  | error e =>
    refine ⟨fun m s' h => (by cases h), fun e' h hne => ?_⟩
    cases h
    obtain ⟨st, h⟩ := l2 e hl hne
    obtain ⟨st', _, _, h⟩ := whole (Evals.seqOut h.loop (Err.out_ne e))
    exact ⟨_, Calls.intro h2 h (Err.out_ends e)⟩
  | ok os =>
    have hlp := (l1 os hl).loop
    simp only
    cases hm : fs.erase.finish os with
    | none =>
      refine ⟨fun m s' h => (by cases h), fun e' h hne => ?_⟩
      cases h
      obtain ⟨st', _, _, h⟩ := whole (Evals.seq hlp (structEnd_missing hf os hm _ (hslots os)).blank)
      exact ⟨_, Calls.intro h2 h (.ret _)⟩
    | some m =>
      refine ⟨fun m' s' h => ?_, fun e' h => (by cases h)⟩
      cases h
      obtain ⟨st', e1, e2, h⟩ := whole (Evals.seq hlp (structEnd_ok hf os m hm _ (hslots os)).blank)
      obtain ⟨env', out', rds'⟩ := st'
      simp only at e1 e2
      subst e1 e2
      exact Calls.intro h2 h (.val _)

/-! ### Choices -/

theorem payloadArgs_eval {f : Field} {t : NTy} (h : NamedType T S ns sch f.type.variant t) (c : Ctx) (m : t.erase.Msg .inn) (tail : List Ex)
    (k : List Val → M) (st : St) (hp : lookup .payload st.env = some (t.enc .inn m)) :
    (args ((if f.type.variant = .unit then [] else [v .payload]) ++ tail)).eval c k st =
      (args tail).eval c (fun vs => k (t.encPayload .inn m ++ vs)) st := by
  by_cases hu : f.type.variant = .unit
  · obtain rfl := h.unit_iff.mp hu
    rw [if_pos hu]
    rfl
  · have hu' : t ≠ .unit := fun g => hu (h.unit_iff.mpr g)
    rw [if_neg hu]
    simp only [List.cons_append, List.nil_append, args, Args.eval, v, Ex.eval, M.bind, M.get, hp, Option.map_some]
    cases t with
    | unit => exact absurd rfl hu'
    | _ => rfl

/-- What follows the payload in the deserializer of a choice, without fallback. -/
theorem choiceResult_last {F : Fam} {d f : _} {t : NTy} (h : NamedType T S ns sch f.type.variant t) (hr : f.rule ≠ .optional)
    (m : t.erase.Msg .inn) {l : List Bytes} {b p : Bytes} {env : List (Var × Val)} {out : Bytes}
    (hre : lookup .reader env = some (.reader (l.length + 1))) (hp : lookup .payload env = some (t.enc .inn m)) :
    Evals F (choiceResult T F.t.1.length d f) ⟨env, out, b :: p :: l⟩
      (.ret (.ok (.variant (F.t.1, rustPascal T d.name (some .in_)) (rustPascal T f.name none) (t.encPayload .inn m))),
        ⟨env, out, [] :: l⟩) := by
  unfold choiceResult
  simp only [if_neg hr]
  refine Evals.seq (finish_eval rfl (Avail.sub l b p) (Evals.var hre).deref.refMut).tryOk (Evals.seqOut (Evals.ret (.of fun n => ?_)) (by simp))
  have := payloadArgs_eval h (F.ctx n) m [] (fun vs => M.pure (.variant (F.t.1, rustPascal T d.name (some .in_)) (rustPascal T f.name none) vs))
    ⟨env, out, [] :: l⟩ hp
  simp only [List.append_nil, args, Args.eval] at this
  simp only [Ex.eval, args, Args.eval, M.bind, Fam.ctx_mod]
  rw [this]
  rfl

theorem fallback_call {F : Fam} {name : Str} (hF : F.P = P) {w : TypeId} (hw : w = (F.t.1, name)) {l : List Bytes} {rds : List Bytes}
    {env : List (Var × Val)} {out : Bytes} (hre : lookup .reader env = some (.reader (l.length + 1))) {r : Out × St}
    (h : Calls F.lim P w .deserializeFromReaderRef [.reader (l.length + 1)] ⟨env, out, rds⟩ r) :
    Evals F (.deserialize ⟨0, [], name⟩ (.refMut (.deref (v .reader)))) ⟨env, out, rds⟩ r := by
  subst hw
  refine h.mono fun m h => ?_
  simp only [Ex.eval, v, M.bind, M.get, hre, Option.map_some, Fam.ctx_mod, Fam.ctx_call, hF]
  simp only [rustResolve, Nat.zero_le, if_true, Nat.sub_zero, List.take_length, List.append_nil]
  exact h

theorem choiceResult_more {F : Fam} {d f : _} {t : NTy} (hF : F.P = P) (h : NamedType T S ns sch f.type.variant t) (hr : f.rule = .optional)
    (m : t.erase.Msg .inn) {l : List Bytes} {rds : List Bytes} {env : List (Var × Val)} {out : Bytes}
    (hre : lookup .reader env = some (.reader (l.length + 1))) (hp : lookup .payload env = some (t.enc .inn m)) :
    (∀ w, Calls F.lim P (F.t.1, rustPascal T d.name (some .in_)) .deserializeFromReaderRef [.reader (l.length + 1)] ⟨env, out, rds⟩
        (.val (.ok w), ⟨env, out, [] :: l⟩) →
      Evals F (choiceResult T F.t.1.length d f) ⟨env, out, rds⟩
        (.ret (.ok (.variant (F.t.1, rustPascal T d.name (some .in_)) (rustPascal T f.name none) (t.encPayload .inn m ++ [w]))),
          ⟨env, out, [] :: l⟩)) ∧
    (∀ e st, e ≠ .fuel → Calls F.lim P (F.t.1, rustPascal T d.name (some .in_)) .deserializeFromReaderRef [.reader (l.length + 1)] ⟨env, out, rds⟩
        (e.fnOut, st) →
      Fails F (choiceResult T F.t.1.length d f) ⟨env, out, rds⟩ e) := by
  unfold choiceResult
  simp only [if_pos hr]
  refine ⟨fun w hc => ?_, fun e st hne hc => ?_⟩
  · have h1 := (fallback_call hF rfl hre hc).tryOk
    have h2 : Evals F (.std .boxNew (args [.try_ (.deserialize ⟨0, [], rustPascal T d.name (some .in_)⟩ (.refMut (.deref (v .reader))))]))
        ⟨env, out, rds⟩ (.val w, ⟨env, out, [] :: l⟩) := h1.mono fun n h1 => by
      rw [Ex.eval]
      simp only [args, Args.eval, M.bind, h1, StdFn.run, M.pure]
    refine Evals.letIn h2 (x' := w) (Evals.seqOut (Evals.ret (.of fun n => ?_)) (by simp))
    have := payloadArgs_eval h (F.ctx n) m [v .fallback] (fun vs => M.pure (.variant (F.t.1, rustPascal T d.name (some .in_)) (rustPascal T f.name none) vs))
      ⟨(.fallback, w) :: env, out, [] :: l⟩ (by simp [lookup, hp])
    simp only [args, Args.eval, v, Ex.eval, M.bind, M.get, lookup, if_true, Option.map_some] at this
    simp only [Ex.eval, args, Args.eval, M.bind, Fam.ctx_mod]
    erw [this]
    rfl
  · obtain ⟨s', h1⟩ := Fails.tryErr (fallback_call hF rfl hre hc) hne
    refine Fails.letIn ⟨s', h1.mono fun n h1 => ?_⟩
    rw [Ex.eval]
    simp only [args, Args.eval, M.bind, h1]
    cases e <;> rfl

/-- How the deserializer of a choice ends when it reads a variant; `w` and `e` stand for the result of reading the fallback. -/
theorem choiceArms_eval {F : Fam} (hF : F.P = P) (ht : F.t.1 = ns.components.map rustSnake) {ns' : Namespace} {d : Declaration} {i n : Nat}
    (hi : i < 2 ^ 64) (hn : n < 2 ^ 64) {l : List Bytes} {out : Bytes} {b p : Bytes} {base : List (Var × Val)}
    (hre : lookup .reader base = some (.reader (l.length + 1))) {fl : List Field} {fs : NFields} :
    FieldsHave T (fun tv t => NamedType T S ns sch tv t ∧ DesT T S P ns sch tv t) fl fs →
    (∀ f ∈ fl, RefsOk T S ns sch ns' f.type.variant) →
    (∀ x b', Fields.select F.lim fs.erase i n b = .ok (some (.inr x, b')) →
      Ev (fun m => (indexArms T F.t.1.length sch ns' (choiceResult T F.t.1.length d) fl).eval (F.ctx m) (.u64 (UInt64.ofNat i))
        ⟨armEnv (p :: l) i n ++ base, out, b :: p :: l⟩ = some (.ret (.ok (.variant (F.t.1, rustPascal T d.name (some .in_))
          (fs.encSel .inn x).1 (fs.encSel .inn x).2)), ⟨armEnv (p :: l) i n ++ base, out, [] :: l⟩))) ∧
    (∀ a b', Fields.select F.lim fs.erase i n b = .ok (some (.inl a, b')) →
      (∀ w, (∀ env, Calls F.lim P (F.t.1, rustPascal T d.name (some .in_)) .deserializeFromReaderRef [.reader (l.length + 1)]
          ⟨env, out, b' :: p :: l⟩ (.val (.ok w), ⟨env, out, [] :: l⟩)) →
        Ev (fun m => (indexArms T F.t.1.length sch ns' (choiceResult T F.t.1.length d) fl).eval (F.ctx m) (.u64 (UInt64.ofNat i))
          ⟨armEnv (p :: l) i n ++ base, out, b :: p :: l⟩ = some (.ret (.ok (.variant (F.t.1, rustPascal T d.name (some .in_))
            (fs.encSel .inn a).1 ((fs.encSel .inn a).2 ++ [w]))), ⟨armEnv (p :: l) i n ++ base, out, [] :: l⟩))) ∧
      (∀ e : Err, e ≠ .fuel → (∀ env, ∃ st, Calls F.lim P (F.t.1, rustPascal T d.name (some .in_)) .deserializeFromReaderRef
          [.reader (l.length + 1)] ⟨env, out, b' :: p :: l⟩ (e.fnOut, st)) →
        ∃ st, Ev (fun m => (indexArms T F.t.1.length sch ns' (choiceResult T F.t.1.length d) fl).eval (F.ctx m) (.u64 (UInt64.ofNat i))
          ⟨armEnv (p :: l) i n ++ base, out, b :: p :: l⟩ = some (e.out, st)))) ∧
    (Fields.select F.lim fs.erase i n b = .ok none → ∀ b', skip n b = .ok b' →
      Ev (fun m => (indexArms T F.t.1.length sch ns' (choiceResult T F.t.1.length d) fl).eval (F.ctx m) (.u64 (UInt64.ofNat i))
        ⟨armEnv (p :: l) i n ++ base, out, b :: p :: l⟩ = some (.val .unit, ⟨armEnv (p :: l) i n ++ base, out, b' :: p :: l⟩))) ∧
    (∀ e, (Fields.select F.lim fs.erase i n b = .error e ∨ Fields.select F.lim fs.erase i n b = .ok none ∧ skip n b = .error e) →
      e ≠ .fuel → ∃ st, Ev (fun m => (indexArms T F.t.1.length sch ns' (choiceResult T F.t.1.length d) fl).eval (F.ctx m) (.u64 (UInt64.ofNat i))
        ⟨armEnv (p :: l) i n ++ base, out, b :: p :: l⟩ = some (e.out, st)))
  | .nil, _ => by
    obtain ⟨s1, s2⟩ := skip_eval (F := F) hn (l := p :: l) (i := i) (n := n) (env := base) (out := out) (b := b)
    refine ⟨fun x b' h => (by cases h), fun x b' h => (by cases h), fun h b' hs => ?_, fun e h hne => ?_⟩
    · exact Arms.hit (bs := []) rfl (s1 b' hs)
    · rcases h with h | ⟨_, h⟩
      · cases h
      · exact Arms.hitFails (bs := []) rfl (s2 e h)
  | .cons (f := f) (t := t) (l := fl') (fs := Fs) ⟨hty, hq⟩ hrest, hrf => by
    have hpat : Pat.run F.t.1 (.int f.index) (.u64 (UInt64.ofNat i)) = some (if i = f.index then some [] else none) := by
      simp only [Pat.run, toNat_index hi]
    by_cases hif : i = f.index
    · have hst : Fields.select F.lim (NFields.cons (fieldName T f) f.index f.rule t Fs).erase i n b =
          (match Ty.deser F.lim t.erase n b with
          | .error e => .error e
          | .ok (v, s) => if h : f.rule.hasFallback .inn = true then .ok (some (.inl (.inl ⟨v, h⟩), s))
            else .ok (some (.inr (.inl ⟨v, Bool.not_eq_true _ ▸ h⟩), s))) := by
        show Fields.select F.lim (.cons f.index f.rule t.erase Fs.erase) i n b = _
        rw [Fields.select, if_pos hif]
        cases Ty.deser F.lim t.erase n b <;> rfl
      rw [hst, ← NTy.deserOf_true]
      let env := armEnv (p :: l) i n ++ base
      obtain ⟨q1, q2⟩ := hq F hF ht ns' (hrf f List.mem_cons_self) true n b (p :: l) env out (choiceResult T F.t.1.length d f)
        (by simp [env, armEnv, lookup]) (fun _ => by simp [env, armEnv, lookup])
      have hre' : ∀ bs : List (Var × Val), (∀ p ∈ bs, p.1 = Var.payload ∨ p.1 = Var.buffer) →
          lookup .reader (bs ++ env) = some (.reader (l.length + 1)) := by
        intro bs hbs
        rw [lookup_append_other (fun p hp g => by rcases hbs p hp with h | h <;> rw [h] at g <;> cases g)]
        simp [env, armEnv, lookup, hre]
      cases hd : t.deserOf F.lim true n b with
      | error e =>
        refine ⟨fun x b' h => (by cases h), fun x b' h => (by cases h), fun h => (by cases h), fun e' h hne => ?_⟩
        rcases h with h | ⟨h, _⟩
        · cases h
          exact Arms.hitFails (bs := []) (by rw [hpat, if_pos hif]) (Fails.block (q2 e hd hne))
        · cases h
      | ok r =>
        obtain ⟨m, b'⟩ := r
        simp only
        by_cases hfb : f.rule.hasFallback .inn = true
        · rw [dif_pos hfb]
          have hr : f.rule = .optional := by cases hx : f.rule <;> rw [hx] at hfb <;> first | rfl | cases hfb
          refine ⟨fun x b' h => (by cases h), fun a b'' h => ?_, fun h => (by cases h), fun e' h hne => (by rcases h with h | ⟨h, _⟩ <;> cases h)⟩
          cases h
          refine ⟨fun w hc => ?_, fun e hne hc => ?_⟩
          · obtain ⟨o', s', ⟨rfl, rfl⟩, q⟩ := q1 m b' hd (fun o' s' => o' = .ret (.ok (.variant (F.t.1, rustPascal T d.name (some .in_))
              (rustPascal T f.name none) (t.encPayload .inn m ++ [w]))) ∧ s' = ⟨env, out, [] :: l⟩) (by
              intro el bs hbs hp
              refine ⟨_, _, ⟨rfl, ?_⟩, (choiceResult_more (F := { F with el := el }) (d := d) hF hty hr m (hre' bs hbs) hp).1 w (hc _)⟩
              simp)
            rw [encSel_inl]
            exact Arms.hit (bs := []) (by rw [hpat, if_pos hif]) q.block
          · obtain ⟨o', s', rfl, q⟩ := q1 m b' hd (fun o' s' => o' = e.out) (by
              intro el bs hbs hp
              obtain ⟨st, hc⟩ := hc (bs ++ env)
              exact ((choiceResult_more (F := { F with el := el }) (d := d) hF hty hr m (hre' bs hbs) hp).2 e st hne hc).leads)
            exact Arms.hitFails (bs := []) (by rw [hpat, if_pos hif]) (Fails.block ⟨s', q⟩)
        · rw [dif_neg hfb]
          have hr : f.rule ≠ .optional := fun g => hfb (by rw [g]; rfl)
          refine ⟨fun x b'' h => ?_, fun a b'' h => (by cases h), fun h => (by cases h), fun e' h hne => (by rcases h with h | ⟨h, _⟩ <;> cases h)⟩
          cases h
          obtain ⟨o', s', ⟨rfl, rfl⟩, q⟩ := q1 m b' hd (fun o' s' => o' = .ret (.ok (.variant (F.t.1, rustPascal T d.name (some .in_))
              (rustPascal T f.name none) (t.encPayload .inn m))) ∧ s' = ⟨env, out, [] :: l⟩) (by
            intro el bs hbs hp
            refine ⟨_, _, ⟨rfl, ?_⟩, choiceResult_last (F := { F with el := el }) (d := d) hty hr m (hre' bs hbs) hp⟩
            simp)
          rw [encSel_inl]
          exact Arms.hit (bs := []) (by rw [hpat, if_pos hif]) q.block
    · have hst : Fields.select F.lim (NFields.cons (fieldName T f) f.index f.rule t Fs).erase i n b =
          (match Fields.select F.lim Fs.erase i n b with
          | .error e => .error e
          | .ok none => .ok none
          | .ok (some (.inl a, s)) => .ok (some (.inl (.inr a), s))
          | .ok (some (.inr a, s)) => .ok (some (.inr (.inr a), s))) := by
        show Fields.select F.lim (.cons f.index f.rule t.erase Fs.erase) i n b = _
        rw [Fields.select, if_neg hif]
        cases Fields.select F.lim Fs.erase i n b with
        | error e => rfl
        | ok r =>
          rcases r with _ | ⟨r | r, s⟩ <;> rfl
      rw [hst]
      obtain ⟨i1, i2, i3, i4⟩ := choiceArms_eval (d := d) hF ht hi hn (l := l) (out := out) (b := b) (p := p) (n := n) hre hrest
        (fun g hg => hrf g (List.mem_cons_of_mem _ hg))
      have hm := fun {r : Out × St} {st : St} (h : Ev (fun m => (indexArms T F.t.1.length sch ns' (choiceResult T F.t.1.length d) fl').eval (F.ctx m)
          (.u64 (UInt64.ofNat i)) st = some r)) => Arms.miss (p := .int f.index)
        (b := .block (deserializationInvocation T F.t.1.length sch ns' true (choiceResult T F.t.1.length d f) f.type.variant)) (by rw [hpat, if_neg hif]) h
      cases hr : Fields.select F.lim Fs.erase i n b with
      | error e =>
        refine ⟨fun x b' h => (by cases h), fun x b' h => (by cases h), fun h => (by cases h), fun e' h hne => ?_⟩
        rcases h with h | ⟨h, _⟩
        · cases h
          obtain ⟨st, h⟩ := i4 e (.inl hr) hne
          exact ⟨st, hm h⟩
        · cases h
      | ok r =>
        rcases r with _ | ⟨r | r, s⟩
        · refine ⟨fun x b' h => (by cases h), fun x b' h => (by cases h), fun h b' hs => hm (i3 hr b' hs), fun e' h hne => ?_⟩
          rcases h with h | ⟨_, h⟩
          · cases h
          · obtain ⟨st, h⟩ := i4 e' (.inr ⟨hr, h⟩) hne
            exact ⟨st, hm h⟩
        · refine ⟨fun x b' h => (by cases h), fun x b' h => ?_, fun h => (by cases h), fun e' h hne => (by rcases h with h | ⟨h, _⟩ <;> cases h)⟩
          cases h
          obtain ⟨j1, j2⟩ := i2 _ _ hr
          refine ⟨fun w hc => ?_, fun e hne hc => ?_⟩
          · rw [encSel_inr]
            exact hm (j1 w hc)
          · obtain ⟨st, h⟩ := j2 e hne hc
            exact ⟨st, hm h⟩
        · refine ⟨fun x b' h => ?_, fun x b' h => (by cases h), fun h => (by cases h), fun e' h hne => (by rcases h with h | ⟨h, _⟩ <;> cases h)⟩
          cases h
          rw [encSel_inr]
          exact hm (i1 _ _ hr)

/-- A round of the loop of a choice's deserializer. -/
def choiceRound (T : CharTable) (supers : Nat) (sch : Schema) (ns' : Namespace) (d : Declaration) : Ex :=
  .letPair .index .payloadSize (.try_ (.runtime supers .deserializeFieldHeader (args [.refMut (.deref (v .reader))])))
    (dispatch (indexArms T supers sch ns' (choiceResult T supers d) d.fields))

theorem choiceLoop_eval {lim : Nat} {d : Declaration} {ns' : Namespace} {F : Fam} (hFt : F = top lim P ((declName T ns d).id .in_))
    (hP : P ((declName T ns d).id .in_) .deserializeFromReaderRef = some (.loop (choiceRound T F.t.1.length sch ns' d))) {fs : NFields}
    (hq : FieldsHave T (fun tv t => NamedType T S ns sch tv t ∧ DesT T S P ns sch tv t) d.fields fs)
    (hrf : ∀ f ∈ d.fields, RefsOk T S ns sch ns' f.type.variant) {l : List Bytes} {out : Bytes} :
    ∀ (fuel : Nat) (b : Bytes) (rds : List Bytes), Avail (l.length + 1) l b rds →
      (∀ m, choiceLoop (Fields.select lim fs.erase) fuel b = .ok m →
        ∃ env', Loops F (choiceRound T F.t.1.length sch ns' d) ⟨[(.reader, .reader (l.length + 1))], out, rds⟩
          (.ret (.ok (encChain ((declName T ns d).id .in_) (fs.encSel .inn) (fs.encSel .inn) m)), ⟨env', out, [] :: l⟩)) ∧
      (∀ e, choiceLoop (Fields.select lim fs.erase) fuel b = .error e → e ≠ .fuel →
        ∃ st, Loops F (choiceRound T F.t.1.length sch ns' d) ⟨[(.reader, .reader (l.length + 1))], out, rds⟩ (e.out, st))
  | 0, _, _, _ => ⟨fun _ h => (by cases h), fun _ h hne => absurd (by cases h; rfl) hne⟩
  | fuel + 1, b, rds, ha => by
    rw [choiceLoop]
    have hlim : F.lim = lim := by rw [hFt]; rfl
    have hid : (F.t.1, rustPascal T d.name (some .in_)) = (declName T ns d).id .in_ := by rw [hFt]; rfl
    have hrd : Evals F (.refMut (.deref (v .reader))) ⟨[(.reader, .reader (l.length + 1))], out, rds⟩
        (.val (.reader (l.length + 1)), ⟨[(.reader, .reader (l.length + 1))], out, rds⟩) := (Evals.var (by simp [lookup])).deref.refMut
    have calls : ∀ b' rds', Avail (l.length + 1) l b' rds' →
        (∀ m, choiceLoop (Fields.select lim fs.erase) fuel b' = .ok m → ∀ env,
          Calls F.lim P (F.t.1, rustPascal T d.name (some .in_)) .deserializeFromReaderRef [.reader (l.length + 1)] ⟨env, out, rds'⟩
            (.val (.ok (encChain ((declName T ns d).id .in_) (fs.encSel .inn) (fs.encSel .inn) m)), ⟨env, out, [] :: l⟩)) ∧
        (∀ e, choiceLoop (Fields.select lim fs.erase) fuel b' = .error e → e ≠ .fuel → ∀ env, ∃ st,
          Calls F.lim P (F.t.1, rustPascal T d.name (some .in_)) .deserializeFromReaderRef [.reader (l.length + 1)] ⟨env, out, rds'⟩
            (e.fnOut, st)) := by
      intro b' rds' ha'
      obtain ⟨i1, i2⟩ := choiceLoop_eval hFt hP hq hrf (l := l) (out := out) fuel b' rds' ha'
      rw [hid, hlim]
      refine ⟨fun m h env => ?_, fun e h hne env => ?_⟩
      · obtain ⟨env', h⟩ := i1 m h
        rw [hFt] at h
        rw [hFt] at hP
        exact Calls.intro hP h.loop (.ret _)
      · obtain ⟨st, h⟩ := i2 e h hne
        rw [hFt] at h
        rw [hFt] at hP
        exact ⟨_, Calls.intro hP h.loop (Err.out_ends e)⟩
    cases hd : deserializeFieldHeader b with
    | none =>
      refine ⟨fun m h => (by cases h), fun e h hne => ?_⟩
      cases h
      exact ⟨_, Loops.ret (Evals.letPairOut (readHeader_none rfl ha hrd hd).tryErr (by simp))⟩
    | some r =>
      obtain ⟨i, n, b'⟩ := r
      have hi := header_index hd
      have hsz := header_size hd
      simp only
      have h1 := (readHeader_some rfl ha hrd hd).tryOk
      obtain ⟨a1, a2, a3, a4⟩ := choiceArms_eval (F := F) (P := P) (d := d) (by rw [hFt]; rfl) (by rw [hFt]; rfl) hi (header_size hd) (l := l) (out := out)
        (b := b'.take n) (p := b'.drop n) (base := [(.reader, .reader (l.length + 1))]) (by simp [lookup]) hq hrf
      rw [hlim] at a1 a2 a3 a4
      have hre : lookup .reader [(Var.reader, Val.reader (l.length + 1))] = some (.reader (l.length + 1)) := by simp [lookup]
      have fails : ∀ e : Err, (∃ st, Ev (fun m => (indexArms T F.t.1.length sch ns' (choiceResult T F.t.1.length d) d.fields).eval (F.ctx m)
          (.u64 (UInt64.ofNat i)) ⟨armEnv (b'.drop n :: l) i n ++ [(.reader, .reader (l.length + 1))], out, b'.take n :: b'.drop n :: l⟩ =
            some (e.out, st))) →
          ∃ st, Loops F (choiceRound T F.t.1.length sch ns' d) ⟨[(.reader, .reader (l.length + 1))], out, rds⟩ (e.out, st) := by
        intro e h
        obtain ⟨st, h⟩ := Fails.letPairRight (w := .index) (w' := .payloadSize) h1 (dispatch_fails hsz hre h)
        exact ⟨st, Loops.fails h⟩
      cases he : Fields.select lim fs.erase i n (b'.take n) with
      | error e =>
        refine ⟨fun m h => (by cases h), fun e' h hne => ?_⟩
        cases h
        exact fails e (a4 e (.inl he) hne)
      | ok r =>
        rcases r with _ | ⟨r | r, s⟩
        · simp only
          cases hk : skip n b' with
          | error e =>
            refine ⟨fun m h => (by cases h), fun e' h hne => ?_⟩
            cases h
            exact fails e (a4 e (.inr ⟨he, skip_take.2 e hk⟩) hne)
          | ok b'' =>
            obtain ⟨k1, rfl⟩ := skip_take.1 _ hk
            have step := Evals.letPair (w := .index) (w' := .payloadSize) h1 (dispatch_eval hsz hre (a3 he _ k1))
            obtain ⟨i1, i2⟩ := choiceLoop_eval hFt hP hq hrf (l := l) (out := out) fuel (b'.drop n) ([] :: b'.drop n :: l) (.sub l [] _)
            refine ⟨fun m h => ?_, fun e h hne => ?_⟩
            · obtain ⟨env', h⟩ := i1 m h
              exact ⟨env', Loops.step step h⟩
            · obtain ⟨st, h⟩ := i2 e h hne
              exact ⟨st, Loops.step step h⟩
        · simp only
          obtain ⟨j1, j2⟩ := a2 _ _ he
          obtain ⟨c1, c2⟩ := calls (s ++ b'.drop n) (s :: b'.drop n :: l) (.sub l s _)
          cases hl : choiceLoop (Fields.select lim fs.erase) fuel (s ++ b'.drop n) with
          | error e =>
            refine ⟨fun m h => (by cases h), fun e' h hne => ?_⟩
            cases h
            rw [hlim] at c2
            exact fails e (j2 e hne (c2 e hl hne))
          | ok m =>
            refine ⟨fun m' h => ?_, fun e' h => (by cases h)⟩
            cases h
            rw [hlim] at c1
            have step := Evals.letPair (w := .index) (w' := .payloadSize) h1 (dispatch_eval hsz hre (j1 _ (c1 m hl)))
            refine ⟨[(.reader, .reader (l.length + 1))], Loops.ret ?_⟩
            rw [hid] at step
            exact step
        · simp only
          refine ⟨fun m' h => ?_, fun e' h => (by cases h)⟩
          cases h
          have step := Evals.letPair (w := .index) (w' := .payloadSize) h1 (dispatch_eval hsz hre (a1 _ _ he))
          refine ⟨[(.reader, .reader (l.length + 1))], Loops.ret ?_⟩
          rw [hid] at step
          exact step

theorem choice_des (H : Implements T S P) {k : List Str × Str} {d : Declaration} {fs : NFields}
    (hd : S.Declares k ns sch d) (hv : d.variant = .choice)
    (hfq : FieldsHave T (fun tv t => NamedType T S ns sch tv t ∧ DesT T S P ns sch tv t) d.fields fs) :
    DesC P (.choice (declName T ns d) fs) := by
  intro lim isField n l s rds env out ha
  obtain ⟨ns', h1, h2, h3, h4, h5, h6⟩ := H _ _ _ _ hd
  have h2 := h2 .deserializeFromReaderRef
  have hs : ns'.components.length = (top lim P ((declName T ns d).id .in_)).t.1.length := by
    show _ = (ns.components.map rustSnake).length
    rw [← h1, List.length_map]
  simp only [DeclCode.body, declCode, hv, hs] at h2
  obtain ⟨l1, l2⟩ := choiceLoop_eval (F := top lim P ((declName T ns d).id .in_)) rfl h2 hfq (fun f hm => h3 f hm) (out := out) (s.length + 1)
    s rds ha
  have eq : CTy.deser lim isField (NCTy.choice (declName T ns d) fs).erase n s =
      (match choiceLoop (Fields.select lim fs.erase) (s.length + 1) s with
      | .error e => .error e
      | .ok m => .ok (m, [])) := by
    show CTy.deser lim isField (.choice fs.erase) n s = _
    rw [CTy.deser]
    cases choiceLoop (Fields.select lim fs.erase) (s.length + 1) s <;> rfl
  rw [eq]
  cases hl : choiceLoop (Fields.select lim fs.erase) (s.length + 1) s with
  | error e =>
    refine ⟨fun m s' h => (by cases h), fun e' h hne => ?_⟩
    cases h
    obtain ⟨st, h⟩ := l2 e hl hne
    exact ⟨_, Calls.intro h2 h.loop (Err.out_ends e)⟩
  | ok m =>
    refine ⟨fun m' s' h => ?_, fun e' h => (by cases h)⟩
    cases h
    obtain ⟨env', h⟩ := l1 m hl
    exact Calls.intro h2 h.loop (.ret _)

theorem Named.des (H : Implements T S P) {k : List Str × Str} {c : NCTy} (h : Named T S k c) : DesC P c :=
  Named.induct (QC := DesC P) (QT := fun ns s tv t => DesT T S P ns s tv t)
    (fun _ _ _ _ _ hd hv hf hq => struct_des H hd hv hf hq)
    (fun _ _ _ _ _ hd hv _ hq => choice_des H hd hv hq)
    (fun _ _ => unit_des) (fun _ _ _ _ h => scalar_des h.isScalar) (fun _ _ => bytes_des) (fun _ _ => string_des)
    (fun _ _ r => units_des r) (fun _ _ _ _ _ h _ => scalars_des h) (fun _ _ _ _ _ h hq => array_des h hq)
    (fun _ _ _ _ _ _ href hc hq => custom_des href hc hq) h

/-- `Deserialize::deserialize`. -/
theorem Named.traitDeserialize (H : Implements T S P) {k : List Str × Str} {c : NCTy} (h : Named T S k c) (lim : Nat) (s : Bytes)
    (env : List (Var × Val)) (out : Bytes) (he : lookup .reader env = some (.reader 1)) :
    (∀ m, deserialize lim c.erase s = .ok m →
      Evals (top lim P c.inId) traitDeserialize ⟨env, out, [s]⟩ (.val (.ok (c.enc .inn m)), ⟨env, out, [[]]⟩)) ∧
    (∀ e, deserialize lim c.erase s = .error e → ∃ st, Evals (top lim P c.inId) traitDeserialize ⟨env, out, [s]⟩ (e.fnOut, st)) := by
  obtain ⟨d1, d2⟩ := Named.des H h lim false s.length [] s [s] env out (.self [] s)
  have call : ∀ {r : Out × St}, Calls lim P c.inId .deserializeFromReaderRef [.reader 1] ⟨env, out, [s]⟩ r →
      Evals (top lim P c.inId) Gen.traitDeserialize ⟨env, out, [s]⟩ r := fun h => h.mono fun n h => by
    simp only [Gen.traitDeserialize, Ex.eval, M.bind, M.get, he, Option.map_some, Fam.ctx_call, Fam.ctx_self]
    exact h
  have fuel : c.erase.deser lim false s.length s ≠ .error .fuel := fun g => by
    have := CTy.deser_ok (fun _ => True) True lim false c.erase (CTy.allDecls_true c.erase) (fun _ => trivial) s.length s
    rw [g] at this
    rcases this with h | h
    · exact h
    · exact absurd h.1 (by decide)
  have empty : ∀ m r, c.erase.deser lim false s.length s = .ok (m, r) → r = [] := by
    intro m r hr
    cases h with
    | struct hd hv hf =>
      rename_i fs
      have hr : CTy.deser lim false (.struct fs.erase) s.length s = .ok (m, r) := hr
      rw [CTy.deser] at hr
      cases hl : structLoop (Fields.step lim fs.erase) (s.length + 1) s fs.erase.emptySlots with
      | error e => rw [hl] at hr; cases hr
      | ok os =>
        rw [hl] at hr
        simp only at hr
        cases hx : fs.erase.finish os with
        | none => rw [hx] at hr; cases hr
        | some m => rw [hx] at hr; cases hr; rfl
    | choice hd hv hf =>
      rename_i fs
      have hr : CTy.deser lim false (.choice fs.erase) s.length s = .ok (m, r) := hr
      rw [CTy.deser] at hr
      cases hl : choiceLoop (Fields.select lim fs.erase) (s.length + 1) s with
      | error e => rw [hl] at hr; cases hr
      | ok os => rw [hl] at hr; cases hr; rfl
  unfold deserialize
  cases hr : c.erase.deser lim false s.length s with
  | error e =>
    refine ⟨fun m h => (by cases h), fun e' h => ?_⟩
    cases h
    obtain ⟨st, h⟩ := d2 e hr (fun g => fuel (by rw [hr, g]))
    exact ⟨st, call h⟩
  | ok r =>
    obtain ⟨m, r⟩ := r
    refine ⟨fun m' h => ?_, fun e h => (by cases h)⟩
    cases h
    obtain rfl := empty m r hr
    exact call (d1 m [] hr)

end

end Typical.Gen

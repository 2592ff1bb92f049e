import Verif.TsGen.DesStruct

/-!
# Helper: the generated `deserializeUnsafe` functions of choices
-/

namespace Typical.TsGen

open Gen (NCTy NTy NFields DeclName FieldName Ev)

section
variable {i index n : Nat} {r : Rule} {t : Ty} {rest : Fields} {v : Option Ts.View} {w : Ts.View} {e : Ts.Err}

theorem fieldsSelect_hit_none : Ts.fieldsSelect (.cons i r t rest) i n none = .error .range := by
  simp [Ts.fieldsSelect]
theorem fieldsSelect_hit_error (h : Ts.tDeser t n w = .error e) : Ts.fieldsSelect (.cons i r t rest) i n (some w) = .error e := by
  simp [Ts.fieldsSelect, h]
theorem fieldsSelect_hit_more {off : Nat} {x : t.Msg .inn} (h : Ts.tDeser t n w = .ok (off, x)) (hr : r.hasFallback .inn = true) :
    Ts.fieldsSelect (.cons i r t rest) i n (some w) = .ok (some (off, .inl (.inl ⟨x, hr⟩))) := by
  simp [Ts.fieldsSelect, h, hr]
theorem fieldsSelect_hit_last {off : Nat} {x : t.Msg .inn} (h : Ts.tDeser t n w = .ok (off, x)) (hr : r.hasFallback .inn = false) :
    Ts.fieldsSelect (.cons i r t rest) i n (some w) = .ok (some (off, .inr (.inl ⟨x, hr⟩))) := by
  simp [Ts.fieldsSelect, h, hr]
theorem fieldsSelect_miss_error (hi : index ≠ i) (h : Ts.fieldsSelect rest index n v = .error e) :
    Ts.fieldsSelect (.cons i r t rest) index n v = .error e := by
  simp [Ts.fieldsSelect, hi, h]
theorem fieldsSelect_miss_none (hi : index ≠ i) (h : Ts.fieldsSelect rest index n v = .ok none) :
    Ts.fieldsSelect (.cons i r t rest) index n v = .ok none := by
  simp [Ts.fieldsSelect, hi, h]
theorem fieldsSelect_miss_more {off : Nat} {a : rest.Sel .inn true} (hi : index ≠ i) (h : Ts.fieldsSelect rest index n v = .ok (some (off, .inl a))) :
    Ts.fieldsSelect (.cons i r t rest) index n v = .ok (some (off, .inl (.inr a))) := by
  simp [Ts.fieldsSelect, hi, h]
theorem fieldsSelect_miss_last {off : Nat} {a : rest.Sel .inn false} (hi : index ≠ i) (h : Ts.fieldsSelect rest index n v = .ok (some (off, .inr a))) :
    Ts.fieldsSelect (.cons i r t rest) index n v = .ok (some (off, .inr (.inr a))) := by
  simp [Ts.fieldsSelect, hi, h]
end

section
variable {T : CharTable} {S : Schemas} {P : Prog}

theorem choiceCases_declared (s : Schema) (ns : Namespace) : (l : List Field) → (choiceCases T s ns l).declared = []
  | [] => rfl
  | f :: l => by
    unfold choiceCases
    rw [Cases.declared, choiceCases_declared s ns l]
    rfl

/-- The variables at the `switch`. -/
abbrev caseEnv (E : Env) (r : Nat) (w : Ts.View) (x off i k : Nat) : Env :=
  (.newOffset, .const (natV x)) :: (.index, .const (.big i)) :: (.payloadSize, .const (natV k)) :: loopEnv E r w off

/-- The variables after the payload has been read. -/
abbrev payloadEnv (E : Env) (r : Nat) (w : Ts.View) (x off i k o : Nat) (p : Val) (rest : List TVar) : Env :=
  (.dataView, .const (.view r (w.base + off) k)) :: (.oldOffset, .const (natV off)) :: (.payload, .let_ p) :: (rest.map (fun x => (x, Cell.uninit)) ++
    caseEnv E r w x o i k)

/-- What the `switch` does. -/
def Selects (T : CharTable) (P : Prog) (path : List Str) (code : Cases) (E : Env) (h : List Obj) (sc : Nat → UInt8) (r : Nat) (w : Ts.View) (x off i k : Nat)
    (l : List Field) (fs : NFields) : Except Ts.Err (Option (Nat × (fs.erase.Sel .inn true ⊕ fs.erase.Sel .inn false))) → Prop
  | .ok none => Ev fun n => code.exec (ctx P path n) (.big i) false ⟨caseEnv E r w x off i k, h, sc⟩ =
      some (.brk, ⟨caseEnv E r w x (off + k) i k, h, sc⟩)
  | .ok (some (o, .inl a)) => ∃ f ∈ l, ∃ p h' sc', ∃ g : Nat → Val → M, f.rule = .optional ∧ h <+: h' ∧
      (∀ H L, (from_ h.length h').Le H → member (tsCamel T f.name) L = some p → L.map (·.1) = ["$field".toList, tsCamel T f.name, "$fallback".toList] →
        member "$field".toList L = some (.text (tsCamel T f.name)) → selRep .inn H fs a L) ∧
      Ev fun n => code.exec (ctx P path n) (.big i) false ⟨caseEnv E r w x off i k, h, sc⟩ =
        run (Stms.exec (ctx P path n) (choiceResult T f)) ⟨payloadEnv E r w x off i k o p [.field "fallback".toList], h', sc'⟩ (leaveK 4 (thenK (g n) doneK))
  | .ok (some (o, .inr a)) => ∃ f ∈ l, ∃ p h' sc', ∃ g : Nat → Val → M, f.rule ≠ .optional ∧ h <+: h' ∧
      (∀ H L, (from_ h.length h').Le H → member (tsCamel T f.name) L = some p → L.map (·.1) = ["$field".toList, tsCamel T f.name] →
        member "$field".toList L = some (.text (tsCamel T f.name)) → selRep .inn H fs a L) ∧
      Ev fun n => code.exec (ctx P path n) (.big i) false ⟨caseEnv E r w x off i k, h, sc⟩ =
        run (Stms.exec (ctx P path n) (choiceResult T f)) ⟨payloadEnv E r w x off i k o p [], h', sc'⟩ (leaveK 3 (thenK (g n) doneK))
  | .error e => e ≠ .fuel → ∃ env' h' sc', h <+: h' ∧
      Ev fun n => code.exec (ctx P path n) (.big i) false ⟨caseEnv E r w x off i k, h, sc⟩ = some (.throw e, ⟨env', h', sc'⟩)

theorem hasFallback_inn (r : Rule) : r.hasFallback .inn = decide (r = .optional) := by cases r <;> rfl

theorem exec_choiceCases {ns ns' : Namespace} {s : Schema} {path : List Str} (hc : P.Clear path) (E : Env) (h : List Obj) (sc : Nat → UInt8) (r : Nat) (w : Ts.View)
    (y off i k : Nat) (hr : h[r]? = some (.buf w.buf)) : (l : List Field) → (fs : NFields) →
    FieldsHave T (fun tv t => NamedType T S ns s tv t ∧ DesOk T S P ns s tv t) l fs →
    (∀ f ∈ l, Resolves T S P path s ns ns' f.type.variant) →
    Selects T P path (choiceCases T s ns' l) E h sc r w y off i k l fs (Ts.fieldsSelect fs.erase i k (Ts.View.new w.buf (w.base + off) k))
  | [], _, .nil, _ => by
    refine .of fun n => (run_done _ _).symm.trans ?_
    unfold choiceCases skipField
    tsrun
  | f :: l, _, .cons (t := t) (fs := fs) hQ hF, hres => by
    have ih := exec_choiceCases hc E h sc r w y off i k hr l fs hF (fun g hg => hres g (List.mem_cons_of_mem _ hg))
    show Selects T P path _ E h sc r w y off i k _ (.cons (fieldName T f) f.index f.rule t fs) (Ts.fieldsSelect (.cons f.index f.rule t.erase fs.erase) i k (Ts.View.new w.buf (w.base + off) k))
    by_cases hi : i = f.index
    · subst hi
      by_cases hb : w.base + off + k ≤ w.buf.length
      · have hn : Ts.View.new w.buf (w.base + off) k = some ⟨w.buf, w.base + off, k⟩ := by unfold Ts.View.new; rw [if_pos hb]
        rw [hn]
        have h5 := hQ.2 ns' path true k ((.dataView, .const (.view r (w.base + off) k)) :: (.oldOffset, .const (natV off)) :: (.payload, .uninit) ::
          (List.map (fun x => (x, Cell.uninit)) (if f.rule = .optional then [.field "fallback".toList] else []) ++ caseEnv E r w y 0 f.index k)) h sc r ⟨w.buf, w.base + off, k⟩ hc (hres f (List.mem_cons_self ..)) ⟨hr, hb, rfl⟩ (by split <;> tsrun) (by split <;> tsrun) rfl
          (fun _ => by split <;> tsrun)
        simp only [desOf_true] at h5
        have hrd : (choiceResult T f).declared = if f.rule = .optional then [.field "fallback".toList] else [] := by
          unfold choiceResult; split <;> rfl
        cases hd : Ts.tDeser t.erase k ⟨w.buf, w.base + off, k⟩ with
        | error e =>
          rw [fieldsSelect_hit_error hd]
          intro he
          rw [hd] at h5
          obtain ⟨env', h', hp', sc', N, h5⟩ := h5 he
          by_cases ho : f.rule = .optional
          · rw [if_pos ho] at h5 hrd
            refine ⟨env'.drop 4, h', sc', hp', N, fun n hn => (run_done _ _).symm.trans ?_⟩
            unfold choiceCases enterField
            tsrun [strictEq, deserialization_declared, hrd, subView, hc.root, Ex.buffer, Ex.byteOffset, run_newView_some hr _ _ _ hb]
            refine (run_eq (h5 n hn) _).trans ?_
            tsrun
          · rw [if_neg ho] at h5 hrd
            refine ⟨env'.drop 3, h', sc', hp', N, fun n hn => (run_done _ _).symm.trans ?_⟩
            unfold choiceCases enterField
            tsrun [strictEq, deserialization_declared, hrd, subView, hc.root, Ex.buffer, Ex.byteOffset, run_newView_some hr _ _ _ hb]
            refine (run_eq (h5 n hn) _).trans ?_
            tsrun
        | ok q =>
          obtain ⟨o2, a⟩ := q
          rw [hd] at h5
          obtain ⟨x, h', hp', hx, sc', N, h5⟩ := h5
          by_cases ho : f.rule = .optional
          · rw [if_pos ho] at h5 hrd
            rw [fieldsSelect_hit_more hd (by rw [hasFallback_inn]; exact decide_eq_true ho)]
            refine ⟨f, List.mem_cons_self .., x, h', sc', fun n _ => (choiceCases T s ns' l).exec (ctx P path n) (.big f.index) true, ho, hp', fun H L e1 e2 e3 e4 => ⟨⟨x, e2, tRep_mono e1 t a x hx⟩, fun _ => ⟨e3, e4⟩⟩, N, fun n hn => (run_done _ _).symm.trans ?_⟩
            conv => lhs; unfold choiceCases enterField
            tsrun [strictEq, deserialization_declared, hrd, subView, hc.root, Ex.buffer, Ex.byteOffset, run_newView_some hr _ _ _ hb]
            refine (run_eq (h5 n hn) _).trans ?_
            tsrun
            rfl
          · rw [if_neg ho] at h5 hrd
            rw [fieldsSelect_hit_last hd (by rw [hasFallback_inn]; exact decide_eq_false ho)]
            refine ⟨f, List.mem_cons_self .., x, h', sc', fun n _ => (choiceCases T s ns' l).exec (ctx P path n) (.big f.index) true, ho, hp', fun H L e1 e2 e3 e4 => ⟨⟨x, e2, tRep_mono e1 t a x hx⟩, fun _ => ⟨e3, e4⟩⟩, N, fun n hn => (run_done _ _).symm.trans ?_⟩
            conv => lhs; unfold choiceCases enterField
            tsrun [strictEq, deserialization_declared, hrd, subView, hc.root, Ex.buffer, Ex.byteOffset, run_newView_some hr _ _ _ hb]
            refine (run_eq (h5 n hn) _).trans ?_
            tsrun
            rfl
      · have hn : Ts.View.new w.buf (w.base + off) k = none := by unfold Ts.View.new; rw [if_neg hb]
        rw [hn, fieldsSelect_hit_none]
        have hnv := fun env κ => run_newView_none hr env sc κ (base := (w.base + off : Nat)) (len := k) (by omega)
        show Ts.Err.range ≠ .fuel → _
        refine fun _ => ⟨caseEnv E r w y off f.index k, h, sc, List.prefix_rfl, .of fun n => (run_done _ _).symm.trans ?_⟩
        have hrd : (choiceResult T f).declared = if f.rule = .optional then [.field "fallback".toList] else [] := by
          unfold choiceResult; split <;> rfl
        unfold choiceCases enterField
        split at hrd <;> tsrun [hrd, strictEq, deserialization_declared, subView, hc.root, Ex.buffer, Ex.byteOffset, hnv]
    · have hskip : ∀ n, (choiceCases T s ns' (f :: l)).exec (ctx P path n) (.big i) false ⟨caseEnv E r w y off i k, h, sc⟩ =
          (choiceCases T s ns' l).exec (ctx P path n) (.big i) false ⟨caseEnv E r w y off i k, h, sc⟩ := by
        intro n
        refine (run_done _ _).symm.trans ?_
        conv => lhs; unfold choiceCases
        rw [run_case_block]
        have : strictEq (.big i) (Lit.big f.index).val = some false := by
          simp only [Lit.val, strictEq]
          rw [decide_eq_false (by omega)]
        rw [this, caseK_false, run_done]
      cases hd : Ts.fieldsSelect fs.erase i k (Ts.View.new w.buf (w.base + off) k) with
      | error e =>
        rw [hd] at ih
        rw [fieldsSelect_miss_error hi hd]
        intro he
        obtain ⟨env', h', sc', hp', ih⟩ := ih he
        exact ⟨env', h', sc', hp', ih.mono fun n hn => (hskip n).trans hn⟩
      | ok q =>
        rw [hd] at ih
        cases q with
        | none =>
          rw [fieldsSelect_miss_none hi hd]
          exact Ev.mono (show Ev _ from ih) fun n hn => (hskip n).trans hn
        | some q =>
          obtain ⟨o2, m2⟩ := q
          cases m2 with
          | inl a =>
            rw [fieldsSelect_miss_more hi hd]
            obtain ⟨g, hg, p, h', sc', K, e1, e2, e3, e4⟩ := ih
            exact ⟨g, List.mem_cons_of_mem _ hg, p, h', sc', K, e1, e2, fun H L a b c d => ⟨nofun, e3 H L a b c d⟩, e4.mono fun n hn => (hskip n).trans hn⟩
          | inr a =>
            rw [fieldsSelect_miss_last hi hd]
            obtain ⟨g, hg, p, h', sc', K, e1, e2, e3, e4⟩ := ih
            exact ⟨g, List.mem_cons_of_mem _ hg, p, h', sc', K, e1, e2, fun H L a b c d => ⟨nofun, e3 H L a b c d⟩, e4.mono fun n hn => (hskip n).trans hn⟩

/-- The body of the loop of a choice's `deserializeUnsafe` function. -/
abbrev choiceBody (T : CharTable) (s : Schema) (ns : Namespace) (fields : List Field) : Stms :=
  stms [
    .constTuple [.newOffset, .index, .payloadSize] readHeader,
    setOffset (v .newOffset),
    .blank,
    .switch (v .index) (choiceCases T s ns fields)]

/-- What the loop does. -/
def Chooses (T : CharTable) (P : Prog) (s : Schema) (ns : Namespace) (l : List Field) (path : List Str) (fs : NFields) (E : Env) (h : List Obj) (sc : Nat → UInt8) (r : Nat) (w : Ts.View) (off : Nat) :
    Except Ts.Err (Chain (fs.erase.Sel .inn true) (fs.erase.Sel .inn false)) → Prop
  | .ok m => ∃ x env' h' sc', h <+: h' ∧ chainRep (selRep .inn (from_ h.length h') fs) (selRep .inn (from_ h.length h') fs) m x ∧
        Loops (fun n => Ex.eval (ctx P path n) (.lit (.bool true)))
        (fun n => .block [.newOffset, .index, .payloadSize] (Stms.exec (ctx P path n) (choiceBody T s ns l)))
        ⟨loopEnv E r w off, h, sc⟩ (.ret x, ⟨env', h', sc'⟩)
  | .error e => e ≠ .fuel → ∃ env' h' sc', h <+: h' ∧
        Loops (fun n => Ex.eval (ctx P path n) (.lit (.bool true)))
        (fun n => .block [.newOffset, .index, .payloadSize] (Stms.exec (ctx P path n) (choiceBody T s ns l)))
        ⟨loopEnv E r w off, h, sc⟩ (.throw e, ⟨env', h', sc'⟩)

theorem callFn_choice {ns : Namespace} {s : Schema} {d : Declaration} {ns' : Namespace} (hR : Ready T S P ns s d ns') (hd : d.variant = .choice)
    {r base len : Nat} {env : Env} {h h' : List Obj} {sc sc' : Nat → UInt8} {o : Out} {env' : Env} (w : Ts.View) (e1 : w.base = base) (e2 : w.len = len)
    (hl : Loops (fun n => Ex.eval (ctx P (declPath T ns.components d) n) (.lit (.bool true)))
        (fun n => .block [.newOffset, .index, .payloadSize] (Stms.exec (ctx P (declPath T ns.components d) n) (choiceBody T s ns' d.fields)))
        ⟨loopEnv [(.dataView, .let_ (.view r base len))] r w 0, h, sc⟩ (o, ⟨env', h', sc'⟩)) :
    (∀ x, o = .ret x → Ev fun n => callFn P n (.decl (declPath T ns.components d) .deserializeUnsafe) [.view r base len] ⟨env, h, sc⟩ = some (.val x, ⟨env, h', sc'⟩)) ∧
    (∀ e, o = .throw e → Ev fun n => callFn P n (.decl (declPath T ns.components d) .deserializeUnsafe) [.view r base len] ⟨env, h, sc⟩ = some (.throw e, ⟨env, h', sc'⟩)) := by
  obtain ⟨N, hl⟩ := hl.ev
  subst e1 e2
  have hb : (declCode T s ns' d).body .deserializeUnsafe = choiceDeserialize T s ns' d.fields := by simp only [declCode, hd]
  have hdc : (choiceDeserialize T s ns' d.fields).declared = [.dataViewAlias, .offset] := rfl
  have hstart : ∀ n, callFn P (n + 1) (.decl (declPath T ns.components d) .deserializeUnsafe) [.view r w.base w.len] ⟨env, h, sc⟩ =
      run (rounds (Ex.eval (ctx P (declPath T ns.components d) n) (.lit (.bool true)))
        (.block [.newOffset, .index, .payloadSize] (Stms.exec (ctx P (declPath T ns.components d) n) (choiceBody T s ns' d.fields))) n)
        ⟨loopEnv [(.dataView, .let_ (.view r w.base w.len))] r w 0, h, sc⟩ (thenK (fun _ => Stms.exec (ctx P (declPath T ns.components d) n) .nil) (returnK env doneK)) := by
    intro n
    refine (run_done _ _).symm.trans ?_
    rw [callFn_decl hR.code, hb, hdc, run_frame, if_pos ⟨rfl, by decide⟩]
    unfold choiceDeserialize
    tsrun [Fn.params, choiceLoop, run_while]
  constructor
  · rintro x rfl
    refine ⟨N + 1, fun n hn => ?_⟩
    obtain ⟨n, rfl⟩ : ∃ q, n = q + 1 := ⟨n - 1, by omega⟩
    refine (hstart n).trans ((run_eq (hl n (by omega)) _).trans ?_)
    tsrun
  · rintro x rfl
    refine ⟨N + 1, fun n hn => ?_⟩
    obtain ⟨n, rfl⟩ : ∃ q, n = q + 1 := ⟨n - 1, by omega⟩
    refine (hstart n).trans ((run_eq (hl n (by omega)) _).trans ?_)
    tsrun

theorem choice_loop {ns : Namespace} {s : Schema} {d : Declaration} {fs : NFields} {ns' : Namespace} (hR : Ready T S P ns s d ns') (hd : d.variant = .choice)
    (hF : FieldsHave T (fun tv t => NamedType T S ns s tv t ∧ DesOk T S P ns s tv t) d.fields fs) :
    (fuel : Nat) → ∀ (off : Nat) (h : List Obj) (sc : Nat → UInt8) (r : Nat) (w : Ts.View), h[r]? = some (.buf w.buf) → w.base + w.len ≤ w.buf.length →
    Chooses T P s ns' d.fields (declPath T ns.components d) fs [(.dataView, .let_ (.view r w.base w.len))] h sc r w off
      (Ts.choiceLoop (Ts.fieldsSelect fs.erase) fuel w off)
  | 0, _, _, _, _, _, _, _ => fun h => absurd rfl h
  | fuel + 1, off, h, sc, r, w, hr, hw => by
    have hc := hR.clear
    have hcond : ∀ s : St, Ev fun n => Ex.eval (ctx P (declPath T ns.components d) n) (.lit (.bool true)) s = some (.val (.bool true), s) :=
      fun s => .of fun n => (run_done _ _).symm.trans (by tsrun)
    obtain ⟨sc1, h1⟩ := callFn_deserializeFieldHeader hc.top hr hw off ((.newOffset, .uninit) :: (.index, .uninit) :: (.payloadSize, .uninit) ::
      loopEnv [(.dataView, .let_ (.view r w.base w.len))] r w off) sc
    rw [Ts.choiceLoop]
    cases hd1 : Ts.deserializeFieldHeader w off with
    | none =>
      rw [hd1] at h1
      show Ts.Err.range ≠ .fuel → _
      refine fun _ => ⟨loopEnv [(.dataView, .let_ (.view r w.base w.len))] r w off, h, sc1, List.prefix_rfl, .throw (hcond _) ⟨18, fun n hn => (run_done _ _).symm.trans ?_⟩⟩
      tsrun [readHeader, hc.runtime]
      refine (run_eq (h1 n hn) _).trans ?_
      tsrun [headerOut]
    | some q =>
      obtain ⟨o, i, k⟩ := q
      rw [hd1] at h1
      have h2 := exec_choiceCases hc [(.dataView, .let_ (.view r w.base w.len))] h sc1 r w o o i k hr d.fields fs hF hR.resolves
      have hbody : ∀ n, 18 ≤ n → ∀ res, run (Cases.exec (ctx P (declPath T ns.components d) n) (.big i) false (choiceCases T s ns' d.fields))
          ⟨caseEnv [(.dataView, .let_ (.view r w.base w.len))] r w o o i k, h, sc1⟩ (breakK (thenK (fun _ => Stms.exec (ctx P (declPath T ns.components d) n) .nil) (leaveK 3 doneK))) = res →
          M.block [.newOffset, .index, .payloadSize] (Stms.exec (ctx P (declPath T ns.components d) n) (choiceBody T s ns' d.fields))
            ⟨loopEnv [(.dataView, .let_ (.view r w.base w.len))] r w off, h, sc⟩ = res := by
        intro n hn res hres
        refine (run_done _ _).symm.trans ?_
        tsrun [readHeader, hc.runtime]
        refine (run_eq (h1 n hn) _).trans ?_
        tsrun [headerOut, choiceCases_declared]
        exact hres
      simp only
      cases hs : Ts.fieldsSelect fs.erase i k (Ts.View.new w.buf (w.base + o) k) with
      | error e =>
        rw [hs] at h2
        intro he
        obtain ⟨env', h', sc2, hp', N, h2⟩ := h2 he
        refine ⟨env'.drop 3, h', sc2, hp', .throw (hcond _) ⟨N + 18, fun n hn => hbody n (by omega) _ ?_⟩⟩
        refine (run_eq (h2 n (by omega)) _).trans ?_
        tsrun
      | ok q =>
        rw [hs] at h2
        cases q with
        | none =>
          obtain ⟨N, h2⟩ := (show Ev _ from h2)
          have hb : Ev fun n => M.block [.newOffset, .index, .payloadSize] (Stms.exec (ctx P (declPath T ns.components d) n) (choiceBody T s ns' d.fields))
              ⟨loopEnv [(.dataView, .let_ (.view r w.base w.len))] r w off, h, sc⟩ =
              some (.val .undef, ⟨loopEnv [(.dataView, .let_ (.view r w.base w.len))] r w (o + k), h, sc1⟩) := by
            refine ⟨N + 18, fun n hn => hbody n (by omega) _ ?_⟩
            refine (run_eq (h2 n (by omega)) _).trans ?_
            tsrun
          have ih := choice_loop hR hd hF fuel (o + k) h sc1 r w hr hw
          simp only
          cases hl : Ts.choiceLoop (Ts.fieldsSelect fs.erase) fuel w (o + k) with
          | error e =>
            rw [hl] at ih
            intro he
            obtain ⟨env', h', sc', hp', ih⟩ := ih he
            exact ⟨env', h', sc', hp', .next (hcond _) hb ih⟩
          | ok m =>
            rw [hl] at ih
            obtain ⟨x, env', h', sc', hp', hx, ih⟩ := ih
            exact ⟨x, env', h', sc', hp', hx, .next (hcond _) hb ih⟩
        | some q =>
          obtain ⟨o2, m2⟩ := q
          cases m2 with
          | inr a =>
            obtain ⟨f, hf, p, h', sc', g, e1, e2, e3, N, e4⟩ := h2
            refine ⟨.obj [("$field".toList, .text (tsCamel T f.name)), (tsCamel T f.name, p)], loopEnv [(.dataView, .let_ (.view r w.base w.len))] r w o2, h', sc', e2,
              ⟨_, rfl, e3 _ _ (fun _ _ h => h) ?_ rfl rfl⟩, .ret (hcond _) ⟨N + 18, fun n hn => hbody n (by omega) _ ?_⟩⟩
            · have := hR.names.other f hf
              rw [member, if_neg (fun e => this (by rw [← e]; simp)), member, if_pos rfl]
            · rw [run, e4 n (by omega)]
              unfold choiceResult
              rw [if_neg e1]
              tsrun
          | inl a =>
            obtain ⟨f, hf, p, h', sc', g, e1, e2, e3, N, e4⟩ := h2
            simp only
            by_cases hle : o2 + o ≤ w.len
            · rw [if_pos hle]
              have hbd : w.base + (o2 + o) + (w.len - (o2 + o)) ≤ w.buf.length := by omega
              have hn : Ts.View.new w.buf (w.base + (o2 + o)) (w.len - (o2 + o)) = some ⟨w.buf, w.base + (o2 + o), w.len - (o2 + o)⟩ := by
                unfold Ts.View.new; rw [if_pos hbd]
              rw [hn]
              simp only
              have hsub : (w.len : Int) - ((o2 + o : Nat) : Int) = ((w.len - (o2 + o) : Nat) : Int) := by omega
              have ih := choice_loop hR hd hF fuel 0 h' sc' r ⟨w.buf, w.base + (o2 + o), w.len - (o2 + o)⟩ (prefix_get e2 hr) hbd
              cases hl : Ts.choiceLoop (Ts.fieldsSelect fs.erase) fuel ⟨w.buf, w.base + (o2 + o), w.len - (o2 + o)⟩ 0 with
              | error e =>
                rw [hl] at ih
                intro he
                obtain ⟨env2, h2, sc2, hp2, ih⟩ := ih he
                obtain ⟨M, hM⟩ := (callFn_choice hR hd _ rfl rfl (env := payloadEnv [(.dataView, .let_ (.view r w.base w.len))] r w o o i k (o2 + o) p [.field "fallback".toList]) ih).2 e rfl
                refine ⟨loopEnv [(.dataView, .let_ (.view r w.base w.len))] r w (o2 + o), h2, sc2, e2.trans hp2, .throw (hcond _) ⟨N + M + 18, fun n hn => hbody n (by omega) _ ?_⟩⟩
                rw [run, e4 n (by omega)]
                unfold choiceResult
                rw [if_pos e1]
                tsrun
                rw [if_neg (by simp [hides_eq])]
                tsrun [subView, hc.root, Ex.buffer, Ex.byteOffset, Ex.byteLength, hsub, run_newView_some (prefix_get e2 hr) _ _ _ hbd]
                erw [run_eq (hM n (by omega))]
                tsrun
              | ok m =>
                rw [hl] at ih
                obtain ⟨x, env2, h2, sc2, hp2, hx, ih⟩ := ih
                obtain ⟨M, hM⟩ := (callFn_choice hR hd _ rfl rfl (env := payloadEnv [(.dataView, .let_ (.view r w.base w.len))] r w o o i k (o2 + o) p [.field "fallback".toList]) ih).1 x rfl
                refine ⟨.obj [("$field".toList, .text (tsCamel T f.name)), (tsCamel T f.name, p), ("$fallback".toList, x)],
                  loopEnv [(.dataView, .let_ (.view r w.base w.len))] r w (o2 + o), h2, sc2, e2.trans hp2,
                  ⟨_, x, rfl, e3 _ _ (from_le (Nat.le_refl _) hp2) ?_ rfl rfl, ?_, chainRep_imp (fun q L h => selRep_mono (from_le e2.length_le List.prefix_rfl) fs q L h)
                    (fun q L h => selRep_mono (from_le e2.length_le List.prefix_rfl) fs q L h) hx⟩, .ret (hcond _) ⟨N + M + 18, fun n hn => hbody n (by omega) _ ?_⟩⟩
                · have := hR.names.other f hf
                  rw [member, if_neg (fun e => this (by rw [← e]; simp)), member, if_pos rfl]
                · have := hR.names.other f hf
                  rw [member, if_neg (by decide), member, if_neg (fun e => this (by rw [← e]; simp)), member, if_pos rfl]
                rw [run, e4 n (by omega)]
                unfold choiceResult
                rw [if_pos e1]
                tsrun
                rw [if_neg (by simp [hides_eq])]
                tsrun [subView, hc.root, Ex.buffer, Ex.byteOffset, Ex.byteLength, hsub, run_newView_some (prefix_get e2 hr) _ _ _ hbd]
                erw [run_eq (hM n (by omega))]
                tsrun
                rfl
            · rw [if_neg hle]
              show Ts.Err.range ≠ .fuel → _
              refine fun _ => ⟨loopEnv [(.dataView, .let_ (.view r w.base w.len))] r w (o2 + o), h', sc', e2, .throw (hcond _) ⟨N + 18, fun n hn => hbody n (by omega) _ ?_⟩⟩
              rw [run, e4 n (by omega)]
              unfold choiceResult
              rw [if_pos e1]
              tsrun
              rw [if_neg (by simp [hides_eq])]
              have hnv := fun env κ => run_newView_none (prefix_get e2 hr) env sc' κ (base := (w.base + (o2 + o) : Nat)) (len := (w.len : Int) - ((o2 + o : Nat) : Int)) (by omega)
              tsrun [subView, hc.root, Ex.buffer, Ex.byteOffset, Ex.byteLength, hnv]

theorem desFn_choice (ns : Namespace) (s : Schema) (d : Declaration) (fs : NFields) {ns' : Namespace}
    (hR : Ready T S P ns s d ns') (hd : d.variant = .choice)
    (hF : FieldsHave T (fun tv t => NamedType T S ns s tv t ∧ DesOk T S P ns s tv t) d.fields fs) :
    DesFnOk P (.choice (declName T ns d) fs) := by
  intro isField k env h sc r w hr hw
  have hl := choice_loop hR hd hF (w.len + 1) 0 h sc r w hr hw
  show Returns P (.choice (declName T ns d) fs) env h sc r w (Ts.cDeser isField (.choice fs.erase) k w)
  cases hd1 : Ts.choiceLoop (Ts.fieldsSelect fs.erase) (w.len + 1) w 0 with
  | error e =>
    rw [hd1] at hl
    have : Ts.cDeser isField (.choice fs.erase) k w = .error e := by simp [Ts.cDeser, hd1]
    rw [this]
    intro he
    obtain ⟨env', h', sc', hp', hl⟩ := hl he
    exact ⟨h', sc', hp', (callFn_choice hR hd w rfl rfl hl).2 e rfl⟩
  | ok m =>
    rw [hd1] at hl
    have : Ts.cDeser isField (.choice fs.erase) k w = .ok (w.len, m) := by simp [Ts.cDeser, hd1]
    rw [this]
    obtain ⟨x, env', h', sc', hp', hx, hl⟩ := hl
    exact ⟨rfl, x, h', sc', hp', hx, (callFn_choice hR hd w rfl rfl hl).1 x rfl⟩

/-- The generated `deserializeUnsafe` functions. -/
theorem des_ok (hP : Implements T S P) {k : List Str × Str} {c : NCTy} (h : Named T S k c) : DesFnOk P c := by
  refine Named.induct (QC := DesFnOk P) (QT := DesOk T S P) ?_ ?_ desOk_unit desOk_scalar desOk_bytes desOk_string desOk_units
    ?_ desOk_array desOk_custom h
  · intro k ns s d fs h1 h2 _ h4
    obtain ⟨ns', hR⟩ := hP k ns s d h1
    exact desFn_struct ns s d fs hR h2 h4
  · intro k ns s d fs h1 h2 _ h4
    obtain ⟨ns', hR⟩ := hP k ns s d h1
    exact desFn_choice ns s d fs hR h2 h4
  · intro ns s r inner sc h1 _
    exact desOk_scalars ns s r inner sc h1

end

end Typical.TsGen

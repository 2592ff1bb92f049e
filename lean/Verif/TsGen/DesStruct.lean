import Verif.TsGen.DesType

/-!
# Helper: the generated `deserializeUnsafe` functions of structs
-/

namespace Typical.TsGen

open Gen (NCTy NTy NFields DeclName FieldName Ev)

/-- The variables for the fields hold what has been read. -/
def slotsRep (H : Part) (E : Env) : (fs : NFields) → fs.erase.Slots → Prop
  | .nil, _ => True
  | .cons n _ _ t rest, m =>
    (∃ v, lookup (.field n.member) E = some v ∧ assignable (.field n.member) E = true ∧ slotRep (tRep .inn H t) true m.1 v) ∧ slotsRep H E rest m.2

theorem slotsRep_mono {H H' : Part} (hH : H.Le H') {E E' : Env} : (fs : NFields) → (∀ n ∈ fs.names, lookup (.field n) E' = lookup (.field n) E ∧ assignable (.field n) E' = assignable (.field n) E) →
    (m : fs.erase.Slots) → slotsRep H E fs m → slotsRep H' E' fs m
  | .nil, _, _, _ => trivial
  | .cons n _ _ t rest, hE, m, ⟨⟨v, h1, h2, h3⟩, h4⟩ => by
    have hn := hE n.member (List.mem_cons_self ..)
    exact ⟨⟨v, hn.1.trans h1, hn.2.trans h2, slotRep_imp (fun a v h => tRep_mono hH t a v h) h3⟩,
      slotsRep_mono hH rest (fun k hk => hE k (List.mem_cons_of_mem _ hk)) m.2 h4⟩

/-- Continue with a disjunction. -/
theorem run_or_nil (c : Ctx) (s : St) (κ : Out → St → Option (Out × St)) : run (Args.or c .nil) s κ = κ (.val (.bool false)) s := by
  rw [Args.or]; rfl

theorem run_or_cons (c : Ctx) (s : St) (κ : Out → St → Option (Out × St)) (e : Ex) (rest : Args) :
    run (Args.or c (.cons e rest)) s κ = run (e.eval c) s (thenK (fun v => M.orElse v (rest.or c)) κ) := by
  rw [Args.or, run_bind]; rfl

theorem run_ifAny (c : Ctx) (s : St) (κ : Out → St → Option (Out × St)) (es : Args) (a : Stms) : run (Stm.exec c (.ifAny es a)) s κ =
    run (es.or c) s (thenK (fun v => .ifElse v (.block a.declared (a.exec c)) .skip) κ) := by
  rw [Stm.exec, run_bind]

theorem run_throwMissing {P : Prog} {path : List Str} (hc : P.Clear path) (n : Nat) (s : St) (κ : Out → St → Option (Out × St)) :
    run (Stm.exec (ctx P path n) .throwMissing) s κ = κ (.throw .missing) s := by
  rw [Stm.exec, if_pos ⟨hc.free (by decide +kernel) n, hc.free (by decide +kernel) n⟩]
  rfl

theorem finish_isNone (i : Nat) (r : Rule) (t : Ty) (rest : Fields) (o : Option (t.Msg .inn)) (m : rest.Slots) :
    ((Fields.cons i r t rest).finish (o, m)).isNone = ((finishSlot (r.mayOmit .inn) o).isNone || (rest.finish m).isNone) := by
  rw [Fields.finish]
  cases finishSlot (r.mayOmit .inn) o <;> cases rest.finish m <;> rfl

section
variable {i index n : Nat} {r : Rule} {t : Ty} {rest : Fields} {v : Option Ts.View} {w : Ts.View} {o : Option (t.Msg .inn)} {os : rest.Slots} {e : Ts.Err}

theorem fieldsStep_hit_none : Ts.fieldsStep (.cons i r t rest) i n none (o, os) = .error .range := by
  simp [Ts.fieldsStep]
theorem fieldsStep_hit_error (h : Ts.tDeser t n w = .error e) : Ts.fieldsStep (.cons i r t rest) i n (some w) (o, os) = .error e := by
  simp [Ts.fieldsStep, h]
theorem fieldsStep_hit_ok {off : Nat} {x : t.Msg .inn} (h : Ts.tDeser t n w = .ok (off, x)) :
    Ts.fieldsStep (.cons i r t rest) i n (some w) (o, os) = .ok (some (off, (some x, os))) := by
  simp [Ts.fieldsStep, h]
theorem fieldsStep_miss_error (hi : index ≠ i) (h : Ts.fieldsStep rest index n v os = .error e) :
    Ts.fieldsStep (.cons i r t rest) index n v (o, os) = .error e := by
  simp [Ts.fieldsStep, hi, h]
theorem fieldsStep_miss_none (hi : index ≠ i) (h : Ts.fieldsStep rest index n v os = .ok none) :
    Ts.fieldsStep (.cons i r t rest) index n v (o, os) = .ok none := by
  simp [Ts.fieldsStep, hi, h]
theorem fieldsStep_miss_some {off : Nat} {os' : rest.Slots} (hi : index ≠ i) (h : Ts.fieldsStep rest index n v os = .ok (some (off, os'))) :
    Ts.fieldsStep (.cons i r t rest) index n v (o, os) = .ok (some (off, (o, os'))) := by
  simp [Ts.fieldsStep, hi, h]
end

section
variable {T : CharTable} {S : Schemas} {P : Prog}

theorem names_of {Q : TypeVariant → NTy → Prop} : {l : List Field} → {fs : NFields} → FieldsHave T Q l fs → fs.names = l.map (fun f => tsCamel T f.name)
  | _, _, .nil => rfl
  | _, _, .cons _ hF => by rw [List.map_cons, ← names_of hF]; rfl

/-- The check for missing fields. -/
theorem run_missing {Q : TypeVariant → NTy → Prop} (c : Ctx) {H : Part} {E : Env} (h : List Obj) (sc : Nat → UInt8) (κ : Out → St → Option (Out × St)) :
    {l : List Field} → {fs : NFields} → FieldsHave T Q l fs → (m : fs.erase.Slots) → slotsRep H E fs m →
    run (Args.or c (args (missingConditions T l))) ⟨E, h, sc⟩ κ = κ (.val (.bool (fs.erase.finish m).isNone)) ⟨E, h, sc⟩
  | _, _, .nil, m, _ => by exact run_or_nil _ _ _
  | f :: l, _, .cons (t := t) (fs := fs) hQ hF, m, hm => by
    obtain ⟨o, m⟩ := m
    obtain ⟨⟨v, h1, h2, h3⟩, h4⟩ := hm
    have ih := run_missing c h sc κ hF m h4
    have hfin : ((NFields.cons (fieldName T f) f.index f.rule t fs).erase.finish (o, m)).isNone =
        ((finishSlot (f.rule.mayOmit .inn) o).isNone || (fs.erase.finish m).isNone) := finish_isNone _ _ _ _ _ _
    rw [hfin]
    by_cases hr : f.rule = .required
    · have hmc : missingConditions T (f :: l) = .bin .same (TsGen.v (local_ T f)) (.lit .undefined) :: missingConditions T l := by
        unfold missingConditions
        rw [List.filter_cons_of_pos (by simp [hr]), List.map_cons]
      rw [hmc]
      simp only [args, Args.ofList]
      rw [run_or_cons]
      have hl : lookup (local_ T f) E = some v := h1
      have hs : (finishSlot (f.rule.mayOmit .inn) o).isNone = o.isNone := by rw [hr]; rfl
      rw [hs]
      cases o with
      | none =>
        cases (show v = .undef from h3)
        tsrun [hl, BinOp.run, strictEq]
        rfl
      | some a =>
        have hu : v ≠ .undef := fun e => tRep_undef t a (e ▸ h3)
        tsrun [hl, BinOp.run, strictEq_undef hu]
        exact ih
    · have hmc : missingConditions T (f :: l) = missingConditions T l := by
        unfold missingConditions
        rw [List.filter_cons_of_neg (by simp [hr])]
      rw [hmc, ih]
      have : (finishSlot (f.rule.mayOmit .inn) o).isNone = false := by
        have hb : f.rule.mayOmit .inn = true := by cases hh : f.rule <;> first | rfl | exact absurd hh hr
        generalize f.rule.mayOmit .inn = b at hb
        subst hb
        rfl
      rw [this, Bool.false_or]

/-- If no field is required, none is missing. -/
theorem finish_of_none {Q : TypeVariant → NTy → Prop} : {l : List Field} → {fs : NFields} → FieldsHave T Q l fs → l.any (fun f => decide (f.rule = .required)) = false →
    (m : fs.erase.Slots) → (fs.erase.finish m).isNone = false
  | _, _, .nil, _, _ => rfl
  | f :: l, _, .cons (t := t) (fs := fs) hQ hF, hl, m => by
    obtain ⟨o, m⟩ := m
    rw [List.any_cons, Bool.or_eq_false_iff] at hl
    refine (finish_isNone _ _ _ _ _ _).trans ?_
    rw [finish_of_none hF hl.2 m, Bool.or_false]
    have hb : f.rule.mayOmit .inn = true := by cases hh : f.rule <;> first | rfl | (rw [hh] at hl; exact absurd hl.1 (by decide))
    generalize f.rule.mayOmit .inn = b at hb
    subst hb
    rfl

/-- The object which is returned represents the message. -/
theorem finish_rep {H : Part} {E : Env} : (fs : NFields) → (m : fs.erase.Slots) → slotsRep H E fs m → (x : fs.erase.Struct .inn) → fs.erase.finish m = some x →
    (L : List (Str × Val)) → (∀ n ∈ fs.names, member n L = lookup (.field n) E) → sRep .inn H fs x L
  | .nil, _, _, _, _, _, _ => trivial
  | .cons n i r t rest, m, hm, x, hx, L, hL => by
    obtain ⟨o, m⟩ := m
    obtain ⟨⟨v, h1, h2, h3⟩, h4⟩ := hm
    change (Fields.cons i r t.erase rest.erase).finish (o, m) = some x at hx
    rw [Fields.finish] at hx
    split at hx
    · next a b e1 e2 =>
      cases hx
      refine ⟨⟨v, (hL _ (List.mem_cons_self ..)).trans h1, ?_⟩, finish_rep rest m h4 _ e2 L fun k hk => hL k (List.mem_cons_of_mem _ hk)⟩
      revert e1 a
      generalize r.mayOmit .inn = bb
      intro a e1
      cases bb with
      | true => cases e1; exact h3
      | false => cases (show o = some a from e1); exact h3
    · cases hx

/-- The variables in the loop of a `deserializeUnsafe` function. -/
abbrev loopEnv (E : Env) (r : Nat) (w : Ts.View) (off : Nat) : Env :=
  (.dataViewAlias, .const (.view r w.base w.len)) :: (.offset, .let_ (natV off)) :: E

/-- The variables at the `switch`. -/
abbrev fieldEnv (E : Env) (r : Nat) (w : Ts.View) (off i k : Nat) : Env :=
  (.index, .let_ (.big i)) :: (.payloadSize, .let_ (natV k)) :: loopEnv E r w off

/-- What the `switch` does. -/
def Steps (P : Prog) (path : List Str) (code : Cases) (E : Env) (h : List Obj) (sc : Nat → UInt8) (r : Nat) (w : Ts.View) (off i k p : Nat) (fs : NFields) :
    Except Ts.Err (Option (Nat × fs.erase.Slots)) → Prop
  | .ok none => Ev fun n => code.exec (ctx P path n) (.big i) false ⟨fieldEnv E r w off i k, h, sc⟩ =
      some (.brk, ⟨fieldEnv E r w (off + k) i k, h, sc⟩)
  | .ok (some (o, m)) => ∃ E' h' sc', h <+: h' ∧ slotsRep (from_ p h') E' fs m ∧
      (∀ x, (∀ n ∈ fs.names, x ≠ .field n) → lookup x E' = lookup x E ∧ assignable x E' = assignable x E) ∧
      Ev fun n => code.exec (ctx P path n) (.big i) false ⟨fieldEnv E r w off i k, h, sc⟩ =
        some (.brk, ⟨fieldEnv E' r w (o + off) i k, h', sc'⟩)
  | .error e => e ≠ .fuel → ∃ env' h' sc', h <+: h' ∧
      Ev fun n => code.exec (ctx P path n) (.big i) false ⟨fieldEnv E r w off i k, h, sc⟩ = some (.throw e, ⟨env', h', sc'⟩)

theorem exec_structCases {ns ns' : Namespace} {s : Schema} {path : List Str} (hc : P.Clear path) (E : Env) (h : List Obj) (sc : Nat → UInt8) (r : Nat) (w : Ts.View)
    (off i k p : Nat) (hr : h[r]? = some (.buf w.buf)) (hp : p ≤ h.length) : (l : List Field) → (fs : NFields) →
    FieldsHave T (fun tv t => NamedType T S ns s tv t ∧ DesOk T S P ns s tv t) l fs → FieldNames T l →
    (∀ f ∈ l, Resolves T S P path s ns ns' f.type.variant) → (m : fs.erase.Slots) → slotsRep (from_ p h) E fs m →
    Steps P path (structCases T s ns' l) E h sc r w off i k p fs (Ts.fieldsStep fs.erase i k (Ts.View.new w.buf (w.base + off) k) m)
  | [], _, .nil, _, _, _, _ => by
    refine .of fun n => (run_done _ _).symm.trans ?_
    unfold structCases skipField
    tsrun
  | f :: l, _, .cons (t := t) (fs := fs) hQ hF, hN, hres, m, hm => by
    obtain ⟨o, m⟩ := m
    obtain ⟨⟨v, h1, h2, h3⟩, h4⟩ := hm
    have ih := exec_structCases hc E h sc r w off i k p hr hp l fs hF hN.tail (fun g hg => hres g (List.mem_cons_of_mem _ hg)) m h4
    show Steps P path _ E h sc r w off i k p (.cons (fieldName T f) f.index f.rule t fs) (Ts.fieldsStep (.cons f.index f.rule t.erase fs.erase) i k (Ts.View.new w.buf (w.base + off) k) (o, m))
    by_cases hi : i = f.index
    · subst hi
      by_cases hb : w.base + off + k ≤ w.buf.length
      · have hn : Ts.View.new w.buf (w.base + off) k = some ⟨w.buf, w.base + off, k⟩ := by unfold Ts.View.new; rw [if_pos hb]
        rw [hn]
        have h5 := hQ.2 ns' path true k ((.dataView, .const (.view r (w.base + off) k)) :: (.oldOffset, .const (natV off)) :: (.payload, .uninit) ::
          fieldEnv E r w 0 f.index k) h sc r ⟨w.buf, w.base + off, k⟩ hc (hres f (List.mem_cons_self ..)) ⟨hr, hb, rfl⟩ rfl rfl rfl (fun _ => rfl)
        rw [desOf_true] at h5
        cases hd : Ts.tDeser t.erase k ⟨w.buf, w.base + off, k⟩ with
        | error e =>
          rw [hd] at h5
          rw [fieldsStep_hit_error hd]
          intro he
          obtain ⟨env', h', hp', sc', N, h5⟩ := h5 he
          refine ⟨env'.drop 3, h', sc', hp', N, fun n hn => (run_done _ _).symm.trans ?_⟩
          unfold structCases enterField
          tsrun [strictEq, deserialization_declared, subView, hc.root, Ex.buffer, Ex.byteOffset, run_newView_some hr _ _ _ hb]
          refine (run_eq (h5 n hn) _).trans ?_
          tsrun
        | ok q =>
          obtain ⟨o2, a⟩ := q
          rw [hd] at h5
          rw [fieldsStep_hit_ok hd]
          obtain ⟨x, h', hp', hx, sc', N, h5⟩ := h5
          have ha : assignable (local_ T f) E = true := h2
          refine ⟨setCell (local_ T f) (.let_ x) E, h', sc', hp', ⟨⟨x, lookup_setCell _ (.inr ha), assignable_setCell _ (.inr ha), tRep_mono (from_le hp List.prefix_rfl) t a x hx⟩, ?_⟩, ?_, N, fun n hn => (run_done _ _).symm.trans ?_⟩
          · refine slotsRep_mono (from_le (Nat.le_refl _) hp') fs ?_ m h4
            intro n hn
            rw [names_of hF, List.mem_map] at hn
            obtain ⟨g, hg, rfl⟩ := hn
            have hne := local_ne (hN.ne hg)
            exact ⟨lookup_setCell_ne hne _ _, assignable_setCell_ne hne _ _⟩
          · intro y hy
            have hne : y ≠ local_ T f := hy _ (List.mem_cons_self ..)
            exact ⟨lookup_setCell_ne hne _ _, assignable_setCell_ne hne _ _⟩
          unfold structCases enterField
          tsrun [strictEq, deserialization_declared, subView, hc.root, Ex.buffer, Ex.byteOffset, run_newView_some hr _ _ _ hb]
          refine (run_eq (h5 n hn) _).trans ?_
          unfold local_ at ha ⊢
          tsrun [ha]
      · have hn : Ts.View.new w.buf (w.base + off) k = none := by unfold Ts.View.new; rw [if_neg hb]
        rw [hn, fieldsStep_hit_none]
        have hnv := fun env κ => run_newView_none hr env sc κ (base := (w.base + off : Nat)) (len := k) (by omega)
        show Ts.Err.range ≠ .fuel → _
        refine fun _ => ⟨fieldEnv E r w off f.index k, h, sc, List.prefix_rfl, .of fun n => (run_done _ _).symm.trans ?_⟩
        unfold structCases enterField
        tsrun [strictEq, deserialization_declared, subView, hc.root, Ex.buffer, Ex.byteOffset, hnv]
    · have hskip : ∀ n, (structCases T s ns' (f :: l)).exec (ctx P path n) (.big i) false ⟨fieldEnv E r w off i k, h, sc⟩ =
          (structCases T s ns' l).exec (ctx P path n) (.big i) false ⟨fieldEnv E r w off i k, h, sc⟩ := by
        intro n
        refine (run_done _ _).symm.trans ?_
        conv => lhs; unfold structCases
        rw [run_case_block]
        have : strictEq (.big i) (Lit.big f.index).val = some false := by
          simp only [Lit.val, strictEq]
          rw [decide_eq_false (by omega)]
        rw [this, caseK_false, run_done]
      cases hd : Ts.fieldsStep fs.erase i k (Ts.View.new w.buf (w.base + off) k) m with
      | error e =>
        rw [hd] at ih
        rw [fieldsStep_miss_error hi hd]
        intro he
        obtain ⟨env', h', sc', hp', ih⟩ := ih he
        exact ⟨env', h', sc', hp', ih.mono fun n hn => (hskip n).trans hn⟩
      | ok q =>
        rw [hd] at ih
        cases q with
        | none =>
          rw [fieldsStep_miss_none hi hd]
          exact Ev.mono (show Ev _ from ih) fun n hn => (hskip n).trans hn
        | some q =>
          obtain ⟨o2, m2⟩ := q
          rw [fieldsStep_miss_some hi hd]
          obtain ⟨E', h', sc', hp', ih1, ih2, ih3⟩ := ih
          have hl : ∀ n ∈ fs.names, local_ T f ≠ .field n := by
            intro n hn
            rw [names_of hF, List.mem_map] at hn
            obtain ⟨g, hg, rfl⟩ := hn
            exact (local_ne (hN.ne hg)).symm
          have hl' := ih2 _ hl
          exact ⟨E', h', sc', hp', ⟨⟨v, hl'.1.trans h1, hl'.2.trans h2, slotRep_imp (fun a v h => tRep_mono (from_le (Nat.le_refl _) hp') t a v h) h3⟩, ih1⟩,
            fun x hx => ih2 x fun n hn => hx n (List.mem_cons_of_mem _ hn), ih3.mono fun n hn => (hskip n).trans hn⟩

theorem structCases_declared (s : Schema) (ns : Namespace) : (l : List Field) → (structCases T s ns l).declared = []
  | [] => rfl
  | f :: l => by
    unfold structCases
    rw [Cases.declared, structCases_declared s ns l]
    rfl

/-- The body of the loop of a struct's `deserializeUnsafe` function. -/
abbrev structBody (T : CharTable) (s : Schema) (ns : Namespace) (fields : List Field) : Stms :=
  stms [
    .letVars [.index, .payloadSize],
    .blank,
    .try_ (stms [.assignTuple [.offset, .index, .payloadSize] readHeader]) breakAtEnd,
    .blank,
    .switch (v .index) (structCases T s ns fields)]

theorem struct_loop {ns ns' : Namespace} {s : Schema} {path : List Str} (hc : P.Clear path) (r : Nat) (w : Ts.View) (p : Nat) (hw : w.base + w.len ≤ w.buf.length)
    {l : List Field} {fs : NFields} (hF : FieldsHave T (fun tv t => NamedType T S ns s tv t ∧ DesOk T S P ns s tv t) l fs) (hN : FieldNames T l)
    (hres : ∀ f ∈ l, Resolves T S P path s ns ns' f.type.variant) : (fuel off : Nat) → (E : Env) → (h : List Obj) → (sc : Nat → UInt8) →
    h[r]? = some (.buf w.buf) → p ≤ h.length → (m : fs.erase.Slots) → slotsRep (from_ p h) E fs m →
    match Ts.structLoop (Ts.fieldsStep fs.erase) w fuel off m with
    | .ok m' => ∃ off' E' h' sc', h <+: h' ∧ slotsRep (from_ p h') E' fs m' ∧
        Loops (fun n => Ex.eval (ctx P path n) (.lit (.bool true)))
        (fun n => .block [.index, .payloadSize] (Stms.exec (ctx P path n) (structBody T s ns' l)))
        ⟨loopEnv E r w off, h, sc⟩ (.val .undef, ⟨loopEnv E' r w off', h', sc'⟩)
    | .error e => e ≠ .fuel → ∃ env' h' sc', h <+: h' ∧
        Loops (fun n => Ex.eval (ctx P path n) (.lit (.bool true)))
        (fun n => .block [.index, .payloadSize] (Stms.exec (ctx P path n) (structBody T s ns' l)))
        ⟨loopEnv E r w off, h, sc⟩ (.throw e, ⟨env', h', sc'⟩)
  | 0, _, _, _, _, _, _, _, _ => fun h => absurd rfl h
  | fuel + 1, off, E, h, sc, hr, hp, m, hm => by
    have hcond : ∀ s : St, Ev fun n => Ex.eval (ctx P path n) (.lit (.bool true)) s = some (.val (.bool true), s) :=
      fun s => .of fun n => (run_done _ _).symm.trans (by tsrun)
    obtain ⟨sc1, h1⟩ := callFn_deserializeFieldHeader hc.top hr hw off ((.index, .let_ .undef) :: (.payloadSize, .let_ .undef) :: loopEnv E r w off) sc
    rw [Ts.structLoop]
    cases hd : Ts.deserializeFieldHeader w off with
    | none =>
      rw [hd] at h1
      refine ⟨off, E, h, sc1, List.prefix_rfl, hm, .brk (hcond _) ⟨18, fun n hn => (run_done _ _).symm.trans ?_⟩⟩
      tsrun [readHeader, hc.runtime]
      refine (run_eq (h1 n hn) _).trans ?_
      tsrun [headerOut, breakAtEnd, hc.root, Val.isA]
    | some q =>
      obtain ⟨o, i, k⟩ := q
      rw [hd] at h1
      have h2 := exec_structCases hc E h sc1 r w o i k p hr hp l fs hF hN hres m hm
      simp only
      cases hs : Ts.fieldsStep fs.erase i k (Ts.View.new w.buf (w.base + o) k) m with
      | error e =>
        rw [hs] at h2
        intro he
        obtain ⟨env', h', sc2, hp', N, h2⟩ := h2 he
        refine ⟨env'.drop 2, h', sc2, hp', .throw (hcond _) ⟨N + 18, fun n hn => (run_done _ _).symm.trans ?_⟩⟩
        tsrun [readHeader, hc.runtime]
        refine (run_eq (h1 n (by omega)) _).trans ?_
        tsrun [headerOut, structCases_declared]
        refine (run_eq (h2 n (by omega)) _).trans ?_
        tsrun
      | ok q =>
        rw [hs] at h2
        cases q with
        | none =>
          obtain ⟨N, h2⟩ := (show Ev _ from h2)
          have hbody : Ev fun n => M.block [.index, .payloadSize] (Stms.exec (ctx P path n) (structBody T s ns' l)) ⟨loopEnv E r w off, h, sc⟩ =
              some (.val .undef, ⟨loopEnv E r w (o + k), h, sc1⟩) := by
            refine ⟨N + 18, fun n hn => (run_done _ _).symm.trans ?_⟩
            tsrun [readHeader, hc.runtime]
            refine (run_eq (h1 n (by omega)) _).trans ?_
            tsrun [headerOut, structCases_declared]
            refine (run_eq (h2 n (by omega)) _).trans ?_
            tsrun
          have ih := struct_loop hc r w p hw hF hN hres fuel (o + k) E h sc1 hr hp m hm
          simp only
          cases hl : Ts.structLoop (Ts.fieldsStep fs.erase) w fuel (o + k) m with
          | error e =>
            rw [hl] at ih
            intro he
            obtain ⟨env', h', sc', hp', ih⟩ := ih he
            exact ⟨env', h', sc', hp', .next (hcond _) hbody ih⟩
          | ok m' =>
            rw [hl] at ih
            obtain ⟨off', E', h', sc', hp', hm', ih⟩ := ih
            exact ⟨off', E', h', sc', hp', hm', .next (hcond _) hbody ih⟩
        | some q =>
          obtain ⟨o2, m2⟩ := q
          obtain ⟨E2, h2', sc2, hp2, hm2, -, N, h2⟩ := h2
          have hbody : Ev fun n => M.block [.index, .payloadSize] (Stms.exec (ctx P path n) (structBody T s ns' l)) ⟨loopEnv E r w off, h, sc⟩ =
              some (.val .undef, ⟨loopEnv E2 r w (o2 + o), h2', sc2⟩) := by
            refine ⟨N + 18, fun n hn => (run_done _ _).symm.trans ?_⟩
            tsrun [readHeader, hc.runtime]
            refine (run_eq (h1 n (by omega)) _).trans ?_
            tsrun [headerOut, structCases_declared]
            refine (run_eq (h2 n (by omega)) _).trans ?_
            tsrun
          have ih := struct_loop hc r w p hw hF hN hres fuel (o2 + o) E2 h2' sc2 (prefix_get hp2 hr) (Nat.le_trans hp hp2.length_le) m2 hm2
          simp only
          cases hl : Ts.structLoop (Ts.fieldsStep fs.erase) w fuel (o2 + o) m2 with
          | error e =>
            rw [hl] at ih
            intro he
            obtain ⟨env', h', sc', hp', ih⟩ := ih he
            exact ⟨env', h', sc', hp2.trans hp', .next (hcond _) hbody ih⟩
          | ok m' =>
            rw [hl] at ih
            obtain ⟨off', E', h', sc', hp', hm', ih⟩ := ih
            exact ⟨off', E', h', sc', hp2.trans hp', hm', .next (hcond _) hbody ih⟩

/-- The variables for fields before anything is read. -/
theorem empty_rep {Q : TypeVariant → NTy → Prop} {H : Part} {E : Env} : {l : List Field} → {fs : NFields} → FieldsHave T Q l fs →
    (∀ f ∈ l, lookup (local_ T f) E = some .undef ∧ assignable (local_ T f) E = true) → slotsRep H E fs fs.erase.emptySlots
  | _, _, .nil, _ => trivial
  | f :: l, _, .cons (t := t) (fs := fs) hQ hF, hE =>
    ⟨⟨.undef, (hE f (List.mem_cons_self ..)).1, (hE f (List.mem_cons_self ..)).2, rfl⟩, empty_rep hF fun g hg => hE g (List.mem_cons_of_mem _ hg)⟩

theorem structDeserialize_declared (s : Schema) (ns : Namespace) (l : List Field) :
    (structDeserialize T s ns l).declared = .dataViewAlias :: .offset :: l.map (local_ T) := by
  unfold structDeserialize
  simp only [Stms.declared_append, declareLocals_declared]
  have h1 : (if l.any (fun f => decide (f.rule = .required)) then
    stms [.ifAny (args (missingConditions T l)) (stms [.throwMissing]), .blank] else Stms.nil).declared = [] := by split <;> rfl
  have h2 : (if l.isEmpty then Stms.nil else stms [.blank]).declared = [] := by split <;> rfl
  rw [h1, h2]
  simp [Stms.ofList, Stms.declared, Stm.declared, structLoop]

theorem slots_bound {Q : TypeVariant → NTy → Prop} {H : Part} {E : Env} : {l : List Field} → {fs : NFields} → FieldsHave T Q l fs →
    (m : fs.erase.Slots) → slotsRep H E fs m → ∀ f ∈ l, ∃ v, lookup (local_ T f) E = some v
  | _, _, .cons (t := t) (fs := fs) hQ hF, m, ⟨⟨v, h1, _⟩, h2⟩, g, hg => by
    cases List.mem_cons.mp hg with
    | inl e => subst e; exact ⟨v, h1⟩
    | inr e => exact slots_bound hF m.2 h2 g e

theorem cDeser_struct_error {isField : Bool} {fs : Fields} {k : Nat} {w : Ts.View} {e : Ts.Err}
    (h : Ts.structLoop (Ts.fieldsStep fs) w (w.len + 1) 0 fs.emptySlots = .error e) : Ts.cDeser isField (.struct fs) k w = .error e := by
  simp [Ts.cDeser, h]
theorem cDeser_struct_missing {isField : Bool} {fs : Fields} {k : Nat} {w : Ts.View} {m : fs.Slots}
    (h : Ts.structLoop (Ts.fieldsStep fs) w (w.len + 1) 0 fs.emptySlots = .ok m) (h2 : fs.finish m = none) :
    Ts.cDeser isField (.struct fs) k w = .error .missing := by
  simp [Ts.cDeser, h, h2]
theorem cDeser_struct_ok {isField : Bool} {fs : Fields} {k : Nat} {w : Ts.View} {m : fs.Slots} {x : fs.Struct .inn}
    (h : Ts.structLoop (Ts.fieldsStep fs) w (w.len + 1) 0 fs.emptySlots = .ok m) (h2 : fs.finish m = some x) :
    Ts.cDeser isField (.struct fs) k w = .ok (w.len, x) := by
  simp [Ts.cDeser, h, h2]

theorem desFn_struct (ns : Namespace) (s : Schema) (d : Declaration) (fs : NFields) {ns' : Namespace}
    (hR : Ready T S P ns s d ns') (hd : d.variant = .struct)
    (hF : FieldsHave T (fun tv t => NamedType T S ns s tv t ∧ DesOk T S P ns s tv t) d.fields fs) :
    DesFnOk P (.struct (declName T ns d) fs) := by
  intro isField k env h sc r w hr hw
  let E : Env := (d.fields.map (local_ T)).map (fun x => (x, Cell.let_ .undef)) ++ [(.dataView, .let_ (.view r w.base w.len))]
  have hE := empty_rep (H := from_ h.length h) (E := E) hF (fun f hf => lookup_locals _ _ hf)
  have hl := struct_loop hR.clear r w h.length hw hF hR.names hR.resolves (w.len + 1) 0 E h sc hr (Nat.le_refl _) _ hE
  have hb : (declCode T s ns' d).body .deserializeUnsafe = structDeserialize T s ns' d.fields := by simp only [declCode, hd]
  have hnd : (TVar.dataViewAlias :: TVar.offset :: d.fields.map (local_ T) ++ [TVar.dataView]).Nodup := by
    rw [List.nodup_append]
    refine ⟨List.nodup_cons.mpr ⟨?_, List.nodup_cons.mpr ⟨not_local (local_ne_of (x := .offset) nofun), locals_nodup hR.names⟩⟩, by simp, ?_⟩
    · rw [List.mem_cons]
      rintro (e | e)
      · cases e
      · exact not_local (local_ne_of (x := .dataViewAlias) nofun) e
    intro x hx y hy e
    rw [List.mem_singleton] at hy
    subst hy e
    simp only [List.mem_cons, reduceCtorEq, false_or] at hx
    exact not_local (local_ne_of (x := .dataView) nofun) hx
  have hdecl : ∀ (c : Ctx), (declareLocals T d.fields).exec c ⟨(.dataViewAlias, .const (.view r w.base w.len)) :: (.offset, .let_ (natV 0)) ::
      ((d.fields.map (local_ T)).map (fun x => (x, Cell.uninit)) ++ [(.dataView, .let_ (.view r w.base w.len))]), h, sc⟩ =
      some (.val .undef, ⟨loopEnv E r w 0, h, sc⟩) := by
    intro c
    unfold declareLocals
    cases hf : d.fields with
    | nil => simp only [E, hf]; rfl
    | cons f l =>
      simp only [List.isEmpty_cons, Bool.false_eq_true, if_false, E, hf]
      refine (run_done _ _).symm.trans ?_
      simp only [stms, Stms.ofList]
      rw [run_stms_cons, run_letVars]
      have := exec_declareAll h sc [(.dataView, .let_ (.view r w.base w.len))] (d.fields.map (local_ T)) (locals_nodup hR.names)
        [(.dataViewAlias, .const (.view r w.base w.len)), (.offset, .let_ (natV 0))] ?_
      · rw [hf] at this
        refine (run_eq this _).trans ?_
        tsrun
      · intro x hx q hq e
        simp only [List.mem_cons, List.not_mem_nil, or_false] at hq
        rw [List.mem_map] at hx
        obtain ⟨g, _, rfl⟩ := hx
        rcases hq with rfl | rfl <;> cases e
  have hstart : ∀ n, callFn P (n + 1) (.decl (declPath T ns.components d) .deserializeUnsafe) [.view r w.base w.len] ⟨env, h, sc⟩ =
      run (rounds (Ex.eval (ctx P (declPath T ns.components d) n) (.lit (.bool true)))
        (.block [.index, .payloadSize] (Stms.exec (ctx P (declPath T ns.components d) n) (structBody T s ns' d.fields))) n) ⟨loopEnv E r w 0, h, sc⟩
        (thenK (fun _ => Stms.exec (ctx P (declPath T ns.components d) n) (stms [.blank]))
        (thenK (fun _ => Stms.exec (ctx P (declPath T ns.components d) n) (if d.fields.any (fun f => decide (f.rule = .required)) then
            stms [.ifAny (args (missingConditions T d.fields)) (stms [.throwMissing]), .blank] else .nil))
        (thenK (fun _ => Stms.exec (ctx P (declPath T ns.components d) n) (stms [.return_ (.objLines (localInits T d.fields))]))
          (returnK env doneK)))) := by
    intro n
    refine (run_done _ _).symm.trans ?_
    rw [callFn_decl hR.code, hb, structDeserialize_declared, run_frame, if_pos ⟨rfl, hnd⟩]
    unfold structDeserialize
    tsrun [Fn.params, lookup_past (T := T) (l := d.fields) .uninit [(.dataView, .let_ (.view r w.base w.len))] (local_ne_of (x := .dataView) nofun)]
    refine (run_eq (hdecl _) _).trans ?_
    tsrun
    rw [run_optBlank]
    tsrun [structLoop, run_while]
  show Returns P (.struct (declName T ns d) fs) env h sc r w (Ts.cDeser isField (.struct fs.erase) k w)
  cases hd : Ts.structLoop (Ts.fieldsStep fs.erase) w (w.len + 1) 0 fs.erase.emptySlots with
  | error e =>
    rw [cDeser_struct_error hd]
    rw [hd] at hl
    intro he
    obtain ⟨env', h', sc', hp', hl⟩ := hl he
    obtain ⟨N, hl⟩ := hl.ev
    refine ⟨h', sc', hp', N + 1, fun n hn => ?_⟩
    obtain ⟨n, rfl⟩ : ∃ q, n = q + 1 := ⟨n - 1, by omega⟩
    refine (hstart n).trans ((run_eq (hl n (by omega)) _).trans ?_)
    tsrun
  | ok m =>
    rw [hd] at hl
    obtain ⟨off, E', h', sc', hp', hm, hl⟩ := hl
    obtain ⟨N, hl⟩ := hl.ev
    have hm' : slotsRep (from_ h.length h') (loopEnv E' r w off) fs m :=
      slotsRep_mono (fun _ _ h => h) fs (fun n _ => ⟨by tsrun, by tsrun⟩) m hm
    have hany : ∀ (n : Nat) (κ : Out → St → Option (Out × St)), run (Stms.exec (ctx P (declPath T ns.components d) n) (if d.fields.any (fun f => decide (f.rule = .required)) then
            stms [.ifAny (args (missingConditions T d.fields)) (stms [.throwMissing]), .blank] else .nil)) ⟨loopEnv E' r w off, h', sc'⟩ κ =
          κ (if (fs.erase.finish m).isNone then .throw .missing else .val .undef) ⟨loopEnv E' r w off, h', sc'⟩ := by
      intro n κ
      split
      · simp only [stms, Stms.ofList]
        rw [run_stms_cons, run_ifAny, run_missing _ h' sc' _ hF m hm']
        cases (fs.erase.finish m).isNone <;> tsrun [run_throwMissing hR.clear]
      · next hh =>
        rw [finish_of_none hF (by simpa using hh) m]
        tsrun
    cases hf : fs.erase.finish m with
    | none =>
      rw [cDeser_struct_missing hd hf]
      intro _
      rw [hf] at hany
      refine ⟨h', sc', hp', N + 1, fun n hn => ?_⟩
      obtain ⟨n, rfl⟩ : ∃ q, n = q + 1 := ⟨n - 1, by omega⟩
      refine (hstart n).trans ((run_eq (hl n (by omega)) _).trans ?_)
      tsrun
      refine (hany n _).trans ?_
      tsrun [Option.isNone_none, Option.isNone_some]
    | some x =>
      rw [cDeser_struct_ok hd hf]
      rw [hf] at hany
      let val : Field → Val := fun f => (lookup (local_ T f) (loopEnv E' r w off)).getD .undef
      have hval : ∀ f ∈ d.fields, lookup (local_ T f) (loopEnv E' r w off) = some (val f) := by
        intro f hf
        obtain ⟨w, hw⟩ := slots_bound hF m hm' f hf
        simp only [val, hw, Option.getD_some]
      refine ⟨rfl, .obj (d.fields.map fun f => (tsCamel T f.name, val f)), h', sc', hp', ⟨_, rfl, ?_, finish_rep fs m hm' x hf _ ?_⟩, N + 1, fun n hn => ?_⟩
      · intro _
        rw [names_of hF, List.map_map]
        rfl
      · intro n hn
        rw [names_of hF, List.mem_map] at hn
        obtain ⟨f, hf, rfl⟩ := hn
        rw [member_locals val hR.names f hf]
        exact (hval f hf).symm
      obtain ⟨n, rfl⟩ : ∃ q, n = q + 1 := ⟨n - 1, by omega⟩
      refine (hstart n).trans ((run_eq (hl n (by omega)) _).trans ?_)
      tsrun
      refine (hany n _).trans ?_
      tsrun [Option.isNone_none, Option.isNone_some]
      rw [run_localInits _ T val _ _ hval]
      tsrun

end

end Typical.TsGen

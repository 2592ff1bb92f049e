import Verif.Gen.DesArray
import Verif.TotalLemmas

/-!
# Helper: the generated deserializers of structs
-/

namespace Typical.Gen

theorem header_index {s r : Bytes} {i n : Nat} (h : deserializeFieldHeader s = some (i, n, r)) : i < 2 ^ 64 := by
  unfold deserializeFieldHeader at h
  cases hv : deserializeVarint s with
  | none => rw [hv] at h; cases h
  | some p =>
    obtain ⟨x, r1⟩ := p
    have hx := (x >>> 2).toNat_lt
    rw [hv] at h
    simp only at h
    split at h
    · cases h; exact hx
    · split at h
      · cases h; exact hx
      · split at h
        · cases r1 with
          | nil => cases h
          | cons b r1 => cases h; exact hx
        · cases hv2 : deserializeVarint r1 with
          | none => rw [hv2] at h; cases h
          | some p =>
            rw [hv2] at h
            cases h
            exact hx

theorem header_size {s r : Bytes} {i n : Nat} (h : deserializeFieldHeader s = some (i, n, r)) : n < 2 ^ 64 := by
  rcases deserializeFieldHeader_size h with h | ⟨_, x, _, _, _, rfl⟩
  · omega
  · exact x.toNat_lt

theorem lookup_append_other {x : Var} : ∀ {bs env : List (Var × Val)}, (∀ p ∈ bs, p.1 ≠ x) → lookup x (bs ++ env) = lookup x env
  | [], _, _ => rfl
  | p :: bs, env, h => by
    rw [List.cons_append, lookup, if_neg (fun g => h p List.mem_cons_self g.symm)]
    exact lookup_append_other (fun q hq => h q (List.mem_cons_of_mem _ hq))

theorem assign_append_other {x : Var} {y : Val} : ∀ {bs env : List (Var × Val)}, (∀ p ∈ bs, p.1 ≠ x) →
    assign x y (bs ++ env) = bs ++ assign x y env
  | [], _, _ => rfl
  | p :: bs, env, h => by
    rw [List.cons_append, assign, if_neg (fun g => h p List.mem_cons_self g.symm),
      assign_append_other (fun q hq => h q (List.mem_cons_of_mem _ hq)), List.cons_append]

/-- The value of a variable for a field. -/
def encOpt {α : Type} (f : α → Val) : Option α → Val
  | none => .none
  | some a => .some (f a)

/-- The variables for fields in a struct's deserializer. -/
def NFields.slotsEnv : (fs : NFields) → fs.erase.Slots → List (Var × Val) → List (Var × Val)
  | .nil, _, env => env
  | .cons n _ _ t rest, os, env => NFields.slotsEnv rest os.2 ((.field n.member, encOpt (t.enc .inn) os.1) :: env)

/-- The same, as a list. -/
def NFields.slotList : (fs : NFields) → fs.erase.Slots → List (Str × Val)
  | .nil, _ => []
  | .cons n _ _ t rest, os => (n.member, encOpt (t.enc .inn) os.1) :: NFields.slotList rest os.2

theorem slotsEnv_other (x : Var) : (fs : NFields) → (os : fs.erase.Slots) → (env : List (Var × Val)) →
    (∀ n ∈ fs.members, x ≠ .field n) → lookup x (fs.slotsEnv os env) = lookup x env
  | .nil, _, _, _ => rfl
  | .cons n i r t rest, os, env, h => by
    rw [NFields.slotsEnv, slotsEnv_other x rest os.2 _ (fun m hm => h m (List.mem_cons_of_mem _ hm))]
    simp only [lookup, if_neg (h n.member List.mem_cons_self)]

theorem slotsEnv_assign (x : Var) (y : Val) : (fs : NFields) → (os : fs.erase.Slots) → (env : List (Var × Val)) →
    (∀ n ∈ fs.members, x ≠ .field n) → assign x y (fs.slotsEnv os env) = fs.slotsEnv os (assign x y env)
  | .nil, _, _, _ => rfl
  | .cons n i r t rest, os, env, h => by
    rw [NFields.slotsEnv, slotsEnv_assign x y rest os.2 _ (fun m hm => h m (List.mem_cons_of_mem _ hm))]
    simp only [assign, if_neg (h n.member List.mem_cons_self)]
    rfl

theorem slotsEnv_field : (fs : NFields) → (os : fs.erase.Slots) → (env : List (Var × Val)) → fs.members.Nodup →
    ∀ n x, (n, x) ∈ fs.slotList os → lookup (.field n) (fs.slotsEnv os env) = some x
  | .nil, _, _, _, n, x, h => by cases h
  | .cons m i r t rest, os, env, hn, n, x, h => by
    have hn' := List.nodup_cons.mp hn
    rw [NFields.slotsEnv]
    cases h with
    | head =>
      rw [slotsEnv_other _ rest os.2 _ (fun k hk g => hn'.1 (by injection g with g; rw [g]; exact hk))]
      simp [lookup]
    | tail _ h => exact slotsEnv_field rest os.2 _ hn'.2 n x h

theorem slotsEnv_length : (fs : NFields) → (os : fs.erase.Slots) → (env : List (Var × Val)) →
    (fs.slotsEnv os env).length = fs.members.length + env.length
  | .nil, _, _ => by simp [NFields.slotsEnv, NFields.members]
  | .cons n i r t rest, a, env => by
    simp only [NFields.slotsEnv, NFields.members, List.length_cons]
    rw [slotsEnv_length rest a.2]
    simp only [List.length_cons]
    omega

theorem getOrInsert_run {α : Type} (lim : Nat) (f : α → Val) (o : Option α) (a : α) :
    MutMethod.run lim .getOrInsert (encOpt f o) (f a) = some (.val .unit, encOpt f (getOrInsert o a)) := by
  cases o <;> rfl

/-- The variables in the arms of `match index`. -/
def armEnv (l : List Bytes) (i n : Nat) : List (Var × Val) :=
  [(.subReader, .reader (l.length + 1)), (.payloadSize, .usize n), (.index, .u64 (UInt64.ofNat i))]

section
variable {T : CharTable} {S : Schemas} {P : Prog} {ns : Namespace} {sch : Schema}

theorem skip_eval {F : Fam} {l : List Bytes} {i n : Nat} (hn : n < 2 ^ 64) {env : List (Var × Val)} {out : Bytes} {b : Bytes} :
    (∀ b', skip n b = .ok b' → Evals F (.block (tryThen (.runtime F.t.1.length .skip (args [.refMut (v .subReader), v .payloadSize])) .done))
      ⟨armEnv l i n ++ env, out, b :: l⟩ (.val .unit, ⟨armEnv l i n ++ env, out, b' :: l⟩)) ∧
    (∀ e, skip n b = .error e → Fails F (.block (tryThen (.runtime F.t.1.length .skip (args [.refMut (v .subReader), v .payloadSize])) .done))
      ⟨armEnv l i n ++ env, out, b :: l⟩ e) := by
  have ha := Avail.self l b
  have h1 : lookup .subReader (armEnv l i n ++ env) = some (.reader (l.length + 1)) := by simp [armEnv, lookup]
  have h2 : lookup .payloadSize (armEnv l i n ++ env) = some (.usize n) := by simp [armEnv, lookup]
  refine ⟨fun b' h => ?_, fun e h => ?_⟩
  · have : Evals F (.runtime F.t.1.length .skip (args [.refMut (v .subReader), v .payloadSize]))
        ⟨armEnv l i n ++ env, out, b :: l⟩ (.val (.ok .unit), ⟨armEnv l i n ++ env, out, b' :: l⟩) := .of fun m => by
      rw [Ex.eval, if_pos (by rfl)]
      simp only [args, Args.eval, v, Ex.eval, M.bind, M.get, h1, h2, Option.map_some, RuntimeFn.run, if_pos hn, withReader_eval ha, h]
    exact (this.tryOk.seq .done).block
  · have he : e = .hang := by
      unfold skip at h
      split at h <;> cases h
      rfl
    subst he
    have : Evals F (.try_ (.runtime F.t.1.length .skip (args [.refMut (v .subReader), v .payloadSize])))
        ⟨armEnv l i n ++ env, out, b :: l⟩ (.fail .hang, ⟨armEnv l i n ++ env, out, b :: l⟩) := .of fun m => by
      rw [Ex.eval, Ex.eval, if_pos (by rfl)]
      simp only [args, Args.eval, v, Ex.eval, M.bind, M.get, h1, h2, Option.map_some, RuntimeFn.run, if_pos hn, withReader_eval ha, h]
    exact Fails.block (Fails.seq ⟨_, this⟩)

/-- What follows a payload in the deserializer of a struct. -/
def useStruct (f : Field) : Ex := .seq (.mutate (fieldVar f) .getOrInsert (v .payload)) .done

theorem structArms_eval {F : Fam} (hF : F.P = P) (ht : F.t.1 = ns.components.map rustSnake) {ns' : Namespace} {i n : Nat} (hi : i < 2 ^ 64)
    (hsz : n < 2 ^ 64)    {l : List Bytes} {out : Bytes} {b : Bytes} {fl : List Field} {fs : NFields} :
    FieldsHave T (fun tv t => NamedType T S ns sch tv t ∧ DesT T S P ns sch tv t) fl fs →
    (∀ f ∈ fl, RefsOk T S ns sch ns' f.type.variant) → fs.members.Nodup → (os : fs.erase.Slots) → (base : List (Var × Val)) →
    (∀ os' b', Fields.step F.lim fs.erase i n b os = .ok (some (os', b')) →
      Ev (fun m => (indexArms T F.t.1.length sch ns' useStruct fl).eval (F.ctx m) (.u64 (UInt64.ofNat i))
        ⟨armEnv l i n ++ fs.slotsEnv os base, out, b :: l⟩ = some (.val .unit, ⟨armEnv l i n ++ fs.slotsEnv os' base, out, b' :: l⟩))) ∧
    (Fields.step F.lim fs.erase i n b os = .ok none → ∀ b', skip n b = .ok b' →
      Ev (fun m => (indexArms T F.t.1.length sch ns' useStruct fl).eval (F.ctx m) (.u64 (UInt64.ofNat i))
        ⟨armEnv l i n ++ fs.slotsEnv os base, out, b :: l⟩ = some (.val .unit, ⟨armEnv l i n ++ fs.slotsEnv os base, out, b' :: l⟩))) ∧
    (∀ e, (Fields.step F.lim fs.erase i n b os = .error e ∨ Fields.step F.lim fs.erase i n b os = .ok none ∧ skip n b = .error e) →
      e ≠ .fuel → ∃ st, Ev (fun m => (indexArms T F.t.1.length sch ns' useStruct fl).eval (F.ctx m) (.u64 (UInt64.ofNat i))
        ⟨armEnv l i n ++ fs.slotsEnv os base, out, b :: l⟩ = some (e.out, st)))
  | .nil, _, _, os, base => by
    obtain ⟨s1, s2⟩ := skip_eval (F := F) hsz (l := l) (i := i) (n := n) (env := base) (out := out) (b := b)
    refine ⟨fun os' b' h => (by cases h), fun h b' hs => ?_, fun e h hne => ?_⟩
    · exact Arms.hit (bs := []) rfl (s1 b' hs)
    · rcases h with h | ⟨_, h⟩
      · cases h
      · exact Arms.hitFails (bs := []) rfl (s2 e h)
  | .cons (f := f) (t := t) (l := fl') (fs := Fs) ⟨hty, hq⟩ hrest, hrf, hn, os, base => by
    obtain ⟨o, os⟩ := os
    have hn' := List.nodup_cons.mp hn
    have hpat : Pat.run F.t.1 (.int f.index) (.u64 (UInt64.ofNat i)) = some (if i = f.index then some [] else none) := by
      simp only [Pat.run, toNat_index hi]
    have hother : ∀ m ∈ Fs.members, fieldVar f ≠ .field m := fun m hm g => hn'.1 (by
      simp only [fieldVar] at g
      injection g with g
      show rustSnake f.name ∈ _
      rw [g]; exact hm)
    by_cases hif : i = f.index
    · have hst : Fields.step F.lim (NFields.cons (fieldName T f) f.index f.rule t Fs).erase i n b (o, os) =
          (match Ty.deser F.lim t.erase n b with
          | .error e => .error e
          | .ok (v, s) => .ok (some ((getOrInsert o v, os), s))) := by
        show Fields.step F.lim (.cons f.index f.rule t.erase Fs.erase) i n b (o, os) = _
        rw [Fields.step, if_pos hif]
        cases Ty.deser F.lim t.erase n b <;> rfl
      rw [hst, ← NTy.deserOf_true]
      let env := NFields.slotsEnv (.cons (fieldName T f) f.index f.rule t Fs) (o, os) base
      obtain ⟨q1, q2⟩ := hq F hF ht ns' (hrf f List.mem_cons_self) true n b l (armEnv l i n ++ env) out (useStruct f)
        (by simp [armEnv, lookup]) (fun _ => by simp [armEnv, lookup])
      cases hd : t.deserOf F.lim true n b with
      | error e =>
        refine ⟨fun os' b' h => (by cases h), fun h => (by cases h), fun e' h hne => ?_⟩
        rcases h with h | ⟨h, _⟩
        · cases h
          exact Arms.hitFails (bs := []) (by rw [hpat, if_pos hif]) (Fails.block (q2 e hd hne))
        · cases h
      | ok r =>
        obtain ⟨m, b'⟩ := r
        refine ⟨fun os' b'' h => ?_, fun h => (by cases h), fun e' h hne => (by rcases h with h | ⟨h, _⟩ <;> cases h)⟩
        cases h
        obtain ⟨o', s', ⟨rfl, rfl⟩, q⟩ := q1 m b' hd (fun o' s' => o' = .val .unit ∧ s' = ⟨armEnv l i n ++
            NFields.slotsEnv (.cons (fieldName T f) f.index f.rule t Fs) (getOrInsert o m, os) base, out, b' :: l⟩) (by
          intro el bs hbs hp
          have hb1 : ∀ p ∈ bs, p.1 ≠ fieldVar f := fun p hp g => by
            rcases hbs p hp with h | h <;> rw [h] at g <;> cases g
          have hb2 : ∀ p ∈ armEnv l i n, p.1 ≠ fieldVar f := fun p hp g => by
            simp only [armEnv, List.mem_cons, List.not_mem_nil, or_false] at hp
            rcases hp with rfl | rfl | rfl <;> cases g
          have e1 : lookup (fieldVar f) (bs ++ (armEnv l i n ++ env)) = some (encOpt (t.enc .inn) o) := by
            rw [lookup_append_other hb1, lookup_append_other hb2]
            simp only [env, NFields.slotsEnv]
            rw [slotsEnv_other _ Fs os _ hother]
            simp [lookup, fieldVar, fieldName]
          have e2 : assign (fieldVar f) (encOpt (t.enc .inn) (getOrInsert o m)) (bs ++ (armEnv l i n ++ env)) = bs ++ (armEnv l i n ++
              NFields.slotsEnv (.cons (fieldName T f) f.index f.rule t Fs) (getOrInsert o m, os) base) := by
            rw [assign_append_other hb1, assign_append_other hb2]
            simp only [env, NFields.slotsEnv]
            rw [slotsEnv_assign _ _ Fs os _ hother]
            simp [assign, fieldVar, fieldName]
          refine ⟨.val .unit, ⟨bs ++ (armEnv l i n ++
              NFields.slotsEnv (.cons (fieldName T f) f.index f.rule t Fs) (getOrInsert o m, os) base), out, b' :: l⟩, ⟨rfl, ?_⟩, Evals.seq (Evals.mutate (.var hp) e1 (getOrInsert_run _ _ _ _)) ?_⟩
          · simp
          · rw [e2]
            exact .done)
        exact Arms.hit (bs := []) (by rw [hpat, if_pos hif]) q.block
    · have hst : Fields.step F.lim (NFields.cons (fieldName T f) f.index f.rule t Fs).erase i n b (o, os) =
          (match Fields.step F.lim Fs.erase i n b os with
          | .error e => .error e
          | .ok none => .ok none
          | .ok (some (os, s)) => .ok (some ((o, os), s))) := by
        show Fields.step F.lim (.cons f.index f.rule t.erase Fs.erase) i n b (o, os) = _
        rw [Fields.step, if_neg hif]
        cases Fields.step F.lim Fs.erase i n b os with
        | error e => rfl
        | ok r => cases r <;> rfl
      rw [hst]
      obtain ⟨i1, i2, i3⟩ := structArms_eval hF ht hi hsz (l := l) (out := out) (b := b) (n := n) hrest
        (fun g hg => hrf g (List.mem_cons_of_mem _ hg)) hn'.2 os ((.field (fieldName T f).member, encOpt (t.enc .inn) o) :: base)
      have hm := fun {r : Out × St} {st : St} (h : Ev (fun m => (indexArms T F.t.1.length sch ns' useStruct fl').eval (F.ctx m)
          (.u64 (UInt64.ofNat i)) st = some r)) => Arms.miss (p := .int f.index)
        (b := .block (deserializationInvocation T F.t.1.length sch ns' true (useStruct f) f.type.variant)) (by rw [hpat, if_neg hif]) h
      refine ⟨fun os' b' h => ?_, fun h b' hs => ?_, fun e h hne => ?_⟩
      · cases hr : Fields.step F.lim Fs.erase i n b os with
        | error e => rw [hr] at h; cases h
        | ok r =>
          rw [hr] at h
          cases r with
          | none => cases h
          | some r =>
            cases h
            exact hm (i1 _ _ hr)
      · cases hr : Fields.step F.lim Fs.erase i n b os with
        | error e => rw [hr] at h; cases h
        | ok r =>
          rw [hr] at h
          cases r with
          | some r => cases h
          | none => exact hm (i2 hr b' hs)
      · have : Fields.step F.lim Fs.erase i n b os = .error e ∨ Fields.step F.lim Fs.erase i n b os = .ok none ∧ skip n b = .error e := by
          cases hr : Fields.step F.lim Fs.erase i n b os with
          | error e' =>
            rw [hr] at h
            rcases h with h | ⟨h, _⟩
            · cases h; exact .inl rfl
            · cases h
          | ok r =>
            rw [hr] at h
            cases r with
            | some r => rcases h with h | ⟨h, _⟩ <;> cases h
            | none =>
              rcases h with h | ⟨_, h⟩
              · cases h
              · exact .inr ⟨rfl, h⟩
        obtain ⟨st, h⟩ := i3 e this hne
        exact ⟨st, hm h⟩

/-! ### The loop -/

/-- A round of the loop of a struct's deserializer. -/
def structRound (T : CharTable) (supers : Nat) (sch : Schema) (ns' : Namespace) (fl : List Field) : Ex :=
  .letPair .index .payloadSize
    (.matchLines (.runtime supers .deserializeFieldHeader (args [.refMut (.deref (v .reader))]))
      (.cons (.ok .header) (v .header) (.cons (.err .err) (breakAtEnd true) .nil)))
    (dispatch (indexArms T supers sch ns' useStruct fl))

theorem Evals.letPair {F : Fam} {w w' : Var} {e e' : Ex} {s : St} {x x' : Val} {env env' : List (Var × Val)} {out out' : Bytes}
    {rds rds' : List Bytes} {o : Out} {y y' : Var × Val} (h : Evals F e s (.val (.pair x x'), ⟨env, out, rds⟩))
    (h' : Evals F e' ⟨(w', x') :: (w, x) :: env, out, rds⟩ (o, ⟨y :: y' :: env', out', rds'⟩)) :
    Evals F (.letPair w w' e e') s (o, ⟨env', out', rds'⟩) :=
  (h.and h').mono fun n ⟨h, h'⟩ => by
    simp only [Ex.eval, M.bind, h, M.scoped, List.cons_append, List.nil_append, h']
    rfl

theorem Evals.letPairOut {F : Fam} {w w' : Var} {e e' : Ex} {s s' : St} {o : Out} (h : Evals F e s (o, s')) (ho : ∀ x, o ≠ .val x) :
    Evals F (.letPair w w' e e') s (o, s') :=
  h.mono fun n h => by
    simp only [Ex.eval, M.bind, h]
    cases o with
    | val x => exact absurd rfl (ho x)
    | _ => rfl

theorem Fails.letPairRight {F : Fam} {w w' : Var} {e e' : Ex} {s : St} {x x' : Val} {E : Err} {env : List (Var × Val)} {out : Bytes}
    {rds : List Bytes} (h : Evals F e s (.val (.pair x x'), ⟨env, out, rds⟩))
    (h' : Fails F e' ⟨(w', x') :: (w, x) :: env, out, rds⟩ E) : Fails F (.letPair w w' e e') s E := by
  obtain ⟨s', h'⟩ := h'
  refine ⟨{ s' with env := s'.env.drop 2 }, (h.and h').mono fun n ⟨h, h'⟩ => ?_⟩
  simp only [Ex.eval, M.bind, h, M.scoped, List.cons_append, List.nil_append, h']
  rfl

/-- `dispatch`: the arms are executed with the reader for the payload. -/
theorem dispatch_eval {F : Fam} {arms : Arms} {i n : Nat} (hn : n < 2 ^ 64) {l : List Bytes} {b : Bytes} {env env' : List (Var × Val)}
    {out out' : Bytes} {rds' : List Bytes} {o : Out} (hr : lookup .reader env = some (.reader (l.length + 1)))
    (h : Ev (fun m => arms.eval (F.ctx m) (.u64 (UInt64.ofNat i)) ⟨armEnv (b.drop n :: l) i n ++ env, out, b.take n :: b.drop n :: l⟩ =
      some (o, ⟨armEnv (b.drop n :: l) i n ++ env', out', rds'⟩))) :
    Evals F (dispatch arms) ⟨(.payloadSize, .usize n) :: (.index, .u64 (UInt64.ofNat i)) :: env, out, b :: l⟩
      (o, ⟨(.payloadSize, .usize n) :: (.index, .u64 (UInt64.ofNat i)) :: env', out', rds'⟩) := by
  have h2 := takeEval (F := F) (env := (.payloadSize, .usize n) :: (.index, .u64 (UInt64.ofNat i)) :: env) (out := out)
    (e := .refMut (.deref (v .reader))) (e' := .asU64 (v .payloadSize)) (.self l b)
    (Evals.var (by simp [lookup, hr])).deref.refMut (Evals.asU64 (x := n) (Evals.var (by simp [lookup])))
  rw [toNat_index hn] at h2
  exact Evals.blank (Evals.letIn h2 (x' := .reader (l.length + 1 + 1)) (Evals.blank (Evals.matchArms (.var (by simp [lookup])) h)))

theorem dispatch_fails {F : Fam} {arms : Arms} {i n : Nat} (hn : n < 2 ^ 64) {l : List Bytes} {b : Bytes} {env : List (Var × Val)}
    {out : Bytes} {E : Err} (hr : lookup .reader env = some (.reader (l.length + 1)))
    (h : ∃ st, Ev (fun m => arms.eval (F.ctx m) (.u64 (UInt64.ofNat i)) ⟨armEnv (b.drop n :: l) i n ++ env, out, b.take n :: b.drop n :: l⟩ =
      some (E.out, st))) :
    Fails F (dispatch arms) ⟨(.payloadSize, .usize n) :: (.index, .u64 (UInt64.ofNat i)) :: env, out, b :: l⟩ E := by
  have h2 := takeEval (F := F) (env := (.payloadSize, .usize n) :: (.index, .u64 (UInt64.ofNat i)) :: env) (out := out)
    (e := .refMut (.deref (v .reader))) (e' := .asU64 (v .payloadSize)) (.self l b)
    (Evals.var (by simp [lookup, hr])).deref.refMut (Evals.asU64 (x := n) (Evals.var (by simp [lookup])))
  rw [toNat_index hn] at h2
  exact Fails.blank (Fails.letRight h2 (Fails.blank (Fails.matchArms (.var (by simp [lookup])) h)))

theorem skip_take {n : Nat} {b : Bytes} : (∀ b', skip n b = .ok b' → skip n (b.take n) = .ok [] ∧ b' = b.drop n) ∧
    (∀ e, skip n b = .error e → skip n (b.take n) = .error e) := by
  unfold skip
  simp only [List.length_take]
  by_cases h : n ≤ b.length
  · rw [if_pos h, if_pos (by omega)]
    exact ⟨fun b' g => ⟨by simp, by cases g; rfl⟩, fun e g => by cases g⟩
  · rw [if_neg h, if_neg (by omega)]
    exact ⟨fun b' g => (by cases g), fun e g => g⟩

theorem structLoop_eval {F : Fam} (hF : F.P = P) (ht : F.t.1 = ns.components.map rustSnake) {ns' : Namespace}
    {l : List Bytes} {out : Bytes} {fl : List Field} {fs : NFields}
    (hq : FieldsHave T (fun tv t => NamedType T S ns sch tv t ∧ DesT T S P ns sch tv t) fl fs)
    (hrf : ∀ f ∈ fl, RefsOk T S ns sch ns' f.type.variant) (hn : fs.members.Nodup) (base : List (Var × Val))
    (hr : lookup .reader base = some (.reader (l.length + 1))) :
    ∀ (fuel : Nat) (b : Bytes) (rds : List Bytes) (os : fs.erase.Slots), Avail (l.length + 1) l b rds →
      (∀ os', structLoop (Fields.step F.lim fs.erase) fuel b os = .ok os' →
        Loops F (structRound T F.t.1.length sch ns' fl) ⟨fs.slotsEnv os base, out, rds⟩
          (.val .unit, ⟨fs.slotsEnv os' base, out, [] :: l⟩)) ∧
      (∀ e, structLoop (Fields.step F.lim fs.erase) fuel b os = .error e → e ≠ .fuel →
        ∃ st, Loops F (structRound T F.t.1.length sch ns' fl) ⟨fs.slotsEnv os base, out, rds⟩ (e.out, st))
  | 0, _, _, _, _ => ⟨fun _ h => (by cases h), fun _ h hne => absurd (by cases h; rfl) hne⟩
  | fuel + 1, b, rds, os, ha => by
    rw [structLoop]
    have hre : ∀ os, lookup .reader (fs.slotsEnv os base) = some (.reader (l.length + 1)) := fun os => by
      rw [slotsEnv_other _ _ _ _ (fun _ _ g => by cases g), hr]
    have hrd : Evals F (.refMut (.deref (v .reader))) ⟨fs.slotsEnv os base, out, rds⟩
        (.val (.reader (l.length + 1)), ⟨fs.slotsEnv os base, out, rds⟩) := (Evals.var (hre os)).deref.refMut
    cases hd : deserializeFieldHeader b with
    | none =>
      refine ⟨fun os' h => ?_, fun e h => (by cases h)⟩
      cases h
      exact Loops.brk (Evals.letPairOut (Evals.matchArms (readHeader_none rfl ha hrd hd) (Arms.miss (by simp [Pat.run])
        (Arms.hit (bs := [(.err, .err .unexpectedEof)]) (by simp [Pat.run]) (breakAtEnd_eval true (by simp [lookup]))))) (by simp))
    | some r =>
      obtain ⟨i, n, b'⟩ := r
      have hi := header_index hd
      have hsz := header_size hd
      simp only
      have h1 : Evals F (.matchLines (.runtime F.t.1.length .deserializeFieldHeader (args [.refMut (.deref (v .reader))]))
          (.cons (.ok .header) (v .header) (.cons (.err .err) (breakAtEnd true) .nil))) ⟨fs.slotsEnv os base, out, rds⟩
          (.val (.pair (.u64 (UInt64.ofNat i)) (.usize n)), ⟨fs.slotsEnv os base, out, b' :: l⟩) :=
        Evals.matchArms (readHeader_some rfl ha hrd hd)
          (Arms.hit (bs := [(.header, .pair (.u64 (UInt64.ofNat i)) (.usize n))]) (by simp [Pat.run]) (.var (by simp [lookup])))
      obtain ⟨a1, a2, a3⟩ := structArms_eval hF ht hi (header_size hd) (l := b'.drop n :: l) (out := out) (b := b'.take n) hq hrf hn os base
      have fails : ∀ e, (Fields.step F.lim fs.erase i n (b'.take n) os = .error e ∨
          Fields.step F.lim fs.erase i n (b'.take n) os = .ok none ∧ skip n (b'.take n) = .error e) → e ≠ .fuel →
          ∃ st, Loops F (structRound T F.t.1.length sch ns' fl) ⟨fs.slotsEnv os base, out, rds⟩ (e.out, st) := by
        intro e h hne
        obtain ⟨st, h⟩ := Fails.letPairRight (w := .index) (w' := .payloadSize) h1 (dispatch_fails hsz (hre os) (a3 e h hne))
        exact ⟨st, Loops.fails h⟩
      cases he : Fields.step F.lim fs.erase i n (b'.take n) os with
      | error e =>
        refine ⟨fun os' h => (by cases h), fun e' h hne => ?_⟩
        cases h
        exact fails e (.inl he) hne
      | ok r =>
        cases r with
        | some r =>
          obtain ⟨os₁, r⟩ := r
          simp only
          have step := Evals.letPair (w := .index) (w' := .payloadSize) h1 (dispatch_eval hsz (hre os) (a1 os₁ r he))
          obtain ⟨i1, i2⟩ := structLoop_eval hF ht hq hrf hn base hr (out := out) fuel (r ++ b'.drop n) (r :: b'.drop n :: l) os₁ (.sub l r _)
          refine ⟨fun os' h => Loops.step step (i1 os' h), fun e h hne => ?_⟩
          obtain ⟨st, h⟩ := i2 e h hne
          exact ⟨st, Loops.step step h⟩
        | none =>
          simp only
          cases hk : skip n b' with
          | error e =>
            refine ⟨fun os' h => (by cases h), fun e' h hne => ?_⟩
            cases h
            exact fails e (.inr ⟨he, skip_take.2 e hk⟩) hne
          | ok b'' =>
            obtain ⟨k1, rfl⟩ := skip_take.1 _ hk
            have step := Evals.letPair (w := .index) (w' := .payloadSize) h1 (dispatch_eval hsz (hre os) (a2 he _ k1))
            obtain ⟨i1, i2⟩ := structLoop_eval hF ht hq hrf hn base hr (out := out) fuel (b'.drop n) ([] :: b'.drop n :: l) os (.sub l [] _)
            refine ⟨fun os' h => Loops.step step (i1 os' h), fun e h hne => ?_⟩
            obtain ⟨st, h⟩ := i2 e h hne
            exact ⟨st, Loops.step step h⟩

/-! ### The check for missing fields and the result -/

/-- Is a required field missing? -/
def NFields.missing : (fs : NFields) → fs.erase.Slots → Bool
  | .nil, _ => false
  | .cons _ _ r _ rest, os => (decide (r = .required) && os.1.isNone) || NFields.missing rest os.2

theorem finish_missing : (fs : NFields) → (os : fs.erase.Slots) → (fs.erase.finish os = none ↔ fs.missing os = true)
  | .nil, _ => by simp [NFields.erase, Fields.finish, NFields.missing]
  | .cons n i r t rest, os => by
    obtain ⟨o, os⟩ := os
    have ih := finish_missing rest os
    have e : Fields.finish (NFields.cons n i r t rest).erase (o, os) =
        (match finishSlot (r.mayOmit .inn) o, rest.erase.finish os with
        | some a, some b => some (a, b)
        | _, _ => none) := by
      show Fields.finish (.cons i r t.erase rest.erase) (o, os) = _
      rw [Fields.finish]
      cases finishSlot (r.mayOmit .inn) o <;> cases rest.erase.finish os <;> rfl
    rw [e]
    simp only [NFields.missing, Bool.or_eq_true, ← ih]
    cases r <;> cases o <;> cases rest.erase.finish os <;> simp [finishSlot, Rule.mayOmit]

theorem missing_eval (c : Ctx) (st : St) {fl : List Field} {fs : NFields} : NamedFields T S ns sch fl fs → (os : fs.erase.Slots) →
    (∀ n x, (n, x) ∈ fs.slotList os → lookup (.field n) st.env = some x) →
    (args ((fl.filter (fun f => f.rule == .required)).map (fun f => (v (fieldVar f)).m .isNone))).or c st =
      some (.val (.bool (fs.missing os)), st)
  | .nil, os, h => rfl
  | .cons (f := f) (t := t) (Fs := Fs) h1 h2, os, h => by
    obtain ⟨o, os⟩ := os
    have h0 := h _ _ List.mem_cons_self
    have ih := missing_eval c st h2 os (fun n x hm => h n x (List.mem_cons_of_mem _ hm))
    simp only [fieldName] at h0
    obtain ⟨sr, cm, rule, nm, ty, idx⟩ := f
    cases rule with
    | required =>
      simp only [List.filter_cons, beq_self_eq_true, if_true, List.map_cons, args, Args.or, Ex.m, v, fieldVar, Ex.eval, M.bind, M.get,
        h0, Option.map_some, Args.eval]
      cases o with
      | none => rfl
      | some a =>
        simp only [encOpt, Method.run, M.pure]
        refine Eq.trans ih ?_
        simp [NFields.missing]
    | _ =>
      simp only [List.filter_cons]
      rw [if_neg (by decide), ih]
      simp [NFields.missing]

theorem result_eval (c : Ctx) (k : List (Str × Val) → M) (st : St) {fl : List Field} {fs : NFields} :
    NamedFields T S ns sch fl fs → (os : fs.erase.Slots) → (m : fs.erase.Struct .inn) → fs.erase.finish os = some m →
    (∀ n x, (n, x) ∈ fs.slotList os → lookup (.field n) st.env = some x) →
    (inits (fl.map (fun f => (rustSnake f.name, if f.rule = .required then (v (fieldVar f)).m .unwrap else v (fieldVar f))))).eval c k st =
      k (fs.encStruct .inn m) st
  | .nil, os, m, _, h => rfl
  | .cons (f := f) (t := t) (fs := fl') (Fs := Fs) h1 h2, os, m, hf, h => by
    obtain ⟨o, os⟩ := os
    have h0 := h _ _ List.mem_cons_self
    simp only [fieldName] at h0
    obtain ⟨a, m⟩ := m
    obtain ⟨hs, hf⟩ : finishSlot (f.rule.mayOmit .inn) o = some a ∧ Fs.erase.finish os = some m := by
      have e : Fields.finish (NFields.cons (fieldName T f) f.index f.rule t Fs).erase (o, os) =
          (match finishSlot (f.rule.mayOmit .inn) o, Fs.erase.finish os with
          | some a, some b => some (a, b)
          | _, _ => none) := by
        show Fields.finish (.cons f.index f.rule t.erase Fs.erase) (o, os) = _
        rw [Fields.finish]
        cases finishSlot (f.rule.mayOmit .inn) o <;> cases Fs.erase.finish os <;> rfl
      rw [e] at hf
      cases h1 : finishSlot (f.rule.mayOmit .inn) o with
      | none => rw [h1] at hf; cases hf
      | some a' =>
        cases h2 : Fs.erase.finish os with
        | none => rw [h1, h2] at hf; cases hf
        | some m' =>
          rw [h1, h2] at hf
          cases hf
          exact ⟨rfl, rfl⟩
    have ih := fun k => result_eval c k st h2 os m hf (fun n x hm => h n x (List.mem_cons_of_mem _ hm))
    simp only [List.map_cons, inits, Inits.eval, NFields.encStruct, fieldName]
    obtain ⟨sr, cm, rule, nm, ty, idx⟩ := f
    cases rule with
    | required =>
      simp only [finishSlot, Rule.mayOmit] at hs
      subst hs
      simp only [if_true, Ex.m, v, fieldVar, Ex.eval, M.bind, M.get, h0, Option.map_some, Args.eval, encOpt, Method.run, M.pure]
      exact ih _
    | _ =>
      have hs : o = a := Option.some.inj hs
      subst hs
      simp only [reduceCtorEq, if_false, v, fieldVar, Ex.eval, M.bind, M.get, h0, Option.map_some]
      cases o <;> exact ih _

end

end Typical.Gen

import Verif.Gen.DesType

/-!
# Helper: the generated code which reads arrays
-/

namespace Typical.Gen

section
variable {T : CharTable} {S : Schemas} {P : Prog} {ns : Namespace} {sch : Schema}

theorem scalarLoop_fuel {α : Type} (f : Bytes → Option (α × Bytes)) : ∀ (k : Nat) (s : Bytes) {e : Err}, scalarLoop f k s = .error e → e = .fuel
  | 0, _, e, h => by cases h; rfl
  | k + 1, s, e, h => by
    rw [scalarLoop] at h
    split at h
    · cases h
    · next hd =>
      split at h
      · next e' hl => cases h; exact scalarLoop_fuel f k _ hl
      · cases h

/-- The function `deserialize_element`, at the end of input. -/
theorem elem_none {F : Fam} {tv : TypeVariant} {sc : Scalar} (h : IsScalar tv sc) {l : List Bytes} {env : List (Var × Val)} {out : Bytes}
    (ns' : Namespace) (rest : Ex) (hs : lookup .subReader env = some (.reader (l.length + 1))) {b : Bytes}
    (hb : readScalarElem sc b = none) :
    Evals F (deserializationInvocation T F.t.1.length sch ns' false rest tv) ⟨env, out, b :: l⟩
      (.ret (.err .unexpectedEof), ⟨env, out, [] :: l⟩) := by
  have key : deserializeVarint b = none → ∀ rest', Evals F (u64Deserialization F.t.1.length false rest') ⟨env, out, b :: l⟩
      (.ret (.err .unexpectedEof), ⟨env, out, [] :: l⟩) := fun h rest' =>
    (readU64_fails (F := F) (out := out) (e := .eof) (n := 0) false hs (fun g => by cases g)
      (by simp [readU64Elem, h])).2.letOut (by simp)
  cases h with
  | bool =>
    refine key ?_ _
    simp only [readScalarElem] at hb
    cases hd : deserializeVarint b with
    | none => rfl
    | some r => rw [hd] at hb; cases hb
  | s64 =>
    refine key ?_ _
    simp only [readScalarElem] at hb
    cases hd : deserializeVarint b with
    | none => rfl
    | some r => rw [hd] at hb; cases hb
  | u64 => exact key hb _
  | f64 =>
    simp only [readScalarElem] at hb
    simp only [deserializationInvocation, Bool.false_eq_true, if_false]
    cases hd : readExact 8 b with
    | none => exact Evals.letIn .lit ((readBuffer_none false hs hd).seqOut (by simp))
    | some r => rw [hd] at hb; cases hb

/-- The code of the function `deserialize_element`. -/
def elemEx (T : CharTable) (supers : Nat) (sch : Schema) (ns' : Namespace) (tv : TypeVariant) : Ex :=
  deserializationInvocation T supers sch ns' false (.std .ok (args [v .payload])) tv

/-- The function `deserialize_element`, when there is an element. -/
theorem elem_some {F : Fam} (hF : F.P = P) (ht : F.t.1 = ns.components.map rustSnake) {ns' : Namespace} {tv : TypeVariant} {sc : Scalar}
    (hrf : RefsOk T S ns sch ns' tv)
    (h : IsScalar tv sc) {l : List Bytes} {env : List (Var × Val)} {out : Bytes}
    (hs : lookup .subReader env = some (.reader (l.length + 1))) {b b' : Bytes} {x : sc.Val}
    (hb : readScalarElem sc b = some (x, b')) :
    ∃ env', Evals F (elemEx T F.t.1.length sch ns' tv) ⟨env, out, b :: l⟩ (.val (.ok (encScalar sc x)), ⟨env', out, b' :: l⟩) := by
  have hsz : sized tv = false := by cases h <;> rfl
  obtain ⟨h1, -⟩ := scalar_des (T := T) (S := S) (P := P) (ns := ns) (sch := sch) h F hF ht ns' hrf false 0 b l env out
    (.std .ok (args [v .payload])) hs (fun g => by simp [hsz] at g)
  have e : NTy.deserOf F.lim false (.scalar sc) 0 b = .ok (x, b') := by
    show readScalarElemRes sc b = _
    rw [readScalarElemRes, hb]
    rfl
  obtain ⟨o, s', hr, hev⟩ := h1 x b' e (fun o s' => o = .val (.ok (encScalar sc x)) ∧ s'.out = out ∧ s'.readers = b' :: l) (by
    intro el bs hbs hp
    refine ⟨_, ⟨bs ++ env, out, b' :: l⟩, ⟨rfl, rfl, rfl⟩, .of fun n => ?_⟩
    simp only [Ex.eval, Args.eval, args, v, M.bind, M.get, hp, Option.map_some, StdFn.run, M.pure]
    rfl)
  obtain ⟨env', o', r'⟩ := s'
  obtain ⟨rfl, rfl, rfl⟩ := hr
  exact ⟨env', hev⟩

/-- The loop which reads the elements of an array of scalars. -/
def scalarLoopEx : Ex :=
  .seq (.mutate .payload .push
    (.matchLines (.callFn (.refMut (v .subReader)))
      (.cons (.ok .element) (v .element) (.cons (.err .err) (breakAtEnd false) .nil)))) .done

theorem scalarLoop_eval {F G : Fam} (hF : F.P = P) (ht : F.t.1 = ns.components.map rustSnake) {ns' : Namespace} {tv : TypeVariant} {sc : Scalar}
    (hrf : RefsOk T S ns sch ns' tv) (h : IsScalar tv sc)
    (hG : G.el = fun n x => ((elemEx T F.t.1.length sch ns' tv).eval (F.ctx n)).frame [(.subReader, x)])
    {l : List Bytes} {env : List (Var × Val)} {out : Bytes} (hs : lookup .subReader env = some (.reader (l.length + 1))) :
    ∀ (fuel : Nat) (b : Bytes) (acc as : List sc.Val), scalarLoop (readScalarElem sc) fuel b = .ok as →
      Loops G scalarLoopEx ⟨(.payload, .vec (acc.map (encScalar sc))) :: env, out, b :: l⟩
        (.val .unit, ⟨(.payload, .vec ((acc ++ as).map (encScalar sc))) :: env, out, [] :: l⟩)
  | 0, _, _, _, hl => by cases hl
  | fuel + 1, b, acc, as, hl => by
    rw [scalarLoop] at hl
    have hcall : ∀ {o o' : Out} {env' : List (Var × Val)} {rds : List Bytes}, Evals F (elemEx T F.t.1.length sch ns' tv)
          ⟨[(.subReader, .reader (l.length + 1))], out, b :: l⟩ (o, ⟨env', out, rds⟩) → Ends o o' →
        Evals G (.callFn (.refMut (v .subReader))) ⟨(.payload, .vec (acc.map (encScalar sc))) :: env, out, b :: l⟩
          (o', ⟨(.payload, .vec (acc.map (encScalar sc))) :: env, out, rds⟩) := by
      intro o o' env' rds h ho
      refine h.mono fun n h => ?_
      simp only [Ex.eval, v, M.bind, M.get, lookup, reduceCtorEq, if_false, hs, Option.map_some, Fam.ctx_elem, hG, M.frame, h]
      cases ho <;> rfl
    cases hd : readScalarElem sc b with
    | none =>
      rw [hd] at hl
      obtain rfl : [] = as := by simpa using hl
      have h1 := hcall (elem_none (F := F) (T := T) (sch := sch) h ns' (.std .ok (args [v .payload])) (l := l) (out := out)
        (env := [(.subReader, .reader (l.length + 1))]) (by simp [lookup]) hd) (.ret _)
      rw [List.append_nil]
      refine Loops.brk (Evals.seqOut (Evals.mutateOut (Evals.matchArms h1 (Arms.miss (by simp [Pat.run])
        (Arms.hit (bs := [(.err, .err .unexpectedEof)]) (by simp [Pat.run]) (breakAtEnd_eval false (by simp [lookup]))))) (by simp)) (by simp))
    | some r =>
      obtain ⟨x, b'⟩ := r
      rw [hd] at hl
      simp only at hl
      cases hl' : scalarLoop (readScalarElem sc) fuel b' with
      | error e => rw [hl'] at hl; cases hl
      | ok as' =>
        rw [hl'] at hl
        obtain rfl : x :: as' = as := by simpa using hl
        obtain ⟨env', h1⟩ := elem_some (S := S) hF ht hrf h (l := l) (out := out) (env := [(.subReader, .reader (l.length + 1))]) (by simp [lookup]) hd
        have h1 := hcall h1 (.val _)
        have h2 := scalarLoop_eval hF ht hrf h hG (out := out) hs fuel b' (acc ++ [x]) as' hl'
        rw [List.append_assoc, List.singleton_append] at h2
        refine Loops.step (Evals.seq (Evals.mutate (x := encScalar sc x) (o := .val .unit) (y := .vec (acc.map (encScalar sc)))
          (z := .vec ((acc ++ [x]).map (encScalar sc))) (Evals.matchArms h1
          (Arms.hit (bs := [(.element, encScalar sc x)]) (by simp [Pat.run]) (Evals.var (by simp [lookup])))) (by simp [lookup])
          (by simp [MutMethod.run])) .done) ?_
        simp only [assign, if_true]
        exact h2

theorem scalars_des {rg : SourceRange} {inner : TypeVariant} {sc : Scalar} (h : NamedType T S ns sch inner (.scalar sc)) :
    DesT T S P ns sch (.array rg inner) (.comp (.scalars sc)) := by
  intro F hF ht ns' hrf isField n b l env out rest hs hn
  have hn := hn (.inr rfl)
  have hsz := sized_scalar h
  have hu : inner ≠ .unit := fun g => by subst g; cases h
  have e0 : NTy.deserOf F.lim isField (.comp (.scalars sc)) n b = (if sc = .f64 ∧ ¬ 8 * n ≤ F.lim then .error .panic
      else match scalarLoop (readScalarElem sc) (b.length + 1) b with
        | .error e => .error e
        | .ok as => .ok (as, [])) := rfl
  rw [e0]
  have hfe : inner = .f64 ↔ sc = .f64 := by cases h.isScalar <;> simp
  have hrf' : RefsOk T S ns sch ns' inner := fun i n k' hm => hrf i n k' (.array hm)
  simp only [deserializationInvocation, hsz, Bool.false_eq_true, if_false, if_neg hu]
  have hloop := fun as (hl : scalarLoop (readScalarElem sc) (b.length + 1) b = .ok as) => 
    scalarLoop_eval (G := { F with el := fun n x => ((elemEx T F.t.1.length sch ns' inner).eval (F.ctx n)).frame [(.subReader, x)] })
      hF ht hrf' h.isScalar rfl (out := out) hs _ b [] as hl
  by_cases hp : sc = .f64 ∧ ¬ 8 * n ≤ F.lim
  · rw [if_pos hp]
    refine ⟨fun m b' h' R hrest => (by cases h'), fun e h' hne => ?_⟩
    obtain rfl : Err.panic = e := by simpa using h'
    rw [if_pos (hfe.mpr hp.1)]
    refine Fails.letFn (Fails.letRight .lit (Fails.seq ⟨_, Evals.mutate (x := .usize n) (y := .vec []) (z := .vec [])
      (Evals.var (by simp [lookup, hn])) (by simp [lookup, Lit.val]) (by simp [MutMethod.run, hp.2, Err.out])⟩))
  · rw [if_neg hp]
    refine ⟨fun m b' h' R hrest => ?_, fun e h' hne => ?_⟩
    · cases hl : scalarLoop (readScalarElem sc) (b.length + 1) b with
      | error e => rw [hl] at h'; cases h'
      | ok as =>
        rw [hl] at h'
        cases h'
        refine Leads.letFn (Leads.letIn .lit ?_)
        have fin := Leads.seq (hloop _ hl).loop (Then.one (fun el bs hbs hp => hrest el bs hbs hp))
        by_cases hf : inner = .f64
        · rw [if_pos hf]
          refine Leads.seq (Evals.mutate (x := .usize n) (y := .vec []) (z := .vec []) (o := .val .unit)
            (Evals.var (by simp [lookup, hn])) (by simp [lookup, Lit.val]) ?_) ?_
          · have : 8 * n ≤ F.lim := Decidable.byContradiction fun g => hp ⟨hfe.mp hf, g⟩
            simp [MutMethod.run, this]
          · simp only [assign, if_true]
            exact fin
        · rw [if_neg hf]
          exact fin
    · cases hl : scalarLoop (readScalarElem sc) (b.length + 1) b with
      | ok as => rw [hl] at h'; cases h'
      | error e' =>
        rw [hl] at h'
        cases h'
        exact absurd (scalarLoop_fuel _ _ _ hl) hne

/-- The loop which reads the elements of other arrays. -/
def arrayLoopEx (T : CharTable) (supers : Nat) (sch : Schema) (ns' : Namespace) (inner : TypeVariant) : Ex :=
  let' .payloadSize
    (.matchLines (.runtime supers .deserializeVarint (args [.refMut (v .subReader)]))
      (.cons (.ok .payloadSize) (.asUsize (v .payloadSize)) (.cons (.err .err) (breakAtEnd false) .nil)))
  (letMut .subReader (.std .take (args [.refMut (v .subReader), .asU64 (v .payloadSize)]))
  (.seq (.mutate .payload .push (.block
    (deserializationInvocation T supers sch ns' false (v .payload) inner))) .done))

theorem arrayLoop_eval {F : Fam} (hF : F.P = P) (ht : F.t.1 = ns.components.map rustSnake) {ns' : Namespace} {inner : TypeVariant}
    {c : NCTy} (hrf : RefsOk T S ns sch ns' inner) (hq : DesT T S P ns sch inner (.comp c))
    {l : List Bytes} {env : List (Var × Val)} {out : Bytes} (hs : lookup .subReader env = some (.reader (l.length + 1))) :
    ∀ (fuel : Nat) (b : Bytes) (rds : List Bytes) (acc : List (c.erase.Msg .inn)), Avail (l.length + 1) l b rds →
      (∀ ms, arrayLoop (c.erase.deser F.lim false) fuel b = .ok ms →
        Loops F (arrayLoopEx T F.t.1.length sch ns' inner) ⟨(.payload, .vec (acc.map (c.enc .inn))) :: env, out, rds⟩
          (.val .unit, ⟨(.payload, .vec ((acc ++ ms).map (c.enc .inn))) :: env, out, [] :: l⟩)) ∧
      (∀ e, arrayLoop (c.erase.deser F.lim false) fuel b = .error e → e ≠ .fuel →
        ∃ st, Loops F (arrayLoopEx T F.t.1.length sch ns' inner) ⟨(.payload, .vec (acc.map (c.enc .inn))) :: env, out, rds⟩
          (e.out, st))
  | 0, _, _, _, _ => ⟨fun _ h => (by cases h), fun _ h hne => absurd (by cases h; rfl) hne⟩
  | fuel + 1, b, rds, acc, ha => by
    rw [arrayLoop]
    have hr : ∀ {n}, Evals F (.refMut (v .subReader)) ⟨(.payload, n) :: env, out, rds⟩
        (.val (.reader (l.length + 1)), ⟨(.payload, n) :: env, out, rds⟩) := fun {n} =>
      (Evals.var (by simp [lookup, hs])).refMut
    cases hd : deserializeVarint b with
    | none =>
      refine ⟨fun ms h => ?_, fun e h => (by cases h)⟩
      cases h
      rw [List.append_nil]
      refine Loops.brk (Evals.letOut (Evals.matchArms (readVarint_none rfl ha hr hd) (Arms.miss (by simp [Pat.run])
        (Arms.hit (bs := [(.err, .err .unexpectedEof)]) (by simp [Pat.run]) (breakAtEnd_eval false (by simp [lookup]))))) (by simp))
    | some r =>
      obtain ⟨n, b'⟩ := r
      simp only
      let env₁ : List (Var × Val) := (.payloadSize, .usize n.toNat) :: (.payload, .vec (acc.map (c.enc .inn))) :: env
      let env₂ : List (Var × Val) := (.subReader, .reader (l.length + 1 + 1)) :: env₁
      have h1 : Evals F (.matchLines (.runtime F.t.1.length .deserializeVarint (args [.refMut (v .subReader)]))
          (.cons (.ok .payloadSize) (.asUsize (v .payloadSize)) (.cons (.err .err) (breakAtEnd false) .nil)))
          ⟨(.payload, .vec (acc.map (c.enc .inn))) :: env, out, rds⟩
          (.val (.usize n.toNat), ⟨(.payload, .vec (acc.map (c.enc .inn))) :: env, out, b' :: l⟩) :=
        Evals.matchArms (readVarint_some rfl ha hr hd) (Arms.hit (bs := [(.payloadSize, .u64 n)]) (by simp [Pat.run])
          (Evals.asUsize (Evals.var (by simp [lookup]))))
      have h2 := takeEval (F := F) (env := env₁) (out := out) (e := .refMut (v .subReader)) (e' := .asU64 (v .payloadSize)) (.self l b')
        (Evals.var (by simp [lookup, hs, env₁])).refMut (Evals.asU64 (x := n.toNat) (Evals.var (by simp [lookup, env₁])))
      simp only [UInt64.ofNat_toNat] at h2
      obtain ⟨q1, q2⟩ := hq F hF ht ns' hrf false n.toNat (b'.take n.toNat) (b'.drop n.toNat :: l) env₂ out (v .payload)
        (by simp [lookup, env₂]) (fun _ => by simp [lookup, env₂, env₁])
      cases he : c.erase.deser F.lim false n.toNat (b'.take n.toNat) with
      | error e =>
        refine ⟨fun ms h => (by cases h), fun e' h hne => ?_⟩
        cases h
        obtain ⟨st, h⟩ := Fails.letRight (b := false) h1 (Fails.letRight (b := true) h2
          (Fails.seq (e' := .done) (Fails.mutate (w := .payload) (m := .push) (Fails.block (q2 e he hne)))))
        exact ⟨_, Loops.fails h⟩
      | ok r =>
        obtain ⟨m, r⟩ := r
        obtain ⟨o, s', ⟨rfl, rfl⟩, q⟩ := q1 m r he (fun o s' => o = .val (c.enc .inn m) ∧ s' = ⟨env₂, out, r :: b'.drop n.toNat :: l⟩) (by
          intro el bs hbs hp
          refine ⟨_, ⟨bs ++ env₂, out, r :: b'.drop n.toNat :: l⟩, ⟨rfl, ?_⟩, .var hp⟩
          simp)
        have step : Evals F (arrayLoopEx T F.t.1.length sch ns' inner) ⟨(.payload, .vec (acc.map (c.enc .inn))) :: env, out, rds⟩
            (.val .unit, ⟨(.payload, .vec ((acc ++ [m]).map (c.enc .inn))) :: env, out, r :: b'.drop n.toNat :: l⟩) := by
          refine Evals.letIn h1 (Evals.letIn h2 (x' := .reader (l.length + 1 + 1)) (Evals.seq (Evals.mutate (o := .val .unit)
            (y := .vec (acc.map (c.enc .inn))) (z := .vec ((acc ++ [m]).map (c.enc .inn))) q.block (by simp [lookup, env₂, env₁])
            (by simp [MutMethod.run])) ?_)) (x' := .usize n.toNat)
          simp only [assign, env₂, env₁, reduceCtorEq, if_false, if_true]
          exact .done
        obtain ⟨i1, i2⟩ := arrayLoop_eval hF ht hrf hq (out := out) hs fuel (r ++ b'.drop n.toNat) (r :: b'.drop n.toNat :: l) (acc ++ [m])
          (.sub l r _)
        simp only
        cases hl : arrayLoop (c.erase.deser F.lim false) fuel (r ++ b'.drop n.toNat) with
        | error e =>
          refine ⟨fun ms h => (by cases h), fun e' h hne => ?_⟩
          cases h
          obtain ⟨st, h⟩ := i2 e hl hne
          exact ⟨st, Loops.step step h⟩
        | ok ms =>
          refine ⟨fun ms' h => ?_, fun e' h => (by cases h)⟩
          cases h
          have := i1 ms hl
          rw [List.append_assoc, List.singleton_append] at this
          exact Loops.step step this

theorem array_des {rg : SourceRange} {inner : TypeVariant} {c : NCTy} (h : NamedType T S ns sch inner (.comp c))
    (hq : DesT T S P ns sch inner (.comp c)) : DesT T S P ns sch (.array rg inner) (.comp (.array c)) := by
  intro F hF ht ns' hrf isField n b l env out rest hs hn
  have hsz := sized_comp h
  have e0 : NTy.deserOf F.lim isField (.comp (.array c)) n b = (match arrayLoop (c.erase.deser F.lim false) (b.length + 1) b with
        | .error e => .error e
        | .ok as => .ok (as, [])) := by
    show CTy.deser F.lim isField (.array c.erase) n b = _
    rw [CTy.deser]
    cases arrayLoop (c.erase.deser F.lim false) (b.length + 1) b <;> rfl
  rw [e0]
  have hrf' : RefsOk T S ns sch ns' inner := fun i n k' hm => hrf i n k' (.array hm)
  obtain ⟨h1, h2⟩ := arrayLoop_eval hF ht hrf' hq (out := out) hs (b.length + 1) b (b :: l) [] (.self l b)
  simp only [deserializationInvocation, hsz, if_true]
  refine ⟨fun m b' h' R hrest => ?_, fun e h' hne => ?_⟩
  · cases hl : arrayLoop (c.erase.deser F.lim false) (b.length + 1) b with
    | error e => rw [hl] at h'; cases h'
    | ok ms =>
      rw [hl] at h'
      cases h'
      exact Leads.letIn .lit (Leads.seq (h1 _ hl).loop hrest.one)
  · cases hl : arrayLoop (c.erase.deser F.lim false) (b.length + 1) b with
    | ok ms => rw [hl] at h'; cases h'
    | error e' =>
      rw [hl] at h'
      cases h'
      obtain ⟨st, h⟩ := h2 _ hl hne
      exact Fails.letRight .lit (Fails.seq ⟨st, h.loop⟩)

end

end Typical.Gen

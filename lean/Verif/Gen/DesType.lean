import Verif.Gen.Des

/-!
# Helper: the generated code which reads payloads
-/

namespace Typical.Gen

/-- The code ends in one of these ways. -/
def Leads (F : Fam) (e : Ex) (s : St) (R : Out → St → Prop) : Prop := ∃ o s', R o s' ∧ Evals F e s (o, s')

section
variable {F : Fam}

theorem Leads.imp {e : Ex} {s : St} {R R' : Out → St → Prop} (h : Leads F e s R) (hr : ∀ o s', R o s' → R' o s') : Leads F e s R' := by
  obtain ⟨o, s', h1, h2⟩ := h
  exact ⟨o, s', hr _ _ h1, h2⟩

theorem Leads.letIn {b : Bool} {w : Var} {e e' : Ex} {s : St} {x : Val} {env : List (Var × Val)} {out : Bytes} {rds : List Bytes}
    {R : Out → St → Prop} (h : Evals F e s (.val x, ⟨env, out, rds⟩))
    (h' : Leads F e' ⟨(w, x) :: env, out, rds⟩ (fun o s' => R o { s' with env := s'.env.drop 1 })) : Leads F (.letIn b w e e') s R := by
  obtain ⟨o, s', hr, h'⟩ := h'
  refine ⟨o, _, hr, (h.and h').mono fun n ⟨h, h'⟩ => ?_⟩
  simp only [Ex.eval, M.bind, h, M.scoped, List.cons_append, List.nil_append, h']
  rfl

theorem Leads.seq {e e' : Ex} {s s' : St} {x : Val} {R : Out → St → Prop} (h : Evals F e s (.val x, s')) (h' : Leads F e' s' R) :
    Leads F (.seq e e') s R := by
  obtain ⟨o, s'', hr, h'⟩ := h'
  exact ⟨o, s'', hr, h.seq h'⟩

theorem Leads.letFn {ty : TypeEx} {e b : Ex} {s : St} {R : Out → St → Prop}
    (h : Leads { F with el := fun n x => (e.eval (F.ctx n)).frame [(.subReader, x)] } b s R) : Leads F (.letFn ty e b) s R := by
  obtain ⟨o, s', hr, h⟩ := h
  exact ⟨o, s', hr, h.mono fun n h => by rw [Ex.eval]; exact h⟩

theorem Fails.letFn {ty : TypeEx} {e b : Ex} {s : St} {E : Err}
    (h : Fails { F with el := fun n x => (e.eval (F.ctx n)).frame [(.subReader, x)] } b s E) : Fails F (.letFn ty e b) s E := by
  obtain ⟨s', h⟩ := h
  exact ⟨s', h.mono fun n h => by rw [Ex.eval]; exact h⟩

theorem Fails.leads {e : Ex} {s : St} {E : Err} (h : Fails F e s E) : Leads F e s (fun o _ => o = E.out) :=
  ⟨_, h.choose, rfl, h.choose_spec⟩

/-! ### Integers -/

variable {l : List Bytes} {env : List (Var × Val)} {out : Bytes}

theorem tryVarint_some (hs : lookup .subReader env = some (.reader (l.length + 1))) {s s' : Bytes} {x : UInt64}
    (h : deserializeVarint s = some (x, s')) :
    Evals F (.try_ (.runtime F.t.1.length .deserializeVarint (args [.refMut (v .subReader)]))) ⟨env, out, s :: l⟩
      (.val (.u64 x), ⟨env, out, s' :: l⟩) :=
  (readVarint_some rfl (.self l s) (Evals.var hs).refMut h).tryOk

theorem tryVarint_none (hs : lookup .subReader env = some (.reader (l.length + 1))) {s : Bytes}
    (h : deserializeVarint s = none) :
    Evals F (.try_ (.runtime F.t.1.length .deserializeVarint (args [.refMut (v .subReader)]))) ⟨env, out, s :: l⟩
      (.ret (.err .unexpectedEof), ⟨env, out, [] :: l⟩) :=
  (readVarint_none rfl (.self l s) (Evals.var hs).refMut h).tryErr

theorem readBuffer_some (b : Bool) (hs : lookup .subReader env = some (.reader (l.length + 1))) {s s' bs : Bytes}
    (h : readExact 8 s = some (bs, s')) :
    Evals F (.try_ (.read (.exact b) (.refMut (v .subReader)) .buffer)) ⟨(.buffer, .bytes (List.replicate 8 0)) :: env, out, s :: l⟩
      (.val .unit, ⟨(.buffer, .bytes bs) :: env, out, s' :: l⟩) :=
  (readEval (f := .exact b) (.self l s) (Evals.var (by simp [lookup, hs])).refMut (x := .bytes (List.replicate 8 0)) (y := .bytes bs)
    (by simp [lookup]) (by simp [ReadFn.run, h])).tryOk

theorem readBuffer_none (b : Bool) (hs : lookup .subReader env = some (.reader (l.length + 1))) {s : Bytes}
    (h : readExact 8 s = none) :
    Evals F (.try_ (.read (.exact b) (.refMut (v .subReader)) .buffer)) ⟨(.buffer, .bytes (List.replicate 8 0)) :: env, out, s :: l⟩
      (.ret (.err .unexpectedEof), ⟨(.buffer, .bytes (List.replicate 8 0)) :: env, out, [] :: l⟩) :=
  (readEval (f := .exact b) (.self l s) (Evals.var (by simp [lookup, hs])).refMut (x := .bytes (List.replicate 8 0))
    (y := .bytes (List.replicate 8 0)) (by simp [lookup]) (by simp [ReadFn.run, h])).tryErr

theorem fromBuffer (f : StdFn) {bs : Bytes} {y : Val} (hf : f.run [.bytes bs] = M.pure y) {rds : List Bytes}
    (hb : lookup .buffer env = some (.bytes bs)) :
    Evals F (.std f (args [v .buffer])) ⟨env, out, rds⟩ (.val y, ⟨env, out, rds⟩) :=
  .of fun n => by simp only [Ex.eval, Args.eval, args, v, M.bind, M.get, hb, Option.map_some, hf, M.pure]

/-- The expression which reads an integer. -/
def readU64Ex (supers : Nat) (isField : Bool) : Ex :=
  if isField then
    .matchLines (v .payloadSize)
      (.cons (.usize 0) (.lit (.u64 0))
      (.cons (.usize 8) (.block (letMut .buffer (.lit .zeros)
        (tryThen (.read (.exact true) (.refMut (v .subReader)) .buffer) (.std .u64FromLeBytes (args [v .buffer])))))
      (.cons .wild (.try_ (.runtime supers .deserializeVarint (args [.refMut (v .subReader)]))) .nil)))
  else .try_ (.runtime supers .deserializeVarint (args [.refMut (v .subReader)]))

theorem u64Deserialization_eq (supers : Nat) (isField : Bool) (rest : Ex) :
    u64Deserialization supers isField rest = .letIn false .payload (readU64Ex supers isField) rest := rfl

theorem readU64_ok (isField : Bool) {n : Nat} (hs : lookup .subReader env = some (.reader (l.length + 1)))
    (hn : isField = true → lookup .payloadSize env = some (.usize n)) {s s' : Bytes} {x : UInt64}
    (h : (if isField then readU64Field n s else readU64Elem s) = .ok (x, s')) :
    Evals F (readU64Ex F.t.1.length isField) ⟨env, out, s :: l⟩ (.val (.u64 x), ⟨env, out, s' :: l⟩) := by
  cases isField
  · simp only [Bool.false_eq_true, if_false, readU64Elem] at h
    cases hd : deserializeVarint s with
    | none => rw [hd] at h; cases h
    | some r =>
      rw [hd] at h
      simp only [Except.ok.injEq] at h
      subst h
      exact tryVarint_some hs hd
  · simp only [if_true] at h
    refine (Evals.var (hn rfl)).matchArms ?_
    by_cases h0 : n = 0
    · subst h0
      simp only [readU64Field, Except.ok.injEq, Prod.mk.injEq] at h
      obtain ⟨rfl, rfl⟩ := h
      exact Arms.hit (bs := []) (by simp [Pat.run]) Evals.lit
    · refine Arms.miss (by simp [Pat.run, h0]) ?_
      by_cases h8 : n = 8
      · subst h8
        simp only [readU64Field] at h
        cases hr : readExact 8 s with
        | none => rw [hr] at h; cases h
        | some r =>
          obtain ⟨bs, s''⟩ := r
          rw [hr] at h
          simp only [Except.ok.injEq, Prod.mk.injEq] at h
          obtain ⟨rfl, rfl⟩ := h
          refine Arms.hit (bs := []) (by simp [Pat.run]) ?_
          exact (Evals.letIn .lit ((readBuffer_some true hs hr).seq (fromBuffer .u64FromLeBytes rfl (by simp [lookup])))).block
      · refine Arms.miss (by simp [Pat.run, h8]) ?_
        have e : readU64Field n s = readU64Elem s := by
          unfold readU64Field
          split
          · exact absurd rfl h0
          · exact absurd rfl h8
          · rfl
        rw [e, readU64Elem] at h
        cases hd : deserializeVarint s with
        | none => rw [hd] at h; cases h
        | some r =>
          rw [hd] at h
          simp only [Except.ok.injEq] at h
          subst h
          exact Arms.hit (bs := []) (by simp [Pat.run]) (tryVarint_some hs hd)

theorem readU64_fails (isField : Bool) {n : Nat} (hs : lookup .subReader env = some (.reader (l.length + 1)))
    (hn : isField = true → lookup .payloadSize env = some (.usize n)) {s : Bytes} {e : Err}
    (h : (if isField then readU64Field n s else readU64Elem s) = .error e) :
    e = .eof ∧ Evals F (readU64Ex F.t.1.length isField) ⟨env, out, s :: l⟩ (.ret (.err .unexpectedEof), ⟨env, out, [] :: l⟩) := by
  cases isField
  · simp only [Bool.false_eq_true, if_false, readU64Elem] at h
    cases hd : deserializeVarint s with
    | some r => rw [hd] at h; cases h
    | none =>
      rw [hd] at h
      simp only [Except.error.injEq] at h
      exact ⟨h.symm, tryVarint_none hs hd⟩
  · simp only [if_true] at h
    by_cases h0 : n = 0
    · subst h0
      simp [readU64Field] at h
    · by_cases h8 : n = 8
      · subst h8
        simp only [readU64Field] at h
        cases hr : readExact 8 s with
        | some r => rw [hr] at h; cases h
        | none =>
          rw [hr] at h
          simp only [Except.error.injEq] at h
          refine ⟨h.symm, (Evals.var (hn rfl)).matchArms (Arms.miss (by simp [Pat.run]) ?_)⟩
          refine Arms.hit (bs := []) (by simp [Pat.run]) ?_
          exact (Evals.letIn .lit ((readBuffer_none true hs hr).seqOut (by simp))).block
      · have e : readU64Field n s = readU64Elem s := by
          unfold readU64Field
          split
          · exact absurd rfl h0
          · exact absurd rfl h8
          · rfl
        rw [e, readU64Elem] at h
        cases hd : deserializeVarint s with
        | some r => rw [hd] at h; cases h
        | none =>
          rw [hd] at h
          simp only [Except.error.injEq] at h
          refine ⟨h.symm, (Evals.var (hn rfl)).matchArms (Arms.miss (by simp [Pat.run, h0]) (Arms.miss (by simp [Pat.run, h8]) ?_))⟩
          exact Arms.hit (bs := []) (by simp [Pat.run]) (tryVarint_none hs hd)

/-! ### Payloads -/

/-- An element of an array of scalars. -/
def readScalarElemRes (sc : Scalar) (s : Bytes) : Res sc.Val :=
  match readScalarElem sc s with
  | none => .error .eof
  | some r => .ok r

/-- What the code for a payload reads. -/
def NTy.deserOf (lim : Nat) (isField : Bool) : (t : NTy) → Nat → Bytes → Res (t.erase.Msg .inn)
  | .unit, _, s => .ok ((), s)
  | .scalar sc, n, s =>
    match isField with
    | true => readScalarField sc n s
    | false => readScalarElemRes sc s
  | .comp c, n, s => c.erase.deser lim isField n s

theorem NTy.deserOf_true (lim : Nat) (t : NTy) (n : Nat) (s : Bytes) : t.deserOf lim true n s = t.erase.deser lim n s := by
  cases t <;> rfl

/-- The `In` type. -/
def NCTy.inId : NCTy → TypeId
  | .struct n _ => n.id .in_
  | .choice n _ => n.id .in_
  | _ => ([], [])

/-- The `deserialize_from_reader_ref` function of a type reads what the model reads. -/
def DesC (P : Prog) (c : NCTy) : Prop := ∀ (lim : Nat) (isField : Bool) (n : Nat) (l : List Bytes) (s : Bytes) (rds : List Bytes)
    (env : List (Var × Val)) (out : Bytes), Avail (l.length + 1) l s rds →
  (∀ m s', c.erase.deser lim isField n s = .ok (m, s') → Calls lim P c.inId .deserializeFromReaderRef [.reader (l.length + 1)]
    ⟨env, out, rds⟩ (.val (.ok (c.enc .inn m)), ⟨env, out, s' :: l⟩)) ∧
  (∀ e, c.erase.deser lim isField n s = .error e → e ≠ .fuel → ∃ st, Calls lim P c.inId .deserializeFromReaderRef
    [.reader (l.length + 1)] ⟨env, out, rds⟩ (e.fnOut, st))

/-- References to types in the code of the module `ns` are resolved. -/
def RefsOk (T : CharTable) (S : Schemas) (ns : Namespace) (s : Schema) (ns' : Namespace) (tv : TypeVariant) : Prop :=
  ∀ i n k', tv.Mentions i n → s.RefersTo ns i n k' → ∀ ns₂ s₂ d₂, S.Declares k' ns₂ s₂ d₂ →
    rustResolve (ns.components.map rustSnake) (typePath T s ns' i n .in_).supers (typePath T s ns' i n .in_).modules =
      some (ns₂.components.map rustSnake) ∧ (typePath T s ns' i n .in_).name = rustPascal T d₂.name (some .in_)

/-- How the rest of the code ends, once the payload `m` was read. -/
def Then (F : Fam) (rest : Ex) (env : List (Var × Val)) (out : Bytes) (rds : List Bytes) (m : Val) (R : Out → St → Prop) : Prop :=
  ∀ el bs, (∀ p ∈ bs, p.1 = Var.payload ∨ p.1 = Var.buffer) → lookup .payload (bs ++ env) = some m →
    Leads { F with el := el } rest ⟨bs ++ env, out, rds⟩ (fun o s' => R o { s' with env := s'.env.drop bs.length })

/-- The code which reads a payload reads what the model reads. -/
def DesT (T : CharTable) (S : Schemas) (P : Prog) (ns : Namespace) (s : Schema) (tv : TypeVariant) (t : NTy) : Prop :=
  ∀ F : Fam, F.P = P → F.t.1 = ns.components.map rustSnake → ∀ ns', RefsOk T S ns s ns' tv →
  ∀ (isField : Bool) (n : Nat) (b : Bytes) (l : List Bytes) (env : List (Var × Val)) (out : Bytes) (rest : Ex),
    lookup .subReader env = some (.reader (l.length + 1)) →
    (isField = true ∨ sized tv = true → lookup .payloadSize env = some (.usize n)) →
    (∀ m b', t.deserOf F.lim isField n b = .ok (m, b') → ∀ R, Then F rest env out (b' :: l) (t.enc .inn m) R →
      Leads F (deserializationInvocation T F.t.1.length s ns' isField rest tv) ⟨env, out, b :: l⟩ R) ∧
    (∀ e, t.deserOf F.lim isField n b = .error e → e ≠ .fuel →
      Fails F (deserializationInvocation T F.t.1.length s ns' isField rest tv) ⟨env, out, b :: l⟩ e)

theorem Then.one {rest : Ex} {rds : List Bytes} {m : Val} {R : Out → St → Prop} (h : Then F rest env out rds m R) :
    Leads F rest ⟨(.payload, m) :: env, out, rds⟩ (fun o s' => R o { s' with env := s'.env.drop 1 }) :=
  h F.el [(.payload, m)] (by simp) (by simp [lookup])

theorem Then.two {rest : Ex} {rds : List Bytes} {m x : Val} {R : Out → St → Prop} {w : Var} (hw : w = .payload ∨ w = .buffer)
    (h : Then F rest env out rds m R) :
    Leads F rest ⟨(.payload, m) :: (w, x) :: env, out, rds⟩ (fun o s' => R o { s' with env := (s'.env.drop 1).drop 1 }) :=
  (h F.el [(.payload, m), (w, x)] (by simpa using hw) (by simp [lookup])).imp fun o s' h => by simpa using h

section
variable {T : CharTable} {S : Schemas} {P : Prog} {ns : Namespace} {sch : Schema}

theorem unit_des : DesT T S P ns sch .unit .unit := by
  intro F hF ht ns' hr isField n b l env out rest hs hn
  refine ⟨fun m b' h R hrest => ?_, fun e h => by cases h⟩
  cases h
  exact Leads.letIn .lit hrest.one

theorem readU64_field (sc : Scalar) (f : UInt64 → sc.Val) (hf : ∀ n s, readScalarField sc n s = (match readU64Field n s with
    | .error e => .error e
    | .ok (v, s) => .ok (f v, s))) (he : ∀ s, readScalarElem sc s = (match deserializeVarint s with
    | none => none
    | some (v, s) => some (f v, s))) (lim : Nat) (isField : Bool) (n : Nat) (s : Bytes) :
    NTy.deserOf lim isField (.scalar sc) n s = (match (if isField then readU64Field n s else readU64Elem s) with
    | .error e => .error e
    | .ok (v, s) => .ok (f v, s)) := by
  cases isField
  · show readScalarElemRes sc s = _
    rw [readScalarElemRes, he]
    simp only [Bool.false_eq_true, if_false, readU64Elem]
    cases deserializeVarint s <;> rfl
  · exact hf n s

theorem integer_des {tv : TypeVariant} (sc : Scalar) (f : UInt64 → sc.Val) (g : Nat → Ex → Ex)
    (hg : ∀ supers ns' isField rest, deserializationInvocation T supers sch ns' isField rest tv =
      u64Deserialization supers isField (g supers rest))
    (hf : ∀ n s, readScalarField sc n s = (match readU64Field n s with
    | .error e => .error e
    | .ok (v, s) => .ok (f v, s))) (he : ∀ s, readScalarElem sc s = (match deserializeVarint s with
    | none => none
    | some (v, s) => some (f v, s)))
    (hr : ∀ (F : Fam) rest env out rds x R, Then F rest env out rds (encScalar sc (f x)) R →
      Leads F (g F.t.1.length rest) ⟨(.payload, .u64 x) :: env, out, rds⟩ (fun o s' => R o { s' with env := s'.env.drop 1 })) :
    DesT T S P ns sch tv (.scalar sc) := by
  intro F hF ht ns' hrf isField n b l env out rest hs hn
  rw [readU64_field sc f hf he, hg]
  refine ⟨fun m b' h R hrest => ?_, fun e h hne => ?_⟩
  · cases hd : (if isField then readU64Field n b else readU64Elem b) with
    | error e => rw [hd] at h; cases h
    | ok r =>
      rw [hd] at h
      cases h
      exact Leads.letIn (readU64_ok isField hs (fun g => hn (.inl g)) hd) (hr F rest env out _ _ R hrest)
  · cases hd : (if isField then readU64Field n b else readU64Elem b) with
    | ok r => rw [hd] at h; cases h
    | error e =>
      rw [hd] at h
      cases h
      obtain ⟨rfl, h⟩ := readU64_fails (F := F) (out := out) isField hs (fun g => hn (.inl g)) hd
      exact Fails.letIn ⟨_, h⟩

theorem scalar_des {tv : TypeVariant} {sc : Scalar} (h : IsScalar tv sc) : DesT T S P ns sch tv (.scalar sc) := by
  cases h with
  | bool =>
    refine integer_des .bool (fun v => v != 0) (fun _ rest => let' .payload (.bin .ne (v .payload) (.lit (.u64 0))) rest)
      (fun _ _ _ _ => rfl) (fun _ _ => rfl) (fun _ => rfl) ?_
    intro F rest env out rds x R h
    refine Leads.letIn (.of fun n => ?_) (h.two (x := .u64 x) (.inl rfl))
    simp [Ex.eval, M.bind, M.get, lookup, M.pure, M.ofOption, BinOp.run, Lit.val, v]
    rfl
  | s64 =>
    refine integer_des .s64 zigzagDecode (fun supers rest => let' .payload (.runtime supers .zigzagDecode (args [v .payload])) rest)
      (fun _ _ _ _ => rfl) (fun _ _ => rfl) (fun _ => rfl) ?_
    intro F rest env out rds x R h
    refine Leads.letIn (.of fun n => ?_) (h.two (x := .u64 x) (.inl rfl))
    rw [Ex.eval, if_pos (by rfl)]
    simp [Ex.eval, Args.eval, M.bind, M.get, lookup, M.pure, args, RuntimeFn.run, v]
    rfl
  | u64 =>
    refine integer_des .u64 id (fun _ rest => rest) (fun _ _ _ _ => rfl) ?_ ?_ ?_
    · intro n s
      show readU64Field n s = _
      cases readU64Field n s <;> rfl
    · intro s
      show deserializeVarint s = _
      cases deserializeVarint s <;> rfl
    · intro F rest env out rds x R h
      exact h.one
  | f64 =>
    intro F hF ht ns' hrf isField n b l env out rest hs hn
    cases isField
    · have e0 : NTy.deserOf F.lim false (.scalar .f64) n b = (match readExact 8 b with
          | none => .error .eof
          | some (b, s) => .ok (fromLeBytes b, s)) := by
        show readScalarElemRes .f64 b = _
        rw [readScalarElemRes, readScalarElem]
        cases readExact 8 b <;> rfl
      rw [e0]
      simp only [deserializationInvocation, Bool.false_eq_true, if_false]
      cases hd : readExact 8 b with
      | none =>
        refine ⟨fun m b' h => by simp at h, fun e h hne => ?_⟩
        simp only [Except.error.injEq] at h
        subst h
        exact Fails.letRight .lit (Fails.seq ⟨_, readBuffer_none false hs hd⟩)
      | some r =>
        obtain ⟨bs, s'⟩ := r
        refine ⟨fun m b' h R hrest => ?_, fun e h => by simp at h⟩
        simp only [Except.ok.injEq, Prod.mk.injEq] at h
        obtain ⟨rfl, rfl⟩ := h
        refine Leads.letIn .lit (Leads.seq (readBuffer_some false hs hd) (Leads.letIn (fromBuffer (bs := bs) .f64FromLeBytes rfl (by simp [lookup])) ?_))
        exact hrest.two (x := .bytes bs) (.inr rfl)
    · have hn := hn (.inl rfl)
      have e0 : NTy.deserOf F.lim true (.scalar .f64) n b = (if n = 0 then .ok ((0 : UInt64), b) else
          match readExact 8 b with
          | none => .error .eof
          | some (b, s) => .ok (fromLeBytes b, s)) := rfl
      rw [e0]
      simp only [deserializationInvocation, if_true]
      have hc : ∀ {a c : Ex} {r : Out × St}, Evals F (if n = 0 then a else c) ⟨env, out, b :: l⟩ r →
          Evals F (.ifElse (.bin .eq (v .payloadSize) (.lit (.usize 0))) a c) ⟨env, out, b :: l⟩ r := by
        intro a c r h
        refine h.mono fun k h => ?_
        by_cases h0 : n = 0
        · subst h0
          simp only [if_true] at h
          simp [Ex.eval, M.bind, M.get, hn, M.pure, M.ofOption, BinOp.run, Lit.val, v, h]
        · simp only [if_neg h0] at h
          have e : (n == 0) = false := by simpa using h0
          simp [Ex.eval, M.bind, M.get, hn, M.pure, M.ofOption, BinOp.run, Lit.val, v, h, e]
      by_cases h0 : n = 0
      · refine ⟨fun m b' h R hrest => ?_, fun e h => by simp [h0] at h⟩
        simp only [h0, if_true, Except.ok.injEq, Prod.mk.injEq] at h
        obtain ⟨rfl, rfl⟩ := h
        exact Leads.letIn (hc (by rw [if_pos h0]; exact .lit)) hrest.one
      · simp only [h0, if_false]
        cases hd : readExact 8 b with
        | none =>
          refine ⟨fun m b' h => by simp at h, fun e h hne => ?_⟩
          simp only [Except.error.injEq] at h
          subst h
          exact Fails.letIn ⟨_, hc (by rw [if_neg h0]; exact Evals.letIn .lit ((readBuffer_none false hs hd).seqOut (by simp)))⟩
        | some r =>
          obtain ⟨bs, s'⟩ := r
          refine ⟨fun m b' h R hrest => ?_, fun e h => by simp at h⟩
          simp only [Except.ok.injEq, Prod.mk.injEq] at h
          obtain ⟨rfl, rfl⟩ := h
          refine Leads.letIn (hc (by
            rw [if_neg h0]
            exact Evals.letIn .lit ((readBuffer_some false hs hd).seq (fromBuffer (bs := bs) .f64FromLeBytes rfl (by simp [lookup]))))) ?_
          exact hrest.one

theorem bytes_des : DesT T S P ns sch .bytes (.comp .bytes) := by
  intro F hF ht ns' hrf isField n b l env out rest hs hn
  have hn := hn (.inr rfl)
  have e0 : NTy.deserOf F.lim isField (.comp .bytes) n b = (if n ≤ F.lim then .ok (b, []) else .error .panic) := rfl
  rw [e0]
  by_cases h : n ≤ F.lim
  · rw [if_pos h]
    refine ⟨fun m b' h' R hrest => ?_, fun e h => by simp at h⟩
    cases h'
    refine Leads.letIn .lit (Leads.seq (Evals.mutate (x := .usize n) (y := .bytes []) (z := .bytes []) (o := .val .unit)
      (Evals.var (by simp [lookup, hn])) (by simp [lookup, Lit.val]) (by simp [MutMethod.run, h])) (Leads.seq (readEval (f := .toEnd) (.self l b)
      (Evals.var (by simp [lookup, hs, assign])).refMut (x := .bytes []) (y := .bytes b) (z := .ok .unit) (s' := []) (by simp [lookup, assign])
      (by simp [ReadFn.run])).tryOk ?_))
    simp only [assign, if_true]
    exact hrest.one
  · rw [if_neg h]
    refine ⟨fun m b' h' R hrest => by simp at h', fun e h' _ => ?_⟩
    obtain rfl : Err.panic = e := by simpa using h'
    refine Fails.letRight .lit (Fails.seq ⟨_, Evals.mutate (x := .usize n) (y := .bytes []) (z := .bytes [])
      (Evals.var (by simp [lookup, hn])) (by simp [lookup, Lit.val]) (by simp [MutMethod.run, h, Err.out])⟩)

theorem string_des : DesT T S P ns sch .string (.comp .string) := by
  intro F hF ht ns' hrf isField n b l env out rest hs hn
  have hn := hn (.inr rfl)
  have e0 : NTy.deserOf F.lim isField (.comp .string) n b = (if n ≤ F.lim then
      if h : validUtf8 b = true then .ok (⟨b, h⟩, []) else .error .invalid else .error .panic) := rfl
  rw [e0]
  by_cases h : n ≤ F.lim
  · rw [if_pos h]
    have hres := Evals.mutate (F := F) (w := .payload) (m := .reserveExact 1) (e := v .payloadSize) (x := .usize n) (y := .str [])
      (z := .str []) (o := .val .unit) (env := (.payload, .str []) :: env) (out := out) (rds := b :: l)
      (Evals.var (by simp [lookup, hn])) (by simp [lookup]) (by simp [MutMethod.run, h])
    by_cases hu : validUtf8 b = true
    · rw [dif_pos hu]
      refine ⟨fun m b' h' R hrest => ?_, fun e h => by simp at h⟩
      cases h'
      refine Leads.letIn .lit (Leads.seq hres (Leads.seq (readEval (f := .toString) (.self l b)
        (Evals.var (by simp [lookup, hs, assign])).refMut (x := .str []) (y := .str b) (z := .ok .unit) (s' := []) (by simp [lookup, assign])
        (by simp [ReadFn.run, hu])).tryOk ?_))
      simp only [assign, if_true]
      exact hrest.one
    · rw [dif_neg hu]
      refine ⟨fun m b' h' R hrest => by simp at h', fun e h' _ => ?_⟩
      obtain rfl : Err.invalid = e := by simpa using h'
      exact Fails.letRight .lit (Fails.seqRight hres (Fails.seq ⟨_, (readEval (f := .toString) (.self l b)
        (Evals.var (by simp [lookup, hs, assign])).refMut (x := .str []) (y := .str []) (z := .err .invalidData) (s' := [])
        (by simp [lookup, assign]) (by simp [ReadFn.run, hu])).tryErr⟩))
  · rw [if_neg h]
    refine ⟨fun m b' h' R hrest => by simp at h', fun e h' _ => ?_⟩
    obtain rfl : Err.panic = e := by simpa using h'
    refine Fails.letRight .lit (Fails.seq ⟨_, Evals.mutate (x := .usize n) (y := .str []) (z := .str [])
      (Evals.var (by simp [lookup, hn])) (by simp [lookup, Lit.val]) (by simp [MutMethod.run, h, Err.out])⟩)

theorem units_des (r : SourceRange) : DesT T S P ns sch (.array r .unit) (.comp .units) := by
  intro F hF ht ns' hrf isField n b l env out rest hs hn
  have e0 : NTy.deserOf F.lim isField (.comp .units) n b = (if isField then readU64Field n b else readU64Elem b) := rfl
  rw [e0]
  refine ⟨fun m b' h R hrest => ?_, fun e h hne => ?_⟩
  · refine Leads.letIn (readU64_ok isField hs (fun g => hn (.inl g)) h) ?_
    refine Leads.letIn (.of fun n => ?_) (hrest.two (x := .u64 m) (.inl rfl))
    simp [Ex.eval, M.bind, M.get, lookup, M.ofOption, Val.asUsize, Val.units, v]
    rfl
  · obtain ⟨rfl, h'⟩ := readU64_fails (F := F) (out := out) isField hs (fun g => hn (.inl g)) h
    exact Fails.letIn ⟨_, h'⟩

theorem custom_des {i : Option Identifier} {n : Identifier} {k : List Str × Str} {c : NCTy} (href : sch.RefersTo ns i n k)
    (hc : Named T S k c) (hq : DesC P c) : DesT T S P ns sch (.custom i n) (.comp c) := by
  intro F hF ht ns' hrf isField n' b l env out rest hs hn
  have hn := hn (.inr rfl)
  have hid : rustResolve F.t.1 (typePath T sch ns' i n .in_).supers (typePath T sch ns' i n .in_).modules = some c.inId.1 ∧
      (typePath T sch ns' i n .in_).name = c.inId.2 := by
    rw [ht]
    cases hc with
    | struct hd _ _ => exact hrf i n k (.custom i n) href _ _ _ hd
    | choice hd _ _ => exact hrf i n k (.custom i n) href _ _ _ hd
  have hcall : ∀ {r : Out × St}, Calls F.lim P c.inId .deserializeFromReaderRef [.reader (l.length + 1)] ⟨env, out, b :: l⟩ r →
      Evals F (.deserialize (typePath T sch ns' i n .in_) (.refMut (v .subReader))) ⟨env, out, b :: l⟩ r := by
    intro r h
    refine h.mono fun m h => ?_
    simp only [Ex.eval, v, M.bind, M.get, hs, Option.map_some, Fam.ctx_mod, hid.1, hid.2, Fam.ctx_call, hF]
    exact h
  obtain ⟨h1, h2⟩ := hq F.lim isField n' l b (b :: l) env out (.self l b)
  refine ⟨fun m b' h R hrest => ?_, fun e h hne => ?_⟩
  · exact Leads.letIn (hcall (h1 m b' h)).tryOk hrest.one
  · obtain ⟨st, h⟩ := h2 e h hne
    exact Fails.letIn (Fails.tryErr (hcall h) hne)

end
end

end Typical.Gen

import Verif.Gen.FromProof

/-!
# Helper: executions of deserializers, step by step
-/

namespace Typical.Gen

/-- How code in a function ends when deserialization fails. -/
def _root_.Typical.Err.out : Err → Out
  | .panic => .fail .panic
  | .hang => .fail .hang
  | .fuel => .fail .fuel
  | .eof => .ret (.err .unexpectedEof)
  | .invalid => .ret (.err .invalidData)

/-- How a function ends when deserialization fails. -/
def _root_.Typical.Err.fnOut : Err → Out
  | .panic => .fail .panic
  | .hang => .fail .hang
  | .fuel => .fail .fuel
  | .eof => .val (.err .unexpectedEof)
  | .invalid => .val (.err .invalidData)

/-- The code ends with this failure. -/
def Fails (F : Fam) (e : Ex) (s : St) (E : Err) : Prop := ∃ s', Evals F e s (E.out, s')

/-- The reader at depth `k` has `s` to offer, and `l` is what its parents have to offer after that. -/
def Avail (k : Nat) (l : List Bytes) (s : Bytes) (rds : List Bytes) : Prop :=
  (0 < k ∧ k ≤ rds.length) ∧ collapse (rds.length - k) rds = s :: l

theorem Avail.self (l : List Bytes) (s : Bytes) : Avail (l.length + 1) l s (s :: l) :=
  ⟨⟨Nat.succ_pos _, Nat.le_refl _⟩, by simp [collapse]⟩

theorem Avail.sub (l : List Bytes) (a b : Bytes) : Avail (l.length + 1) l (a ++ b) (a :: b :: l) :=
  ⟨by simp, by simp [collapse]⟩

theorem withReader_eval {k : Nat} {l rds : List Bytes} {s : Bytes} (h : Avail k l s rds) (f : Bytes → Out × Bytes)
    (env : List (Var × Val)) (out : Bytes) :
    M.withReader k f ⟨env, out, rds⟩ = some ((f s).1, ⟨env, out, (f s).2 :: l⟩) := by
  simp only [M.withReader, if_pos h.1, h.2]

theorem take_eval {k : Nat} {l rds : List Bytes} {s : Bytes} (h : Avail k l s rds) (n : Nat)
    (env : List (Var × Val)) (out : Bytes) :
    M.take k n ⟨env, out, rds⟩ = some (.val (.reader (k + 1)), ⟨env, out, s.take n :: s.drop n :: l⟩) := by
  simp only [M.take, if_pos h.1, h.2]

/-! ### Steps which succeed -/

section
variable {F : Fam}

theorem Evals.var {w : Var} {x : Val} {env : List (Var × Val)} {out : Bytes} {rds : List Bytes} (h : lookup w env = some x) :
    Evals F (.var w) ⟨env, out, rds⟩ (.val x, ⟨env, out, rds⟩) :=
  .of fun n => by simp only [Ex.eval, M.get, h]; rfl

theorem Evals.lit {l : Lit} {s : St} : Evals F (.lit l) s (.val l.val, s) := .of fun n => by simp only [Ex.eval, M.pure]

theorem Evals.refMut {e : Ex} {s : St} {r : Out × St} (h : Evals F e s r) : Evals F (.refMut e) s r :=
  h.mono fun n h => by simp only [Ex.eval, h]

theorem Evals.deref {e : Ex} {s : St} {r : Out × St} (h : Evals F e s r) : Evals F (.deref e) s r :=
  h.mono fun n h => by simp only [Ex.eval, h]

theorem Evals.block {e : Ex} {s : St} {r : Out × St} (h : Evals F e s r) : Evals F (.block e) s r :=
  h.mono fun n h => by simp only [Ex.eval, h]

theorem Evals.blank {e : Ex} {s : St} {r : Out × St} (h : Evals F e s r) : Evals F (.blank e) s r :=
  h.mono fun n h => by simp only [Ex.eval, h]

theorem Evals.asUsize {e : Ex} {s s' : St} {x : UInt64} (h : Evals F e s (.val (.u64 x), s')) :
    Evals F (.asUsize e) s (.val (.usize x.toNat), s') :=
  h.mono fun n h => by simp only [Ex.eval, M.bind, h]; rfl

theorem Evals.asU64 {e : Ex} {s s' : St} {x : Nat} (h : Evals F e s (.val (.usize x), s')) :
    Evals F (.asU64 e) s (.val (.u64 (UInt64.ofNat x)), s') :=
  h.mono fun n h => by simp only [Ex.eval, M.bind, h]; rfl

theorem Evals.letIn {b : Bool} {w : Var} {e e' : Ex} {s : St} {x x' : Val} {env env' : List (Var × Val)} {out out' : Bytes}
    {rds rds' : List Bytes} {o : Out} (h : Evals F e s (.val x, ⟨env, out, rds⟩))
    (h' : Evals F e' ⟨(w, x) :: env, out, rds⟩ (o, ⟨(w, x') :: env', out', rds'⟩)) :
    Evals F (.letIn b w e e') s (o, ⟨env', out', rds'⟩) :=
  (h.and h').mono fun n ⟨h, h'⟩ => by
    simp only [Ex.eval, M.bind, h, M.scoped, List.cons_append, List.nil_append, h']
    rfl

theorem Evals.seq {e e' : Ex} {s s' : St} {x : Val} {r : Out × St} (h : Evals F e s (.val x, s')) (h' : Evals F e' s' r) :
    Evals F (.seq e e') s r :=
  (h.and h').mono fun n ⟨h, h'⟩ => by simp only [Ex.eval, M.bind, h, h']

theorem Evals.done {s : St} : Evals F .done s (.val .unit, s) := .of fun n => by simp only [Ex.eval, M.pure]

theorem Evals.tryOk {e : Ex} {s s' : St} {x : Val} (h : Evals F e s (.val (.ok x), s')) : Evals F (.try_ e) s (.val x, s') :=
  h.mono fun n h => by simp only [Ex.eval, M.bind, h, M.pure]

theorem Evals.tryErr {e : Ex} {s s' : St} {x : Kind} (h : Evals F e s (.val (.err x), s')) : Evals F (.try_ e) s (.ret (.err x), s') :=
  h.mono fun n h => by simp only [Ex.eval, M.bind, h]

theorem Evals.ret {e : Ex} {s s' : St} {x : Val} (h : Evals F e s (.val x, s')) : Evals F (.return_ e) s (.ret x, s') :=
  h.mono fun n h => by simp only [Ex.eval, M.bind, h]

/-- Control flow which is not a value passes through `seq`. -/
theorem Evals.seqOut {e e' : Ex} {s s' : St} {o : Out} (h : Evals F e s (o, s')) (ho : ∀ x, o ≠ .val x) :
    Evals F (.seq e e') s (o, s') :=
  h.mono fun n h => by
    simp only [Ex.eval, M.bind, h]
    cases o with
    | val x => exact absurd rfl (ho x)
    | _ => rfl

theorem Evals.letOut {b : Bool} {w : Var} {e e' : Ex} {s s' : St} {o : Out} (h : Evals F e s (o, s')) (ho : ∀ x, o ≠ .val x) :
    Evals F (.letIn b w e e') s (o, s') :=
  h.mono fun n h => by
    simp only [Ex.eval, M.bind, h]
    cases o with
    | val x => exact absurd rfl (ho x)
    | _ => rfl

theorem Evals.mutateOut {w : Var} {m : MutMethod} {e : Ex} {s s' : St} {o : Out} (h : Evals F e s (o, s')) (ho : ∀ x, o ≠ .val x) :
    Evals F (.mutate w m e) s (o, s') :=
  h.mono fun n h => by
    simp only [Ex.eval, M.bind, h]
    cases o with
    | val x => exact absurd rfl (ho x)
    | _ => rfl

theorem Evals.mutate {w : Var} {m : MutMethod} {e : Ex} {s : St} {x y z : Val} {o : Out} {env : List (Var × Val)} {out : Bytes}
    {rds : List Bytes} (h : Evals F e s (.val x, ⟨env, out, rds⟩)) (hy : lookup w env = some y)
    (hm : m.run F.lim y x = some (o, z)) : Evals F (.mutate w m e) s (o, ⟨assign w z env, out, rds⟩) :=
  h.mono fun n h => by simp only [Ex.eval, M.bind, h, M.modify, hy, Fam.ctx_lim, hm, Option.map_some]

theorem Evals.matchArms {e : Ex} {arms : Arms} {s s' : St} {x : Val} {r : Out × St} (h : Evals F e s (.val x, s'))
    (h' : Ev (fun n => arms.eval (F.ctx n) x s' = some r)) : Evals F (.matchLines e arms) s r :=
  (h.and h').mono fun n ⟨h, h'⟩ => by simp only [Ex.eval, M.bind, h, h']

theorem Arms.hit {p : Pat} {b : Ex} {rest : Arms} {x : Val} {bs env env' : List (Var × Val)} {out out' : Bytes}
    {rds rds' : List Bytes} {o : Out} (hp : p.run F.t.1 x = some (some bs))
    (h : Evals F b ⟨bs ++ env, out, rds⟩ (o, ⟨bs ++ env', out', rds'⟩)) :
    Ev (fun n => (Arms.cons p b rest).eval (F.ctx n) x ⟨env, out, rds⟩ = some (o, ⟨env', out', rds'⟩)) :=
  h.mono fun n h => by
    simp only [Arms.eval, Fam.ctx_mod, hp]
    exact scoped_ok h

theorem Arms.miss {p : Pat} {b : Ex} {rest : Arms} {x : Val} {s : St} {r : Out × St} (hp : p.run F.t.1 x = some none)
    (h : Ev (fun n => rest.eval (F.ctx n) x s = some r)) :
    Ev (fun n => (Arms.cons p b rest).eval (F.ctx n) x s = some r) :=
  h.mono fun n h => by simp only [Arms.eval, Fam.ctx_mod, hp, h]

/-! ### Steps which fail -/

theorem Err.out_ne (E : Err) (x : Val) : E.out ≠ .val x := by cases E <;> simp [Err.out]

theorem Fails.of {e : Ex} {s s' : St} {E : Err} (h : Evals F e s (E.out, s')) : Fails F e s E := ⟨s', h⟩

theorem Fails.block {e : Ex} {s : St} {E : Err} (h : Fails F e s E) : Fails F (.block e) s E := ⟨h.choose, h.choose_spec.block⟩

theorem Fails.blank {e : Ex} {s : St} {E : Err} (h : Fails F e s E) : Fails F (.blank e) s E := ⟨h.choose, h.choose_spec.blank⟩

theorem Fails.seq {e e' : Ex} {s : St} {E : Err} (h : Fails F e s E) : Fails F (.seq e e') s E :=
  ⟨h.choose, h.choose_spec.seqOut (Err.out_ne E)⟩

theorem Fails.seqRight {e e' : Ex} {s s' : St} {x : Val} {E : Err} (h : Evals F e s (.val x, s')) (h' : Fails F e' s' E) :
    Fails F (.seq e e') s E := ⟨h'.choose, h.seq h'.choose_spec⟩

theorem Fails.letIn {b : Bool} {w : Var} {e e' : Ex} {s : St} {E : Err} (h : Fails F e s E) : Fails F (.letIn b w e e') s E :=
  ⟨h.choose, h.choose_spec.letOut (Err.out_ne E)⟩

theorem Fails.letRight {b : Bool} {w : Var} {e e' : Ex} {s : St} {x : Val} {E : Err} {env : List (Var × Val)} {out : Bytes}
    {rds : List Bytes} (h : Evals F e s (.val x, ⟨env, out, rds⟩)) (h' : Fails F e' ⟨(w, x) :: env, out, rds⟩ E) :
    Fails F (.letIn b w e e') s E := by
  obtain ⟨s', h'⟩ := h'
  refine ⟨{ s' with env := s'.env.drop 1 }, (h.and h').mono fun n ⟨h, h'⟩ => ?_⟩
  simp only [Ex.eval, M.bind, h, M.scoped, List.cons_append, List.nil_append, h']
  rfl

theorem Fails.mutate {w : Var} {m : MutMethod} {e : Ex} {s : St} {E : Err} (h : Fails F e s E) : Fails F (.mutate w m e) s E :=
  ⟨h.choose, h.choose_spec.mutateOut (Err.out_ne E)⟩

theorem Fails.matchArms {e : Ex} {arms : Arms} {s s' : St} {x : Val} {E : Err} (h : Evals F e s (.val x, s'))
    (h' : ∃ s'', Ev (fun n => arms.eval (F.ctx n) x s' = some (E.out, s''))) : Fails F (.matchLines e arms) s E :=
  ⟨h'.choose, h.matchArms h'.choose_spec⟩

theorem Arms.hitFails {p : Pat} {b : Ex} {rest : Arms} {x : Val} {bs env : List (Var × Val)} {out : Bytes} {rds : List Bytes} {E : Err}
    (hp : p.run F.t.1 x = some (some bs)) (h : Fails F b ⟨bs ++ env, out, rds⟩ E) :
    ∃ s, Ev (fun n => (Arms.cons p b rest).eval (F.ctx n) x ⟨env, out, rds⟩ = some (E.out, s)) := by
  obtain ⟨s', h⟩ := h
  refine ⟨{ s' with env := s'.env.drop bs.length }, h.mono fun n h => ?_⟩
  simp only [Arms.eval, Fam.ctx_mod, hp, M.scoped, h]
  rfl

theorem Fails.tryErr {e : Ex} {s s' : St} {E : Err} (h : Evals F e s (E.fnOut, s')) (hE : E ≠ .fuel) : Fails F (.try_ e) s E := by
  cases E with
  | eof => exact ⟨s', h.tryErr⟩
  | invalid => exact ⟨s', h.tryErr⟩
  | fuel => exact absurd rfl hE
  | panic => exact ⟨s', h.mono fun n h => by simp only [Ex.eval, M.bind, h]; rfl⟩
  | hang => exact ⟨s', h.mono fun n h => by simp only [Ex.eval, M.bind, h]; rfl⟩

theorem Loops.fails {b : Ex} {s s' : St} {E : Err} (h : Evals F b s (E.out, s')) : Loops F b s (E.out, s') := by
  cases E with
  | panic => exact .fail h
  | hang => exact .fail h
  | fuel => exact .fail h
  | _ => exact .ret h

/-! ### Reading -/

variable {k : Nat} {l rds : List Bytes} {s : Bytes} {env : List (Var × Val)} {out : Bytes}

theorem readVarint_some {supers : Nat} (hs : supers = F.t.1.length) {e : Ex} (ha : Avail k l s rds)
    (he : Evals F e ⟨env, out, rds⟩ (.val (.reader k), ⟨env, out, rds⟩)) {x : UInt64} {s' : Bytes}
    (h : deserializeVarint s = some (x, s')) :
    Evals F (.runtime supers .deserializeVarint (args [e])) ⟨env, out, rds⟩ (.val (.ok (.u64 x)), ⟨env, out, s' :: l⟩) :=
  he.mono fun n he => by
    subst hs
    rw [Ex.eval, if_pos (by rfl)]
    simp only [args, Args.eval, M.bind, he, RuntimeFn.run, withReader_eval ha, h]

theorem readVarint_none {supers : Nat} (hs : supers = F.t.1.length) {e : Ex} (ha : Avail k l s rds)
    (he : Evals F e ⟨env, out, rds⟩ (.val (.reader k), ⟨env, out, rds⟩)) (h : deserializeVarint s = none) :
    Evals F (.runtime supers .deserializeVarint (args [e])) ⟨env, out, rds⟩ (.val (.err .unexpectedEof), ⟨env, out, [] :: l⟩) :=
  he.mono fun n he => by
    subst hs
    rw [Ex.eval, if_pos (by rfl)]
    simp only [args, Args.eval, M.bind, he, RuntimeFn.run, withReader_eval ha, h]

theorem readHeader_some {supers : Nat} (hs : supers = F.t.1.length) {e : Ex} (ha : Avail k l s rds)
    (he : Evals F e ⟨env, out, rds⟩ (.val (.reader k), ⟨env, out, rds⟩)) {i m : Nat} {s' : Bytes}
    (h : deserializeFieldHeader s = some (i, m, s')) :
    Evals F (.runtime supers .deserializeFieldHeader (args [e])) ⟨env, out, rds⟩
      (.val (.ok (.pair (.u64 (UInt64.ofNat i)) (.usize m))), ⟨env, out, s' :: l⟩) :=
  he.mono fun n he => by
    subst hs
    rw [Ex.eval, if_pos (by rfl)]
    simp only [args, Args.eval, M.bind, he, RuntimeFn.run, withReader_eval ha, h]

theorem readHeader_none {supers : Nat} (hs : supers = F.t.1.length) {e : Ex} (ha : Avail k l s rds)
    (he : Evals F e ⟨env, out, rds⟩ (.val (.reader k), ⟨env, out, rds⟩)) (h : deserializeFieldHeader s = none) :
    Evals F (.runtime supers .deserializeFieldHeader (args [e])) ⟨env, out, rds⟩ (.val (.err .unexpectedEof), ⟨env, out, [] :: l⟩) :=
  he.mono fun n he => by
    subst hs
    rw [Ex.eval, if_pos (by rfl)]
    simp only [args, Args.eval, M.bind, he, RuntimeFn.run, withReader_eval ha, h]

theorem finish_eval {supers : Nat} (hs : supers = F.t.1.length) {e : Ex} (ha : Avail k l s rds)
    (he : Evals F e ⟨env, out, rds⟩ (.val (.reader k), ⟨env, out, rds⟩)) :
    Evals F (.runtime supers .finish (args [e])) ⟨env, out, rds⟩ (.val (.ok .unit), ⟨env, out, [] :: l⟩) :=
  he.mono fun n he => by
    subst hs
    rw [Ex.eval, if_pos (by rfl)]
    simp only [args, Args.eval, M.bind, he, RuntimeFn.run, withReader_eval ha]

theorem takeEval {e e' : Ex} (ha : Avail k l s rds) (he : Evals F e ⟨env, out, rds⟩ (.val (.reader k), ⟨env, out, rds⟩)) {x : UInt64}
    (he' : Evals F e' ⟨env, out, rds⟩ (.val (.u64 x), ⟨env, out, rds⟩)) :
    Evals F (.std .take (args [e, e'])) ⟨env, out, rds⟩
      (.val (.reader (k + 1)), ⟨env, out, s.take x.toNat :: s.drop x.toNat :: l⟩) :=
  (he.and he').mono fun n ⟨he, he'⟩ => by
    simp only [Ex.eval, args, Args.eval, M.bind, he, he', StdFn.run, take_eval ha]

theorem readEval {f : ReadFn} {w : Var} {e : Ex} (ha : Avail k l s rds)
    (he : Evals F e ⟨env, out, rds⟩ (.val (.reader k), ⟨env, out, rds⟩)) {x y z : Val} {s' : Bytes} (hw : lookup w env = some x)
    (hf : f.run x s = some (z, y, s')) :
    Evals F (.read f e w) ⟨env, out, rds⟩ (.val z, ⟨assign w y env, out, s' :: l⟩) :=
  he.mono fun n he => by
    simp only [Ex.eval, M.bind, he, M.read, if_pos ha.1, ha.2, hw, hf, Option.map_some]

/-- `break`, at the end of input. -/
theorem breakAtEnd_eval (b : Bool) {s : St} (h : lookup .err s.env = some (.err .unexpectedEof)) : Evals F (breakAtEnd b) s (.brk, s) :=
  .of fun n => by
    simp only [breakAtEnd, Ex.eval, M.bind, M.get, h, Option.map_some]

end

end Typical.Gen

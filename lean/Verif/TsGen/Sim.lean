import Verif.TsGen.Program

/-!
# Helper: comparing executions

`Sim over m m'`: whatever the state, `m'` ends as `m` does, if `m` ends; or (if `over`) it throws a `RangeError`. All constructs of the language preserve
this, except that `try` can turn a `RangeError` into something else. It follows that more fuel does not change outcomes, and that code without `try`
which runs out of stack throws.
-/

namespace Typical.TsGen

/-- Two outcomes. -/
inductive ROut (over : Bool) : Option (Out × St) → Option (Out × St) → Prop
  | same (a : Option (Out × St)) : ROut over a a
  | none (b : Option (Out × St)) : ROut over none b
  | over (a : Option (Out × St)) (s : St) : over = true → ROut over a (some (.throw .range, s))

/-- Two computations. -/
def Sim (over : Bool) (m m' : M) : Prop := ∀ s, ROut over (m s) (m' s)

variable {over : Bool}

theorem Sim.refl (m : M) : Sim over m m := fun _ => .same _

theorem Sim.stuck (m : M) : Sim over .stuck m := fun _ => .none _

theorem Sim.bind {m m' : M} {k k' : Val → M} (h : Sim over m m') (hk : ∀ v, Sim over (k v) (k' v)) : Sim over (m.bind k) (m'.bind k') := by
  intro s
  have hs := h s
  unfold M.bind
  generalize m s = a at hs
  generalize m' s = b at hs
  cases hs with
  | none b => exact .none _
  | over a s ho => exact .over _ s ho
  | same a =>
    match a with
    | .none => exact .none _
    | .some (.val v, s) => exact hk v s
    | .some (.brk, s) => exact .same _
    | .some (.ret v, s) => exact .same _
    | .some (.throw e, s) => exact .same _

theorem Sim.scoped {m m' : M} (h : Sim over m m') (xs : Env) : Sim over (m.scoped xs) (m'.scoped xs) := by
  intro s
  have hs := h { s with env := xs ++ s.env }
  unfold M.scoped
  generalize m { s with env := xs ++ s.env } = a at hs
  generalize m' { s with env := xs ++ s.env } = b at hs
  cases hs with
  | none b => exact .none _
  | over a s ho => exact .over _ _ ho
  | same a => exact .same _

theorem Sim.block {m m' : M} (h : Sim over m m') (xs : List TVar) : Sim over (m.block xs) (m'.block xs) := by
  unfold M.block
  split
  · exact h.scoped _
  · exact .refl _

theorem Sim.breakable {m m' : M} (h : Sim over m m') : Sim over m.breakable m'.breakable := by
  intro s
  have hs := h s
  unfold M.breakable
  generalize m s = a at hs
  generalize m' s = b at hs
  cases hs with
  | none b => exact .none _
  | over a s ho => exact .over _ _ ho
  | same a => exact .same _

theorem Sim.ifElse {a a' b b' : M} (v : Val) (ha : Sim over a a') (hb : Sim over b b') : Sim over (M.ifElse v a b) (M.ifElse v a' b') := by
  unfold M.ifElse
  split
  · exact ha
  · exact hb
  · exact .refl _

theorem Sim.tryCatch {a a' b b' : M} (ho : over = false) (ha : Sim over a a') (hb : Sim over b b') : Sim over (M.tryCatch a b) (M.tryCatch a' b') := by
  intro s
  have hs := ha s
  unfold M.tryCatch
  generalize a s = x at hs
  generalize a' s = y at hs
  cases hs with
  | none b => exact .none _
  | over a s h => rw [ho] at h; cases h
  | same x =>
    match x with
    | .none => exact .none _
    | .some (.val v, s) => exact .same _
    | .some (.brk, s) => exact .same _
    | .some (.ret v, s) => exact .same _
    | .some (.throw e, s) => exact hb.scoped _ s

theorem Sim.frame {m m' : M} (h : Sim over m m') (ps : List TVar) (args : List Val) (xs : List TVar) : Sim over (m.frame ps args xs) (m'.frame ps args xs) := by
  intro s
  unfold M.frame
  split
  · have hs := h { s with env := xs.map (fun x => (x, .uninit)) ++ ps.zip (args.map .let_) }
    generalize m _ = a at hs
    generalize m' _ = b at hs
    cases hs with
    | none b => exact .none _
    | over a s ho => exact .over _ _ ho
    | same a => exact .same _
  · exact .same _

theorem Sim.rounds {cond cond' body body' : M} (hc : Sim over cond cond') (hb : Sim over body body') :
    (n n' : Nat) → n ≤ n' → Sim over (rounds cond body n) (rounds cond' body' n')
  | 0, _, _ => .stuck _
  | n + 1, n' + 1, h => by
    rw [TsGen.rounds, TsGen.rounds]
    refine hc.bind fun v => ?_
    split
    · intro s
      have hs := hb s
      dsimp only
      generalize body s = a at hs
      generalize body' s = b at hs
      cases hs with
      | none b => exact .none _
      | over a s ho => exact .over _ _ ho
      | same a =>
        match a with
        | .none => exact .none _
        | .some (.val v, s) => exact Sim.rounds hc hb n n' (by omega) s
        | .some (.brk, s) => exact .same _
        | .some (.ret v, s) => exact .same _
        | .some (.throw e, s) => exact .same _
    · exact .refl _
    · exact .refl _

/-! ### Which functions are called -/

/-- Where code is: the path of the namespace, and what namespaces export. -/
structure Site where
  path : List Str
  exports : List Str → Str → Bool

mutual
/-- The functions which an expression calls. -/
def Ex.callees (c : Site) : Ex → List Callee
  | .paren _ e => e.callees c
  | .neg e => e.callees c
  | .as_ e _ => e.callees c
  | .prop e _ => e.callees c
  | .index a b => a.callees c ++ b.callees c
  | .bin _ a b => a.callees c ++ b.callees c
  | .binLines _ _ a b => a.callees c ++ b.callees c
  | .and a b => a.callees c ++ b.callees c
  | .or a b => a.callees c ++ b.callees c
  | .cond e a b => e.callees c ++ (a.callees c ++ b.callees c)
  | .has _ e => e.callees c
  | .isA e _ => e.callees c
  | .tuple _ es => es.callees c
  | .objInline l => l.callees c
  | .objLines l => l.callees c
  | .runtime f es => .runtime f :: es.callees c
  | .path p f es => ((tsResolve c.exports c.path p).toList.map (fun q => .decl q f)) ++ es.callees c
  | .own _ f es => .decl c.path f :: es.callees c
  | .new _ _ es => es.callees c
  | .builtin _ es => es.callees c
  | .method _ e _ es => e.callees c ++ es.callees c
  | .var _ => []
  | .lit _ => []
  | .glob _ => []
  | .negBig _ => []
  | .newArray => []

def Args.callees (c : Site) : Args → List Callee
  | .nil => []
  | .cons e rest => e.callees c ++ rest.callees c

def Inits.callees (c : Site) : Inits → List Callee
  | .nil => []
  | .cons _ e rest => e.callees c ++ rest.callees c
  | .short _ rest => rest.callees c
  | .text _ _ rest => rest.callees c
end

mutual
/-- The functions which a statement calls. -/
def Stm.callees (c : Site) : Stm → List Callee
  | .let_ _ _ e => e.callees c
  | .const _ e => e.callees c
  | .constTuple _ e => e.callees c
  | .assignTuple _ e => e.callees c
  | .assign _ e => e.callees c
  | .update _ _ e => e.callees c
  | .expr e => e.callees c
  | .block b => b.callees c
  | .if_ e a b => e.callees c ++ (a.callees c ++ b.callees c)
  | .ifAny es a => es.callees c ++ a.callees c
  | .for_ e b => e.callees c ++ b.callees c
  | .while_ e b => e.callees c ++ b.callees c
  | .try_ a b => a.callees c ++ b.callees c
  | .switch e cases => e.callees c ++ cases.callees c
  | .return_ e => e.callees c
  | .throw_ e => e.callees c
  | .letVars _ => []
  | .throwMissing => []
  | .break_ => []
  | .blank => []

def Stms.callees (c : Site) : Stms → List Callee
  | .nil => []
  | .cons s rest => s.callees c ++ rest.callees c

def Else.callees (c : Site) : Else → List Callee
  | .none => []
  | .else_ b => b.callees c
  | .elseIf e a b => e.callees c ++ (a.callees c ++ b.callees c)

def Cases.callees (c : Site) : Cases → List Callee
  | .nil => []
  | .case _ _ b rest => b.callees c ++ rest.callees c
  | .default_ _ b rest => b.callees c ++ rest.callees c
end

mutual
/-- Does a statement contain `try`? -/
def Stm.tries : Stm → Bool
  | .block b => b.tries
  | .if_ _ a b => a.tries || b.tries
  | .ifAny _ a => a.tries
  | .for_ _ b => b.tries
  | .while_ _ b => b.tries
  | .try_ _ _ => true
  | .switch _ cases => cases.tries
  | _ => false

def Stms.tries : Stms → Bool
  | .nil => false
  | .cons s rest => s.tries || rest.tries

def Else.tries : Else → Bool
  | .none => false
  | .else_ b => b.tries
  | .elseIf _ a b => a.tries || b.tries

def Cases.tries : Cases → Bool
  | .nil => false
  | .case _ _ b rest => b.tries || rest.tries
  | .default_ _ b rest => b.tries || rest.tries
end

/-- Two contexts for the same code, in which the functions in `l` behave in this way. -/
structure Agree (over : Bool) (c c' : Ctx) (l : List Callee) : Prop where
  path : c.path = c'.path
  exports : c.exports = c'.exports
  fuel : c.fuel ≤ c'.fuel
  calls : ∀ f ∈ l, ∀ vs, Sim over (c.call f vs) (c'.call f vs)

theorem Agree.mono {c c' : Ctx} {l l' : List Callee} (h : Agree over c c' l) (hl : ∀ f ∈ l', f ∈ l) : Agree over c c' l' :=
  ⟨h.path, h.exports, h.fuel, fun f hf => h.calls f (hl f hf)⟩

theorem Agree.left {c c' : Ctx} {l l' : List Callee} (h : Agree over c c' (l ++ l')) : Agree over c c' l :=
  h.mono fun _ hf => List.mem_append_left _ hf

theorem Agree.right {c c' : Ctx} {l l' : List Callee} (h : Agree over c c' (l ++ l')) : Agree over c c' l' :=
  h.mono fun _ hf => List.mem_append_right _ hf

theorem Agree.tail {c c' : Ctx} {f : Callee} {l : List Callee} (h : Agree over c c' (f :: l)) : Agree over c c' l :=
  h.mono fun _ hf => List.mem_cons_of_mem _ hf

/-- The site of a context. -/
abbrev Ctx.site (c : Ctx) : Site := ⟨c.path, c.exports⟩

theorem Agree.free {c c' : Ctx} {l : List Callee} (h : Agree over c c' l) (n : Str) : c.free n = c'.free n := by
  unfold Ctx.free
  rw [h.path, h.exports]

mutual
theorem Ex.sim {c c' : Ctx} : (e : Ex) → Agree over c c' (e.callees c.site) → Sim over (e.eval c) (e.eval c')
  | .var x, h => .refl _
  | .lit l, h => .refl _
  | .glob g, h => by rw [Ex.eval, Ex.eval, h.free]; exact .refl _
  | .paren _ e, h => by rw [Ex.callees] at h; rw [Ex.eval, Ex.eval]; exact e.sim h
  | .neg e, h => by rw [Ex.callees] at h; rw [Ex.eval, Ex.eval]; exact (e.sim h).bind fun _ => .refl _
  | .negBig n, h => by rw [Ex.eval, Ex.eval]; exact .refl _
  | .as_ e _, h => by rw [Ex.callees] at h; rw [Ex.eval, Ex.eval]; exact e.sim h
  | .prop e _, h => by rw [Ex.callees] at h; rw [Ex.eval, Ex.eval]; exact (e.sim h).bind fun _ => .refl _
  | .index a b, h => by
    rw [Ex.callees] at h; rw [Ex.eval, Ex.eval]; exact (a.sim h.left).bind fun _ => (b.sim h.right).bind fun _ => .refl _
  | .bin _ a b, h => by
    rw [Ex.callees] at h; rw [Ex.eval, Ex.eval]; exact (a.sim h.left).bind fun _ => (b.sim h.right).bind fun _ => .refl _
  | .binLines _ _ a b, h => by
    rw [Ex.callees] at h; rw [Ex.eval, Ex.eval]; exact (a.sim h.left).bind fun _ => (b.sim h.right).bind fun _ => .refl _
  | .and a b, h => by
    rw [Ex.callees] at h; rw [Ex.eval, Ex.eval]
    refine (a.sim h.left).bind fun x => ?_
    split
    · exact b.sim h.right
    · exact .refl _
    · exact .refl _
  | .or a b, h => by
    rw [Ex.callees] at h; rw [Ex.eval, Ex.eval]
    refine (a.sim h.left).bind fun x => ?_
    split
    · exact .refl _
    · exact b.sim h.right
    · exact .refl _
  | .cond e a b, h => by
    rw [Ex.callees] at h; rw [Ex.eval, Ex.eval]
    refine (e.sim h.left).bind fun x => ?_
    split
    · exact a.sim h.right.left
    · exact b.sim h.right.right
    · exact .refl _
  | .has _ e, h => by rw [Ex.callees] at h; rw [Ex.eval, Ex.eval]; exact (e.sim h).bind fun _ => .refl _
  | .isA e b, h => by
    rw [Ex.callees] at h; rw [Ex.eval, Ex.eval]; exact (e.sim h).bind fun _ => by rw [h.free]; exact .refl _
  | .newArray, h => by rw [Ex.eval, Ex.eval]; exact .refl _
  | .tuple _ es, h => by rw [Ex.callees] at h; rw [Ex.eval, Ex.eval]; exact es.sim h fun _ => .refl _
  | .objInline l, h => by rw [Ex.callees] at h; rw [Ex.eval, Ex.eval]; exact l.sim h fun _ => .refl _
  | .objLines l, h => by rw [Ex.callees] at h; rw [Ex.eval, Ex.eval]; exact l.sim h fun _ => .refl _
  | .runtime f es, h => by
    rw [Ex.callees] at h; rw [Ex.eval, Ex.eval, h.free]
    split
    · exact es.sim h.tail fun vs => h.calls _ List.mem_cons_self vs
    · exact .refl _
  | .path p f es, h => by
    rw [Ex.callees] at h; rw [Ex.eval, Ex.eval, ← h.path, ← h.exports]
    split
    next q hq =>
      refine es.sim h.right fun vs => h.left.calls _ ?_ vs
      simp only [Ctx.site, hq, Option.toList_some, List.map_cons, List.map_nil, List.mem_singleton]
    · exact .refl _
  | .own _ f es, h => by
    rw [Ex.callees] at h; rw [Ex.eval, Ex.eval, ← h.path]
    intro s
    dsimp only
    split
    · exact .same _
    · exact es.sim h.tail (fun vs => h.calls _ List.mem_cons_self vs) s
  | .new _ b es, h => by
    rw [Ex.callees] at h; rw [Ex.eval, Ex.eval, h.free]
    split
    · exact es.sim h fun _ => .refl _
    · exact .refl _
  | .builtin b es, h => by
    rw [Ex.callees] at h; rw [Ex.eval, Ex.eval, h.free]
    split
    · exact es.sim h fun _ => .refl _
    · exact .refl _
  | .method _ e m es, h => by
    rw [Ex.callees] at h; rw [Ex.eval, Ex.eval]
    exact (e.sim h.left).bind fun _ => es.sim h.right fun _ => .refl _
theorem Args.sim {c c' : Ctx} : (es : Args) → Agree over c c' (es.callees c.site) → {k k' : List Val → M} → (∀ vs, Sim over (k vs) (k' vs)) →
    Sim over (es.eval c k) (es.eval c' k')
  | .nil, _, _, _, hk => by rw [Args.eval, Args.eval]; exact hk []
  | .cons e rest, h, _, _, hk => by
    rw [Args.callees] at h; rw [Args.eval, Args.eval]
    exact (e.sim h.left).bind fun _ => rest.sim h.right fun _ => hk _
theorem Inits.sim {c c' : Ctx} : (l : Inits) → Agree over c c' (l.callees c.site) → {k k' : List (Str × Val) → M} → (∀ vs, Sim over (k vs) (k' vs)) →
    Sim over (l.eval c k) (l.eval c' k')
  | .nil, _, _, _, hk => by rw [Inits.eval, Inits.eval]; exact hk []
  | .cons _ e rest, h, _, _, hk => by
    rw [Inits.callees] at h; rw [Inits.eval, Inits.eval]
    exact (e.sim h.left).bind fun _ => rest.sim h.right fun _ => hk _
  | .short x rest, h, _, _, hk => by
    rw [Inits.callees] at h; rw [Inits.eval, Inits.eval]
    exact (Sim.refl _).bind fun _ => rest.sim h fun _ => hk _
  | .text _ _ rest, h, _, _, hk => by
    rw [Inits.callees] at h; rw [Inits.eval, Inits.eval]
    exact rest.sim h fun _ => hk _
end

theorem Args.or_sim {c c' : Ctx} : (es : Args) → Agree over c c' (es.callees c.site) → Sim over (es.or c) (es.or c')
  | .nil, _ => .refl _
  | .cons e rest, h => by
    rw [Args.callees] at h; rw [Args.or, Args.or]
    refine (e.sim h.left).bind fun v => ?_
    split
    · exact .refl _
    · exact Args.or_sim rest h.right
    · exact .refl _

mutual
theorem Stm.sim {c c' : Ctx} : (s : Stm) → Agree over c c' (s.callees c.site) → (over = true → s.tries = false) → Sim over (s.exec c) (s.exec c')
  | .letVars xs, h, _ => by rw [Stm.exec, Stm.exec]; exact .refl _
  | .let_ x _ e, h, _ => by rw [Stm.callees] at h; rw [Stm.exec, Stm.exec]; exact (e.sim h).bind fun _ => .refl _
  | .const x e, h, _ => by rw [Stm.callees] at h; rw [Stm.exec, Stm.exec]; exact (e.sim h).bind fun _ => .refl _
  | .constTuple xs e, h, _ => by rw [Stm.callees] at h; rw [Stm.exec, Stm.exec]; exact (e.sim h).bind fun _ => .refl _
  | .assignTuple xs e, h, _ => by rw [Stm.callees] at h; rw [Stm.exec, Stm.exec]; exact (e.sim h).bind fun _ => .refl _
  | .assign x e, h, _ => by rw [Stm.callees] at h; rw [Stm.exec, Stm.exec]; exact (e.sim h).bind fun _ => .refl _
  | .update x op e, h, _ => by
    rw [Stm.callees] at h; rw [Stm.exec, Stm.exec]; exact (Sim.refl _).bind fun _ => (e.sim h).bind fun _ => .refl _
  | .expr e, h, _ => by rw [Stm.callees] at h; rw [Stm.exec, Stm.exec]; exact (e.sim h).bind fun _ => .refl _
  | .block b, h, ht => by
    rw [Stm.callees] at h; rw [Stm.tries] at ht; rw [Stm.exec, Stm.exec]; exact (b.sim h ht).block _
  | .if_ e a b, h, ht => by
    rw [Stm.callees] at h; rw [Stm.tries] at ht; simp only [Bool.or_eq_false_iff] at ht; rw [Stm.exec, Stm.exec]
    exact (e.sim h.left).bind fun v => ((a.sim h.right.left fun o => (ht o).1).block _).ifElse v (b.sim h.right.right fun o => (ht o).2)
  | .ifAny es a, h, ht => by
    rw [Stm.callees] at h; rw [Stm.tries] at ht; rw [Stm.exec, Stm.exec]
    exact (es.or_sim h.left).bind fun v => ((a.sim h.right ht).block _).ifElse v (.refl _)
  | .for_ e b, h, ht => by
    rw [Stm.callees] at h; rw [Stm.tries] at ht; rw [Stm.exec, Stm.exec]
    refine Sim.scoped (Sim.rounds ?_ (((b.sim h.right ht).block _).bind fun _ => .refl _) _ _ h.fuel) _
    refine Ex.sim _ (h.left.mono fun f hf => ?_)
    rw [Ex.callees, Ex.callees, List.nil_append] at hf
    exact hf
  | .while_ e b, h, ht => by
    rw [Stm.callees] at h; rw [Stm.tries] at ht; rw [Stm.exec, Stm.exec]
    exact Sim.rounds (e.sim h.left) ((b.sim h.right ht).block _) _ _ h.fuel
  | .try_ a b, h, ht => by
    rw [Stm.callees] at h; rw [Stm.tries] at ht; rw [Stm.exec, Stm.exec]
    have ho : over = false := by cases over with
      | true => cases ht rfl
      | false => rfl
    exact Sim.tryCatch ho ((a.sim h.left fun o => by rw [ho] at o; cases o).block _) ((b.sim h.right fun o => by rw [ho] at o; cases o).block _)
  | .switch e cases, h, ht => by
    rw [Stm.callees] at h; rw [Stm.tries] at ht; rw [Stm.exec, Stm.exec]
    exact (e.sim h.left).bind fun v => ((cases.sim v false h.right ht).block _).breakable
  | .return_ e, h, _ => by rw [Stm.callees] at h; rw [Stm.exec, Stm.exec]; exact (e.sim h).bind fun _ => .refl _
  | .throw_ e, h, _ => by rw [Stm.callees] at h; rw [Stm.exec, Stm.exec]; exact (e.sim h).bind fun _ => .refl _
  | .throwMissing, h, _ => by rw [Stm.exec, Stm.exec, h.free, h.free]; exact .refl _
  | .break_, h, _ => by rw [Stm.exec, Stm.exec]; exact .refl _
  | .blank, h, _ => by rw [Stm.exec, Stm.exec]; exact .refl _
theorem Stms.sim {c c' : Ctx} : (b : Stms) → Agree over c c' (b.callees c.site) → (over = true → b.tries = false) → Sim over (b.exec c) (b.exec c')
  | .nil, _, _ => by rw [Stms.exec, Stms.exec]; exact .refl _
  | .cons s rest, h, ht => by
    rw [Stms.callees] at h; rw [Stms.tries] at ht; simp only [Bool.or_eq_false_iff] at ht; rw [Stms.exec, Stms.exec]
    exact (s.sim h.left fun o => (ht o).1).bind fun _ => rest.sim h.right fun o => (ht o).2
theorem Else.sim {c c' : Ctx} : (b : Else) → Agree over c c' (b.callees c.site) → (over = true → b.tries = false) → Sim over (b.exec c) (b.exec c')
  | .none, _, _ => by rw [Else.exec, Else.exec]; exact .refl _
  | .else_ b, h, ht => by
    rw [Else.callees] at h; rw [Else.tries] at ht; rw [Else.exec, Else.exec]; exact (b.sim h ht).block _
  | .elseIf e a b, h, ht => by
    rw [Else.callees] at h; rw [Else.tries] at ht; simp only [Bool.or_eq_false_iff] at ht; rw [Else.exec, Else.exec]
    exact (e.sim h.left).bind fun v => ((a.sim h.right.left fun o => (ht o).1).block _).ifElse v (b.sim h.right.right fun o => (ht o).2)
theorem Cases.sim {c c' : Ctx} : (b : Cases) → (x : Val) → (r : Bool) → Agree over c c' (b.callees c.site) → (over = true → b.tries = false) →
    Sim over (b.exec c x r) (b.exec c' x r)
  | .nil, x, r, _, _ => by rw [Cases.exec, Cases.exec]; exact .refl _
  | .case l brace b rest, x, r, h, ht => by
    rw [Cases.callees] at h; rw [Cases.tries] at ht; simp only [Bool.or_eq_false_iff] at ht; unfold Cases.exec
    have hb : Sim over (if brace then M.block b.declared (b.exec c) else b.exec c) (if brace then M.block b.declared (b.exec c') else b.exec c') := by
      split
      · exact (b.sim h.left fun o => (ht o).1).block _
      · exact b.sim h.left fun o => (ht o).1
    generalize hB : (if brace then M.block b.declared (b.exec c) else b.exec c) = B at hb
    generalize hB' : (if brace then M.block b.declared (b.exec c') else b.exec c') = B' at hb
    split
    · exact rest.sim x false h.right fun o => (ht o).2
    · exact .refl _
    · exact hb.bind fun _ => rest.sim x true h.right fun o => (ht o).2
  | .default_ brace b .nil, x, r, h, ht => by
    rw [Cases.callees] at h; rw [Cases.tries] at ht; simp only [Bool.or_eq_false_iff] at ht; rw [Cases.exec, Cases.exec]
    split
    · exact (b.sim h.left fun o => (ht o).1).block _
    · exact b.sim h.left fun o => (ht o).1
  | .default_ _ _ (.case _ _ _ _), x, r, h, ht => by simp only [Cases.exec]; exact .refl _
  | .default_ _ _ (.default_ _ _ _), x, r, h, ht => by simp only [Cases.exec]; exact .refl _
end

end Typical.TsGen

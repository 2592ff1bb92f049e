import Verif.TsGen.Env
import Verif.TsGen.Attr

/-!
# Helper: rules for executing generated TypeScript code

`run m s κ` executes `m` and then the continuation `κ`. The rules below rewrite it from the outermost construct on; the congruence rules
keep `simp` from looking into what is executed later.
-/

namespace Typical.TsGen

/-- Execute, then continue. -/
def run (m : M) (s : St) (κ : Out → St → Option (Out × St)) : Option (Out × St) :=
  match m s with
  | none => none
  | some (o, s) => κ o s

@[congr] theorem run_congr {m : M} {s s' : St} {κ : Out → St → Option (Out × St)} (h : s = s') : run m s κ = run m s' κ := by rw [h]

/-- Nothing follows. -/
def doneK (o : Out) (s : St) : Option (Out × St) := some (o, s)

@[ts_run] theorem doneK_eq (o : Out) (s : St) : doneK o s = some (o, s) := rfl

theorem run_done (m : M) (s : St) : run m s doneK = m s := by
  unfold run
  cases m s <;> rfl

theorem run_eq {m : M} {s s' : St} {o : Out} (h : m s = some (o, s')) (κ : Out → St → Option (Out × St)) : run m s κ = κ o s' := by
  rw [run, h]

/-- Continue if the outcome is a value. -/
def thenK (k : Val → M) (κ : Out → St → Option (Out × St)) : Out → St → Option (Out × St)
  | .val v, s => run (k v) s κ
  | .brk, s => κ .brk s
  | .ret v, s => κ (.ret v) s
  | .throw e, s => κ (.throw e) s

@[congr] theorem thenK_congr {k : Val → M} {κ : Out → St → Option (Out × St)} {o o' : Out} {s s' : St} (h : o = o') (h' : s = s') :
    thenK k κ o s = thenK k κ o' s' := by rw [h, h']

@[ts_run] theorem thenK_val (k : Val → M) (κ : Out → St → Option (Out × St)) (v : Val) (s : St) : thenK k κ (.val v) s = run (k v) s κ := rfl
@[ts_run] theorem thenK_brk (k : Val → M) (κ : Out → St → Option (Out × St)) (s : St) : thenK k κ .brk s = κ .brk s := rfl
@[ts_run] theorem thenK_ret (k : Val → M) (κ : Out → St → Option (Out × St)) (v : Val) (s : St) : thenK k κ (.ret v) s = κ (.ret v) s := rfl
@[ts_run] theorem thenK_throw (k : Val → M) (κ : Out → St → Option (Out × St)) (e : Ts.Err) (s : St) :
    thenK k κ (.throw e) s = κ (.throw e) s := rfl

@[ts_run] theorem run_bind (m : M) (k : Val → M) (s : St) (κ : Out → St → Option (Out × St)) : run (m.bind k) s κ = run m s (thenK k κ) := by
  rw [run, run, M.bind]
  cases m s with
  | none => rfl
  | some r => obtain ⟨o, s⟩ := r; cases o <;> rfl

/-- Continue with the value, if there is one. -/
def optK (o : Option Val) (s : St) (κ : Out → St → Option (Out × St)) : Option (Out × St) :=
  match o with
  | some v => κ (.val v) s
  | none => none

@[congr] theorem optK_congr {o o' : Option Val} {s s' : St} {κ : Out → St → Option (Out × St)} (h : o = o') (h' : s = s') :
    optK o s κ = optK o' s' κ := by rw [h, h']

@[ts_run] theorem optK_some (v : Val) (s : St) (κ : Out → St → Option (Out × St)) : optK (some v) s κ = κ (.val v) s := rfl

@[ts_run] theorem run_pure (v : Val) (s : St) (κ : Out → St → Option (Out × St)) : run (.pure v) s κ = κ (.val v) s := rfl
@[ts_run] theorem run_skip (s : St) (κ : Out → St → Option (Out × St)) : run .skip s κ = κ (.val .undef) s := rfl
@[ts_run] theorem run_throw (e : Ts.Err) (s : St) (κ : Out → St → Option (Out × St)) : run (.throw e) s κ = κ (.throw e) s := rfl
@[ts_run] theorem run_get (x : TVar) (s : St) (κ : Out → St → Option (Out × St)) : run (.get x) s κ = optK (lookup x s.env) s κ := by
  rw [run, M.get]; cases lookup x s.env <;> rfl
@[ts_run] theorem run_ofOption (o : Option Val) (s : St) (κ : Out → St → Option (Out × St)) : run (.ofOption o) s κ = optK o s κ := by
  rw [run, M.ofOption]; cases o <;> rfl
@[ts_run] theorem run_fun_some (f : St → Out) (s : St) (κ : Out → St → Option (Out × St)) : run (fun s => some (f s, s)) s κ = κ (f s) s := rfl

/-- Continue if the condition holds. -/
def okK (b : Bool) (o : Out) (s : St) (κ : Out → St → Option (Out × St)) : Option (Out × St) := if b then κ o s else none

@[congr] theorem okK_congr {b b' : Bool} {o : Out} {s : St} {κ : Out → St → Option (Out × St)} (h : b = b') : okK b o s κ = okK b' o s κ := by rw [h]

@[ts_run] theorem okK_true (o : Out) (s : St) (κ : Out → St → Option (Out × St)) : okK true o s κ = κ o s := rfl

@[ts_run] theorem run_assign (x : TVar) (v : Val) (env : Env) (h : List Obj) (sc : Nat → UInt8) (κ : Out → St → Option (Out × St)) :
    run (.assign x v) ⟨env, h, sc⟩ κ = okK (assignable x env) (.val .undef) ⟨setCell x (.let_ v) env, h, sc⟩ κ := by
  rw [run, M.assign, okK]
  cases hx : assignable x env <;> simp

@[ts_run] theorem run_declare (x : TVar) (c : Cell) (env : Env) (h : List Obj) (sc : Nat → UInt8) (κ : Out → St → Option (Out × St)) :
    run (.declare x c) ⟨env, h, sc⟩ κ = okK (uninit x env) (.val .undef) ⟨setCell x c env, h, sc⟩ κ := by
  rw [run, M.declare, okK]
  cases hx : uninit x env <;> simp

@[ts_run] theorem run_assignAll_nil (s : St) (κ : Out → St → Option (Out × St)) : run (.assignAll [] []) s κ = κ (.val .undef) s := rfl
@[ts_run] theorem run_assignAll_cons (x : TVar) (xs : List TVar) (v : Val) (vs : List Val) (s : St) (κ : Out → St → Option (Out × St)) :
    run (.assignAll (x :: xs) (v :: vs)) s κ = run (.assign x v) s (thenK (fun _ => .assignAll xs vs) κ) := by
  rw [M.assignAll, run_bind]
@[ts_run] theorem run_declareAll_nil (s : St) (κ : Out → St → Option (Out × St)) : run (.declareAll [] []) s κ = κ (.val .undef) s := rfl
@[ts_run] theorem run_declareAll_cons (x : TVar) (xs : List TVar) (v : Cell) (vs : List Cell) (s : St) (κ : Out → St → Option (Out × St)) :
    run (.declareAll (x :: xs) (v :: vs)) s κ = run (.declare x v) s (thenK (fun _ => .declareAll xs vs) κ) := by
  rw [M.declareAll, run_bind]

/-- Leave a scope. -/
def leaveK (n : Nat) (κ : Out → St → Option (Out × St)) (o : Out) (s : St) : Option (Out × St) := κ o { s with env := s.env.drop n }

@[congr] theorem leaveK_congr {n : Nat} {κ : Out → St → Option (Out × St)} {o o' : Out} {s s' : St} (h : o = o') (h' : s = s') :
    leaveK n κ o s = leaveK n κ o' s' := by rw [h, h']

@[ts_run] theorem leaveK_eq (n : Nat) (κ : Out → St → Option (Out × St)) (o : Out) (env : Env) (h : List Obj) (sc : Nat → UInt8) :
    leaveK n κ o ⟨env, h, sc⟩ = κ o ⟨env.drop n, h, sc⟩ := rfl

@[ts_run] theorem run_scoped (xs : Env) (m : M) (env : Env) (h : List Obj) (sc : Nat → UInt8) (κ : Out → St → Option (Out × St)) :
    run (.scoped xs m) ⟨env, h, sc⟩ κ = run m ⟨xs ++ env, h, sc⟩ (leaveK xs.length κ) := by
  rw [run, run, M.scoped]
  cases m { env := xs ++ env, heap := h, scratch := sc } <;> rfl

@[ts_run] theorem run_block (xs : List TVar) (m : M) (env : Env) (h : List Obj) (sc : Nat → UInt8) (κ : Out → St → Option (Out × St)) :
    run (.block xs m) ⟨env, h, sc⟩ κ =
      if xs.Nodup then run m ⟨xs.map (fun x => (x, Cell.uninit)) ++ env, h, sc⟩ (leaveK xs.length κ) else none := by
  unfold M.block
  split
  · rw [run_scoped, List.length_map]
  · rfl

/-- Leave a function. -/
def returnK (env : Env) (κ : Out → St → Option (Out × St)) : Out → St → Option (Out × St)
  | .val _, s => κ (.val .undef) { s with env := env }
  | .ret v, s => κ (.val v) { s with env := env }
  | .throw e, s => κ (.throw e) { s with env := env }
  | .brk, _ => none

@[congr] theorem returnK_congr {env : Env} {κ : Out → St → Option (Out × St)} {o o' : Out} {s s' : St} (h : o = o') (h' : s = s') :
    returnK env κ o s = returnK env κ o' s' := by rw [h, h']

@[ts_run] theorem returnK_val (env env' : Env) (κ : Out → St → Option (Out × St)) (v : Val) (h : List Obj) (sc : Nat → UInt8) :
    returnK env κ (.val v) ⟨env', h, sc⟩ = κ (.val .undef) ⟨env, h, sc⟩ := rfl
@[ts_run] theorem returnK_ret (env env' : Env) (κ : Out → St → Option (Out × St)) (v : Val) (h : List Obj) (sc : Nat → UInt8) :
    returnK env κ (.ret v) ⟨env', h, sc⟩ = κ (.val v) ⟨env, h, sc⟩ := rfl
@[ts_run] theorem returnK_throw (env env' : Env) (κ : Out → St → Option (Out × St)) (e : Ts.Err) (h : List Obj) (sc : Nat → UInt8) :
    returnK env κ (.throw e) ⟨env', h, sc⟩ = κ (.throw e) ⟨env, h, sc⟩ := rfl

@[ts_run] theorem run_frame (params : List TVar) (args : List Val) (xs : List TVar) (m : M) (env : Env) (h : List Obj) (sc : Nat → UInt8)
    (κ : Out → St → Option (Out × St)) :
    run (.frame params args xs m) ⟨env, h, sc⟩ κ =
      if args.length = params.length ∧ (xs ++ params).Nodup then
        run m ⟨xs.map (fun x => (x, Cell.uninit)) ++ params.zip (args.map Cell.let_), h, sc⟩ (returnK env κ)
      else none := by
  unfold M.frame run
  by_cases hp : args.length = params.length ∧ (xs ++ params).Nodup
  · simp only [if_pos hp]
    cases m { env := xs.map (fun x => (x, Cell.uninit)) ++ params.zip (args.map Cell.let_), heap := h, scratch := sc } with
    | none => rfl
    | some r => obtain ⟨o, s⟩ := r; cases o <;> rfl
  · simp only [if_neg hp]

@[ts_run] theorem run_alloc (o : Obj) (k : Nat → Val) (env : Env) (h : List Obj) (sc : Nat → UInt8) (κ : Out → St → Option (Out × St)) :
    run (.alloc o k) ⟨env, h, sc⟩ κ = κ (.val (k h.length)) ⟨env, h ++ [o], sc⟩ := rfl

/-- Continue with the content of an `ArrayBuffer`. -/
def bufK (o : Option Obj) (k : Bytes → M) (s : St) (κ : Out → St → Option (Out × St)) : Option (Out × St) :=
  match o with
  | some (.buf b) => run (k b) s κ
  | _ => none

@[congr] theorem bufK_congr {o o' : Option Obj} {k : Bytes → M} {s : St} {κ : Out → St → Option (Out × St)} (h : o = o') :
    bufK o k s κ = bufK o' k s κ := by rw [h]

@[ts_run] theorem bufK_some (b : Bytes) (k : Bytes → M) (s : St) (κ : Out → St → Option (Out × St)) :
    bufK (some (.buf b)) k s κ = run (k b) s κ := rfl

@[ts_run] theorem run_withBuf (r : Nat) (k : Bytes → M) (env : Env) (h : List Obj) (sc : Nat → UInt8) (κ : Out → St → Option (Out × St)) :
    run (.withBuf r k) ⟨env, h, sc⟩ κ = bufK h[r]? k ⟨env, h, sc⟩ κ := by
  unfold run M.withBuf bufK
  simp only
  cases h[r]? with
  | none => rfl
  | some o => cases o <;> rfl

/-- Continue with the content of an array. -/
def arrK (o : Option Obj) (k : List Val → M) (s : St) (κ : Out → St → Option (Out × St)) : Option (Out × St) :=
  match o with
  | some (.arr b) => run (k b) s κ
  | _ => none

@[congr] theorem arrK_congr {o o' : Option Obj} {k : List Val → M} {s : St} {κ : Out → St → Option (Out × St)} (h : o = o') :
    arrK o k s κ = arrK o' k s κ := by rw [h]

@[ts_run] theorem arrK_some (b : List Val) (k : List Val → M) (s : St) (κ : Out → St → Option (Out × St)) :
    arrK (some (.arr b)) k s κ = run (k b) s κ := rfl

@[ts_run] theorem run_withArr (r : Nat) (k : List Val → M) (env : Env) (h : List Obj) (sc : Nat → UInt8) (κ : Out → St → Option (Out × St)) :
    run (.withArr r k) ⟨env, h, sc⟩ κ = arrK h[r]? k ⟨env, h, sc⟩ κ := by
  unfold run M.withArr arrK
  simp only
  cases h[r]? with
  | none => rfl
  | some o => cases o <;> rfl

@[ts_run] theorem run_store (r : Nat) (o : Obj) (v : Val) (env : Env) (h : List Obj) (sc : Nat → UInt8) (κ : Out → St → Option (Out × St)) :
    run (.store r o v) ⟨env, h, sc⟩ κ = κ (.val v) ⟨env, h.set r o, sc⟩ := rfl

@[ts_run] theorem run_ite (p : Prop) [Decidable p] (a b : M) (s : St) (κ : Out → St → Option (Out × St)) :
    run (if p then a else b) s κ = if p then run a s κ else run b s κ := by split <;> rfl

@[ts_run] theorem run_ifElse_true (a b : M) (s : St) (κ : Out → St → Option (Out × St)) : run (.ifElse (.bool true) a b) s κ = run a s κ := rfl
@[ts_run] theorem run_ifElse_false (a b : M) (s : St) (κ : Out → St → Option (Out × St)) : run (.ifElse (.bool false) a b) s κ = run b s κ := rfl

/-- Catch. -/
def catchK (b : M) (κ : Out → St → Option (Out × St)) : Out → St → Option (Out × St)
  | .throw e, s => run (b.scoped [(.e, .let_ (.err e))]) s κ
  | o, s => κ o s

@[congr] theorem catchK_congr {b : M} {κ : Out → St → Option (Out × St)} {o o' : Out} {s s' : St} (h : o = o') (h' : s = s') :
    catchK b κ o s = catchK b κ o' s' := by rw [h, h']

@[ts_run] theorem catchK_val (b : M) (κ : Out → St → Option (Out × St)) (v : Val) (s : St) : catchK b κ (.val v) s = κ (.val v) s := rfl
@[ts_run] theorem catchK_brk (b : M) (κ : Out → St → Option (Out × St)) (s : St) : catchK b κ .brk s = κ .brk s := rfl
@[ts_run] theorem catchK_ret (b : M) (κ : Out → St → Option (Out × St)) (v : Val) (s : St) : catchK b κ (.ret v) s = κ (.ret v) s := rfl
@[ts_run] theorem catchK_throw (b : M) (κ : Out → St → Option (Out × St)) (e : Ts.Err) (s : St) :
    catchK b κ (.throw e) s = run (b.scoped [(.e, .let_ (.err e))]) s κ := rfl

@[ts_run] theorem run_tryCatch (a b : M) (s : St) (κ : Out → St → Option (Out × St)) : run (.tryCatch a b) s κ = run a s (catchK b κ) := by
  unfold run M.tryCatch
  cases a s with
  | none => rfl
  | some r =>
    obtain ⟨o, s⟩ := r
    cases o <;> rfl

/-- The end of a `switch`. -/
def breakK (κ : Out → St → Option (Out × St)) : Out → St → Option (Out × St)
  | .brk, s => κ (.val .undef) s
  | o, s => κ o s

@[congr] theorem breakK_congr {κ : Out → St → Option (Out × St)} {o o' : Out} {s s' : St} (h : o = o') (h' : s = s') :
    breakK κ o s = breakK κ o' s' := by rw [h, h']

@[ts_run] theorem breakK_val (κ : Out → St → Option (Out × St)) (v : Val) (s : St) : breakK κ (.val v) s = κ (.val v) s := rfl
@[ts_run] theorem breakK_brk (κ : Out → St → Option (Out × St)) (s : St) : breakK κ .brk s = κ (.val .undef) s := rfl
@[ts_run] theorem breakK_ret (κ : Out → St → Option (Out × St)) (v : Val) (s : St) : breakK κ (.ret v) s = κ (.ret v) s := rfl
@[ts_run] theorem breakK_throw (κ : Out → St → Option (Out × St)) (e : Ts.Err) (s : St) : breakK κ (.throw e) s = κ (.throw e) s := rfl

@[ts_run] theorem run_breakable (m : M) (s : St) (κ : Out → St → Option (Out × St)) : run (.breakable m) s κ = run m s (breakK κ) := by
  unfold run M.breakable
  cases m s with
  | none => rfl
  | some r => obtain ⟨o, s⟩ := r; cases o <;> rfl

/-! ### Expressions -/

section
variable (c : Ctx) (s : St) (κ : Out → St → Option (Out × St))

@[ts_run] theorem run_var (x : TVar) : run (Ex.eval c (.var x)) s κ = run (.get x) s κ := by rw [Ex.eval]
@[ts_run] theorem run_lit (l : Lit) : run (Ex.eval c (.lit l)) s κ = κ (.val l.val) s := by rw [Ex.eval]; rfl
@[ts_run] theorem run_glob (g : Glob) : run (Ex.eval c (.glob g)) s κ = okK (c.free g.text) (.val (.glob g)) s κ := by
  rw [Ex.eval, okK]; split <;> rfl
@[ts_run] theorem run_paren (b : Bool) (e : Ex) : run (Ex.eval c (.paren b e)) s κ = run (e.eval c) s κ := by rw [Ex.eval]
@[ts_run] theorem run_neg (e : Ex) : run (Ex.eval c (.neg e)) s κ = run (e.eval c) s (thenK (fun v => .ofOption v.neg) κ) := by
  rw [Ex.eval, run_bind]
@[ts_run] theorem run_negBig (n : Nat) : run (Ex.eval c (.negBig n)) s κ = κ (.val (.big (-n))) s := by rw [Ex.eval]; rfl
@[ts_run] theorem run_as (e : Ex) (t : Str) : run (Ex.eval c (.as_ e t)) s κ = run (e.eval c) s κ := by rw [Ex.eval]
@[ts_run] theorem run_prop (e : Ex) (name : Str) : run (Ex.eval c (.prop e name)) s κ = run (e.eval c) s (thenK (fun v => v.prop name) κ) := by
  rw [Ex.eval, run_bind]
@[ts_run] theorem run_index (e i : Ex) : run (Ex.eval c (.index e i)) s κ =
    run (e.eval c) s (thenK (fun v => (i.eval c).bind fun w => v.index w) κ) := by
  rw [Ex.eval, run_bind]
@[ts_run] theorem run_bin (op : BinOp) (a b : Ex) : run (Ex.eval c (.bin op a b)) s κ =
    run (a.eval c) s (thenK (fun x => (b.eval c).bind fun y => .ofOption (op.run x y)) κ) := by
  rw [Ex.eval, run_bind]
@[ts_run] theorem run_binLines (n : Nat) (op : BinOp) (a b : Ex) : run (Ex.eval c (.binLines n op a b)) s κ =
    run (a.eval c) s (thenK (fun x => (b.eval c).bind fun y => .ofOption (op.run x y)) κ) := by
  rw [Ex.eval, run_bind]

/-- The second operand of `&&`. -/
def M.andThen (v : Val) (m : M) : M :=
  match v with
  | .bool true => m
  | .bool false => .pure (.bool false)
  | _ => .stuck
/-- The second operand of `||`. -/
def M.orElse (v : Val) (m : M) : M :=
  match v with
  | .bool true => .pure (.bool true)
  | .bool false => m
  | _ => .stuck

@[ts_run] theorem andThen_true (m : M) : run (M.andThen (.bool true) m) s κ = run m s κ := rfl
@[ts_run] theorem andThen_false (m : M) : run (M.andThen (.bool false) m) s κ = κ (.val (.bool false)) s := rfl
@[ts_run] theorem orElse_true (m : M) : run (M.orElse (.bool true) m) s κ = κ (.val (.bool true)) s := rfl
@[ts_run] theorem orElse_false (m : M) : run (M.orElse (.bool false) m) s κ = run m s κ := rfl

@[ts_run] theorem run_and (a b : Ex) : run (Ex.eval c (.and a b)) s κ = run (a.eval c) s (thenK (fun x => M.andThen x (b.eval c)) κ) := by
  rw [Ex.eval, run_bind]; rfl
@[ts_run] theorem run_or (a b : Ex) : run (Ex.eval c (.or a b)) s κ = run (a.eval c) s (thenK (fun x => M.orElse x (b.eval c)) κ) := by
  rw [Ex.eval, run_bind]; rfl
@[ts_run] theorem run_cond (e a b : Ex) : run (Ex.eval c (.cond e a b)) s κ =
    run (e.eval c) s (thenK (fun x => M.ifElse x (a.eval c) (b.eval c)) κ) := by
  rw [Ex.eval, run_bind]; rfl
@[ts_run] theorem run_has (name : Str) (e : Ex) : run (Ex.eval c (.has name e)) s κ =
    run (e.eval c) s (thenK (fun v => .ofOption (v.has name)) κ) := by
  rw [Ex.eval, run_bind]
@[ts_run] theorem run_isA (e : Ex) (b : Builtin) : run (Ex.eval c (.isA e b)) s κ =
    run (e.eval c) s (thenK (fun v => if c.free b.root then .ofOption (v.isA b) else .stuck) κ) := by
  rw [Ex.eval, run_bind]
@[ts_run] theorem run_newArray : run (Ex.eval c .newArray) s κ = run (.alloc (.arr []) .arr) s κ := by rw [Ex.eval]
@[ts_run] theorem run_tuple (b : Bool) (es : Args) : run (Ex.eval c (.tuple b es)) s κ = run (es.eval c fun vs => .pure (.tuple vs)) s κ := by
  rw [Ex.eval]
@[ts_run] theorem run_objInline (es : Inits) : run (Ex.eval c (.objInline es)) s κ = run (es.eval c fun vs => .pure (.obj vs)) s κ := by
  rw [Ex.eval]
@[ts_run] theorem run_objLines (es : Inits) : run (Ex.eval c (.objLines es)) s κ = run (es.eval c fun vs => .pure (.obj vs)) s κ := by
  rw [Ex.eval]
@[ts_run] theorem run_runtime (f : RuntimeFn) (es : Args) : run (Ex.eval c (.runtime f es)) s κ =
    if c.free f.text then run (es.eval c fun vs => c.call (.runtime f) vs) s κ else none := by
  rw [Ex.eval]; split <;> rfl
@[ts_run] theorem run_own (b : Bool) (f : Fn) (es : Args) : run (Ex.eval c (.own b f es)) s κ =
    if s.env.any (fun x => x.1.text == f.text) then none else run (es.eval c fun vs => c.call (.decl c.path f) vs) s κ := by
  rw [Ex.eval, run]
  by_cases h : (s.env.any fun x => x.1.text == f.text) = true
  · simp only [if_pos h]
  · simp only [if_neg h]
    rfl
@[ts_run] theorem run_new (b : Bool) (f : Builtin) (es : Args) : run (Ex.eval c (.new b f es)) s κ =
    if c.free f.root then run (es.eval c fun vs => f.construct vs) s κ else none := by
  rw [Ex.eval]; split <;> rfl
@[ts_run] theorem run_builtin (f : Builtin) (es : Args) : run (Ex.eval c (.builtin f es)) s κ =
    if c.free f.root then run (es.eval c fun vs => f.call vs) s κ else none := by
  rw [Ex.eval]; split <;> rfl
@[ts_run] theorem run_method (b : Bool) (e : Ex) (m : Method) (es : Args) : run (Ex.eval c (.method b e m es)) s κ =
    run (e.eval c) s (thenK (fun v => es.eval c fun vs => m.run v vs) κ) := by
  rw [Ex.eval, run_bind]
theorem run_path {p q : List Str} (h : tsResolve c.exports c.path p = some q) (f : Fn) (es : Args) : run (Ex.eval c (.path p f es)) s κ =
    run (es.eval c fun vs => c.call (.decl q f) vs) s κ := by
  rw [Ex.eval, h]

@[ts_run] theorem run_args_nil (k : List Val → M) : run (Args.eval c .nil k) s κ = run (k []) s κ := by rw [Args.eval]
@[ts_run] theorem run_args_cons (e : Ex) (rest : Args) (k : List Val → M) : run (Args.eval c (.cons e rest) k) s κ =
    run (e.eval c) s (thenK (fun v => rest.eval c fun vs => k (v :: vs)) κ) := by rw [Args.eval, run_bind]
@[ts_run] theorem run_inits_nil (k : List (Str × Val) → M) : run (Inits.eval c .nil k) s κ = run (k []) s κ := by rw [Inits.eval]
@[ts_run] theorem run_inits_cons (name : Str) (e : Ex) (rest : Inits) (k : List (Str × Val) → M) : run (Inits.eval c (.cons name e rest) k) s κ =
    run (e.eval c) s (thenK (fun v => rest.eval c fun vs => k ((name, v) :: vs)) κ) := by rw [Inits.eval, run_bind]
@[ts_run] theorem run_inits_short (x : TVar) (rest : Inits) (k : List (Str × Val) → M) : run (Inits.eval c (.short x rest) k) s κ =
    run (.get x) s (thenK (fun v => rest.eval c fun vs => k ((x.text, v) :: vs)) κ) := by rw [Inits.eval, run_bind]
@[ts_run] theorem run_inits_text (name t : Str) (rest : Inits) (k : List (Str × Val) → M) : run (Inits.eval c (.text name t rest) k) s κ =
    run (rest.eval c fun vs => k ((name, .text t) :: vs)) s κ := by rw [Inits.eval]

/-! ### Statements -/

@[ts_run] theorem run_letVars (xs : List TVar) : run (Stm.exec c (.letVars xs)) s κ = run (.declareAll xs (xs.map fun _ => .let_ .undef)) s κ := by
  rw [Stm.exec]
@[ts_run] theorem run_let (x : TVar) (t : Option Str) (e : Ex) : run (Stm.exec c (.let_ x t e)) s κ =
    run (e.eval c) s (thenK (fun v => .declare x (.let_ v)) κ) := by
  rw [Stm.exec, run_bind]
@[ts_run] theorem run_const (x : TVar) (e : Ex) : run (Stm.exec c (.const x e)) s κ =
    run (e.eval c) s (thenK (fun v => .declare x (.const v)) κ) := by
  rw [Stm.exec, run_bind]

/-- Use the elements of a tuple. -/
def M.untuple (v : Val) (k : List Val → M) : M :=
  match v with
  | .tuple l => k l
  | _ => .stuck

@[ts_run] theorem run_untuple (l : List Val) (k : List Val → M) : run (M.untuple (.tuple l) k) s κ = run (k l) s κ := rfl

@[ts_run] theorem run_constTuple (xs : List TVar) (e : Ex) : run (Stm.exec c (.constTuple xs e)) s κ =
    run (e.eval c) s (thenK (fun v => M.untuple v fun l => .declareAll xs (l.map .const)) κ) := by
  rw [Stm.exec, run_bind]; rfl
@[ts_run] theorem run_assignTuple (xs : List TVar) (e : Ex) : run (Stm.exec c (.assignTuple xs e)) s κ =
    run (e.eval c) s (thenK (fun v => M.untuple v fun l => .assignAll xs l) κ) := by
  rw [Stm.exec, run_bind]; rfl
@[ts_run] theorem run_assignS (x : TVar) (e : Ex) : run (Stm.exec c (.assign x e)) s κ =
    run (e.eval c) s (thenK (fun v => .assign x v) κ) := by
  rw [Stm.exec, run_bind]
@[ts_run] theorem run_update (x : TVar) (op : BinOp) (e : Ex) : run (Stm.exec c (.update x op e)) s κ =
    run (.get x) s (thenK (fun v => (e.eval c).bind fun w => (M.ofOption (op.run v w)).bind fun v => .assign x v) κ) := by
  rw [Stm.exec, run_bind]
@[ts_run] theorem run_expr (e : Ex) : run (Stm.exec c (.expr e)) s κ = run (e.eval c) s (thenK (fun _ => .skip) κ) := by
  rw [Stm.exec, run_bind]
@[ts_run] theorem run_blockS (b : Stms) : run (Stm.exec c (.block b)) s κ = run (.block b.declared (b.exec c)) s κ := by rw [Stm.exec]
@[ts_run] theorem run_if (e : Ex) (a : Stms) (b : Else) : run (Stm.exec c (.if_ e a b)) s κ =
    run (e.eval c) s (thenK (fun v => .ifElse v (.block a.declared (a.exec c)) (b.exec c)) κ) := by
  rw [Stm.exec, run_bind]
@[ts_run] theorem run_try (a b : Stms) : run (Stm.exec c (.try_ a b)) s κ =
    run (.tryCatch (.block a.declared (a.exec c)) (.block b.declared (b.exec c))) s κ := by rw [Stm.exec]
@[ts_run] theorem run_switch (e : Ex) (cases : Cases) : run (Stm.exec c (.switch e cases)) s κ =
    run (e.eval c) s (thenK (fun v => (M.block cases.declared (cases.exec c v false)).breakable) κ) := by
  rw [Stm.exec, run_bind]
@[ts_run] theorem run_return (e : Ex) : run (Stm.exec c (.return_ e)) s κ = run (e.eval c) s (thenK (fun v s => some (.ret v, s)) κ) := by
  rw [Stm.exec, run_bind]

/-- Throw the error. -/
def M.throwVal (v : Val) : M :=
  match v with
  | .err e => .throw e
  | _ => .stuck

@[ts_run] theorem run_throwVal (e : Ts.Err) : run (M.throwVal (.err e)) s κ = κ (.throw e) s := rfl

@[ts_run] theorem run_throwS (e : Ex) : run (Stm.exec c (.throw_ e)) s κ = run (e.eval c) s (thenK M.throwVal κ) := by
  rw [Stm.exec, run_bind]; rfl
@[ts_run] theorem run_break : run (Stm.exec c .break_) s κ = κ .brk s := by rw [Stm.exec]; rfl
@[ts_run] theorem run_blank : run (Stm.exec c .blank) s κ = κ (.val .undef) s := by rw [Stm.exec]; rfl

@[ts_run] theorem run_stms_nil : run (Stms.exec c .nil) s κ = κ (.val .undef) s := by rw [Stms.exec]; rfl
@[ts_run] theorem run_stms_cons (x : Stm) (rest : Stms) : run (Stms.exec c (.cons x rest)) s κ =
    run (x.exec c) s (thenK (fun _ => rest.exec c) κ) := by rw [Stms.exec, run_bind]
@[ts_run] theorem run_stms_append (a b : Stms) : run (Stms.exec c (a ++ b)) s κ = run (a.exec c) s (thenK (fun _ => b.exec c) κ) := by
  rw [run, Stms.exec_append, ← run_bind]; rfl
@[ts_run] theorem run_else_none : run (Else.exec c .none) s κ = κ (.val .undef) s := by rw [Else.exec]; rfl
@[ts_run] theorem run_else (b : Stms) : run (Else.exec c (.else_ b)) s κ = run (.block b.declared (b.exec c)) s κ := by rw [Else.exec]
@[ts_run] theorem run_elseIf (e : Ex) (a : Stms) (b : Else) : run (Else.exec c (.elseIf e a b)) s κ =
    run (e.eval c) s (thenK (fun v => .ifElse v (.block a.declared (a.exec c)) (b.exec c)) κ) := by
  rw [Else.exec, run_bind]

/-- Continue at the matching case. -/
def caseK (r : Option Bool) (yes no : Option (Out × St)) : Option (Out × St) :=
  match r with
  | some true => yes
  | some false => no
  | none => none

@[congr] theorem caseK_congr {r r' : Option Bool} {a b : Option (Out × St)} (h : r = r') : caseK r a b = caseK r' a b := by rw [h]
@[ts_run] theorem caseK_true (a b : Option (Out × St)) : caseK (some true) a b = a := rfl
@[ts_run] theorem caseK_false (a b : Option (Out × St)) : caseK (some false) a b = b := rfl

@[ts_run] theorem run_cases_nil (x : Val) (running : Bool) : run (Cases.exec c x running .nil) s κ = κ (.val .undef) s := by rw [Cases.exec]; rfl
@[ts_run] theorem run_case (x : Val) (l : Lit) (b : Stms) (rest : Cases) : run (Cases.exec c x false (.case l false b rest)) s κ =
    caseK (strictEq x l.val) (run (b.exec c) s (thenK (fun _ => rest.exec c x true) κ)) (run (rest.exec c x false) s κ) := by
  conv => lhs; unfold Cases.exec
  cases strictEq x l.val with
  | none => rfl
  | some r => cases r
              · rfl
              · exact run_bind _ _ _ _
@[ts_run] theorem run_case_block (x : Val) (l : Lit) (b : Stms) (rest : Cases) : run (Cases.exec c x false (.case l true b rest)) s κ =
    caseK (strictEq x l.val) (run (.block b.declared (b.exec c)) s (thenK (fun _ => rest.exec c x true) κ)) (run (rest.exec c x false) s κ) := by
  conv => lhs; unfold Cases.exec
  cases strictEq x l.val with
  | none => rfl
  | some r => cases r
              · rfl
              · exact run_bind _ _ _ _
@[ts_run] theorem run_default (x : Val) (running : Bool) (b : Stms) : run (Cases.exec c x running (.default_ false b .nil)) s κ =
    run (b.exec c) s κ := by rw [Cases.exec]; rfl
@[ts_run] theorem run_default_block (x : Val) (running : Bool) (b : Stms) : run (Cases.exec c x running (.default_ true b .nil)) s κ =
    run (.block b.declared (b.exec c)) s κ := by rw [Cases.exec]; rfl

end

/-! ### Loops -/

theorem run_while (c : Ctx) (s : St) (κ : Out → St → Option (Out × St)) (e : Ex) (b : Stms) : run (Stm.exec c (.while_ e b)) s κ =
    run (rounds (e.eval c) (.block b.declared (b.exec c)) c.fuel) s κ := by rw [Stm.exec]

/-- One round of a `for`. -/
def forBody (c : Ctx) (b : Stms) : M :=
  (M.block b.declared (b.exec c)).bind fun _ => (M.get .i).bind fun v => (M.ofOption (BinOp.add.run v (.num 1))).bind fun v => .assign .i v

theorem run_for (c : Ctx) (env : Env) (h : List Obj) (sc : Nat → UInt8) (κ : Out → St → Option (Out × St)) (e : Ex) (b : Stms) :
    run (Stm.exec c (.for_ e b)) ⟨env, h, sc⟩ κ =
      run (rounds (Ex.eval c (.bin .lt (.var .i) e)) (forBody c b) c.fuel) ⟨(.i, .let_ (.num (0 : Nat))) :: env, h, sc⟩ (leaveK 1 κ) := by
  rw [Stm.exec, run_scoped]; rfl

theorem rounds_next {cond body : M} {n : Nat} {s s1 s2 : St} {v : Val} (h1 : cond s = some (.val (.bool true), s1))
    (h2 : body s1 = some (.val v, s2)) : rounds cond body (n + 1) s = rounds cond body n s2 := by
  rw [rounds, M.bind, h1]; simp only [h2]
theorem rounds_stop {cond body : M} {n : Nat} {s s1 : St} (h1 : cond s = some (.val (.bool false), s1)) :
    rounds cond body (n + 1) s = some (.val .undef, s1) := by
  rw [rounds, M.bind, h1]; rfl
theorem rounds_brk {cond body : M} {n : Nat} {s s1 s2 : St} (h1 : cond s = some (.val (.bool true), s1))
    (h2 : body s1 = some (.brk, s2)) : rounds cond body (n + 1) s = some (.val .undef, s2) := by
  rw [rounds, M.bind, h1]; simp only [h2]
theorem rounds_ret {cond body : M} {n : Nat} {s s1 s2 : St} {v : Val} (h1 : cond s = some (.val (.bool true), s1))
    (h2 : body s1 = some (.ret v, s2)) : rounds cond body (n + 1) s = some (.ret v, s2) := by
  rw [rounds, M.bind, h1]; simp only [h2]
theorem rounds_throw {cond body : M} {n : Nat} {s s1 s2 : St} {e : Ts.Err} (h1 : cond s = some (.val (.bool true), s1))
    (h2 : body s1 = some (.throw e, s2)) : rounds cond body (n + 1) s = some (.throw e, s2) := by
  rw [rounds, M.bind, h1]; simp only [h2]

/-! ### Numbers: in normal form they are casts of natural numbers -/

@[ts_run] theorem cast_add (a b : Nat) : (a : Int) + (b : Int) = ((a + b : Nat) : Int) := by simp
@[ts_run] theorem cast_succ (a : Nat) : (a : Int) + 1 = ((a + 1 : Nat) : Int) := by simp
@[ts_run] theorem cast_mul (a b : Nat) : (a : Int) * (b : Int) = ((a * b : Nat) : Int) := by simp
@[ts_run] theorem cast_mod (a b : Nat) : (a : Int) % (b : Int) = ((a % b : Nat) : Int) := by simp
@[ts_run] theorem cast_lt (a b : Nat) : ((a : Int) < (b : Int)) = (a < b) := by simp
@[ts_run] theorem cast_gt (a b : Nat) : ((a : Int) > (b : Int)) = (b < a) := by simp
@[ts_run] theorem cast_le (a b : Nat) : ((a : Int) ≤ (b : Int)) = (a ≤ b) := by simp
@[ts_run] theorem cast_eq (a b : Nat) : ((a : Int) = (b : Int)) = (a = b) := propext Int.ofNat_inj
@[ts_run] theorem cast_nonneg (a : Nat) : (0 ≤ (a : Int)) = True := by simp
@[ts_run] theorem cast_pos (a : Nat) : (0 < (a : Int)) = (0 < a) := by simp

theorem small_cast (a : Nat) : small (a : Int) = decide (a < 2147483648) := by
  unfold small
  congr 1
  exact propext ⟨fun h => by omega, fun h => by omega⟩

theorem wrap_cast (w a : Nat) : wrap w (a : Int) = a := by
  unfold wrap
  rw [if_pos (by omega), Int.toNat_natCast]

/-! ### Operators -/

section
variable (a b : Nat) (x y : Int)

@[ts_run] theorem op_add_num : BinOp.run .add (.num x) (.num y) = some (.num (x + y)) := rfl
@[ts_run] theorem op_sub_num : BinOp.run .sub (.num x) (.num y) = some (.num (x - y)) := rfl
@[ts_run] theorem op_mul_num : BinOp.run .mul (.num x) (.num y) = some (.num (x * y)) := rfl
@[ts_run] theorem op_lt_num : BinOp.run .lt (.num x) (.num y) = some (.bool (decide (x < y))) := rfl
@[ts_run] theorem op_add_big : BinOp.run .add (.big x) (.big y) = some (.big (x + y)) := rfl
@[ts_run] theorem op_sub_big : BinOp.run .sub (.big x) (.big y) = some (.big (x - y)) := rfl
@[ts_run] theorem op_lt_big : BinOp.run .lt (.big x) (.big y) = some (.bool (decide (x < y))) := rfl
@[ts_run] theorem op_gt_big : BinOp.run .gt (.big x) (.big y) = some (.bool (decide (x > y))) := rfl
@[ts_run] theorem op_shl_big : BinOp.run .shl (.big a) (.big b) = some (.big (a <<< b : Nat)) := by
  simp [BinOp.run, Nat.shiftLeft_eq]
@[ts_run] theorem op_shr_big : BinOp.run .shr (.big a) (.big b) = some (.big (a >>> b : Nat)) := by
  simp [BinOp.run, Nat.shiftRight_eq_div_pow]
@[ts_run] theorem op_rem_big : BinOp.run .rem (.big a) (.big b) = if 0 < b then some (.big (a % b : Nat)) else none := by
  simp [BinOp.run]
@[ts_run] theorem op_band_big : BinOp.run .band (.big a) (.big b) = some (.big (a &&& b : Nat)) := by
  simp [BinOp.run]
@[ts_run] theorem op_bor_big : BinOp.run .bor (.big a) (.big b) = some (.big (a ||| b : Nat)) := by
  simp [BinOp.run]
@[ts_run] theorem op_shr_num : BinOp.run .shr (.num a) (.num b) =
    if a < 2147483648 ∧ b < 32 then some (.num (a >>> b : Nat)) else none := by
  simp only [BinOp.run, small_cast, decide_eq_true_eq, Int.toNat_natCast]
  by_cases h : a < 2147483648 ∧ b < 32
  · rw [if_pos h, if_pos (by omega)]
  · rw [if_neg h, if_neg (by omega)]
@[ts_run] theorem op_band_num : BinOp.run .band (.num a) (.num b) =
    if a < 2147483648 ∧ b < 2147483648 then some (.num (a &&& b : Nat)) else none := by
  simp only [BinOp.run, small_cast, decide_eq_true_eq, Int.toNat_natCast]
@[ts_run] theorem op_bor_num : BinOp.run .bor (.num a) (.num b) =
    if a < 2147483648 ∧ b < 2147483648 then some (.num (a ||| b : Nat))
    else if exact a ∧ exact b then some (.num (BitVec.ofInt 32 a ||| BitVec.ofInt 32 b).toInt) else none := by
  simp only [BinOp.run, small_cast, decide_eq_true_eq, Int.toNat_natCast]
@[ts_run] theorem op_same (u v : Val) : BinOp.run .same u v = (strictEq u v).map .bool := by cases u <;> cases v <;> rfl
@[ts_run] theorem op_differ (u v : Val) : BinOp.run .differ u v = (strictEq u v).map (fun x => .bool !x) := by cases u <;> cases v <;> rfl
@[ts_run] theorem strictEq_num : strictEq (.num x) (.num y) = some (decide (x = y)) := rfl
@[ts_run] theorem strictEq_big : strictEq (.big x) (.big y) = some (decide (x = y)) := rfl

@[ts_run] theorem call_number : Builtin.call .number [.big x] = .pure (.num x) := rfl
@[ts_run] theorem call_bigInt : Builtin.call .bigInt [.num x] = .pure (.big x) := rfl
end

/-! ### Declared variables -/

@[ts_run] theorem declared_letVars (xs : List TVar) : (Stm.letVars xs).declared = xs := rfl
@[ts_run] theorem declared_let (x : TVar) (t : Option Str) (e : Ex) : (Stm.let_ x t e).declared = [x] := rfl
@[ts_run] theorem declared_const (x : TVar) (e : Ex) : (Stm.const x e).declared = [x] := rfl
@[ts_run] theorem declared_constTuple (xs : List TVar) (e : Ex) : (Stm.constTuple xs e).declared = xs := rfl
@[ts_run] theorem declared_assignTuple (xs : List TVar) (e : Ex) : (Stm.assignTuple xs e).declared = [] := rfl
@[ts_run] theorem declared_assign (x : TVar) (e : Ex) : (Stm.assign x e).declared = [] := rfl
@[ts_run] theorem declared_update (x : TVar) (op : BinOp) (e : Ex) : (Stm.update x op e).declared = [] := rfl
@[ts_run] theorem declared_expr (e : Ex) : (Stm.expr e).declared = [] := rfl
@[ts_run] theorem declared_block (b : Stms) : (Stm.block b).declared = [] := rfl
@[ts_run] theorem declared_if (e : Ex) (a : Stms) (b : Else) : (Stm.if_ e a b).declared = [] := rfl
@[ts_run] theorem declared_ifAny (e : Args) (a : Stms) : (Stm.ifAny e a).declared = [] := rfl
@[ts_run] theorem declared_for (e : Ex) (a : Stms) : (Stm.for_ e a).declared = [] := rfl
@[ts_run] theorem declared_while (e : Ex) (a : Stms) : (Stm.while_ e a).declared = [] := rfl
@[ts_run] theorem declared_try (a b : Stms) : (Stm.try_ a b).declared = [] := rfl
@[ts_run] theorem declared_switch (e : Ex) (a : Cases) : (Stm.switch e a).declared = [] := rfl
@[ts_run] theorem declared_return (e : Ex) : (Stm.return_ e).declared = [] := rfl
@[ts_run] theorem declared_throw (e : Ex) : (Stm.throw_ e).declared = [] := rfl
@[ts_run] theorem declared_throwMissing : Stm.throwMissing.declared = [] := rfl
@[ts_run] theorem declared_break : Stm.break_.declared = [] := rfl
@[ts_run] theorem declared_blank : Stm.blank.declared = [] := rfl

attribute [ts_run] Stms.declared Cases.declared lookup assignable uninit setCell Cell.val Cell.isLet Cell.isUninit Lit.val
  List.map_cons List.map_nil List.nil_append List.cons_append List.append_nil List.drop_succ_cons List.drop_zero List.length_cons List.length_nil
  List.zip_cons_cons List.zip_nil_right List.nodup_cons List.nodup_nil List.mem_cons List.not_mem_nil not_false_eq_true and_true true_and
  or_false false_or or_self Option.map_some if_true if_false ctx_call ctx_fuel ctx_path and_self List.map_append List.length_map
  Int.toNat_natCast decide_true decide_false Bool.false_eq_true Bool.not_true Bool.not_false
  Stms.ofList Args.ofList stms args v num setAtlas varintSize setOffset advance add Stm.increase Stms.declared_append
  Val.neg big toNumber toBigInt shl shr ifLess offsetPlus setUint8 setUint16 setUint32 firstByteOf part subtract returnOffset tagOf
  writeVarint pairLines varintCase

/-- Compute with the interpreter. -/
macro "tsrun" : tactic => `(tactic| simp -implicitDefEqProofs only [ts_run, ↓reduceIte, reduceCtorEq, Int.reduceLE, Int.reduceLT, Int.reduceToNat, Nat.reducePow, Int.reducePow, Int.reduceNeg, Nat.reduceAdd, Int.reduceAdd, Nat.reduceLT, Nat.reduceLeDiff, Int.reduceEq, Nat.reduceMul, Nat.reduceEqDiff, Int.reduceMul, Int.reduceSub])
macro "tsrun" "[" ls:Lean.Parser.Tactic.simpLemma,* "]" : tactic => `(tactic| simp -implicitDefEqProofs only [ts_run, ↓reduceIte, reduceCtorEq, Int.reduceLE, Int.reduceLT, Int.reduceToNat, Nat.reducePow, Int.reducePow, Int.reduceNeg, Nat.reduceAdd, Int.reduceAdd, Nat.reduceLT, Nat.reduceLeDiff, Int.reduceEq, Nat.reduceMul, Nat.reduceEqDiff, Int.reduceMul, Int.reduceSub, $ls,*])

end Typical.TsGen

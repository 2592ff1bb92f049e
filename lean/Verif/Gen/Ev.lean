import Verif.Gen.Named
import Verif.RustEnc

/-!
# Helper: reasoning about executions with enough fuel
-/

namespace Typical.Gen

/-- From some number on. -/
def Ev (p : Nat → Prop) : Prop := ∃ N, ∀ n, N ≤ n → p n

theorem Ev.of {p : Nat → Prop} (h : ∀ n, p n) : Ev p := ⟨0, fun n _ => h n⟩

theorem Ev.and {p q : Nat → Prop} (h : Ev p) (h' : Ev q) : Ev (fun n => p n ∧ q n) := by
  obtain ⟨N, h⟩ := h
  obtain ⟨N', h'⟩ := h'
  exact ⟨max N N', fun n hn => ⟨h n (by omega), h' n (by omega)⟩⟩

theorem Ev.mono {p q : Nat → Prop} (h : Ev p) (h' : ∀ n, p n → q n) : Ev q := by
  obtain ⟨N, h⟩ := h
  exact ⟨N, fun n hn => h' n (h n hn)⟩

theorem Ev.list {α : Type} {p : α → Nat → Prop} (l : List α) (h : ∀ a ∈ l, Ev (p a)) : Ev (fun n => ∀ a ∈ l, p a n) := by
  induction l with
  | nil => exact .of (fun n a ha => by cases ha)
  | cons a l ih =>
    refine ((h a List.mem_cons_self).and (ih (fun b hb => h b (List.mem_cons_of_mem _ hb)))).mono ?_
    intro n ⟨h1, h2⟩ b hb
    cases hb with
    | head => exact h1
    | tail _ hb => exact h2 b hb

/-- The contexts in the functions of a type, for all amounts of fuel. -/
structure Fam where
  lim : Nat
  P : Prog
  t : TypeId
  el : Nat → Val → M

def Fam.ctx (F : Fam) (n : Nat) : Ctx := ⟨F.lim, F.t.1, F.t, callFn F.lim F.P n, n, F.el n⟩

@[simp] theorem Fam.ctx_mod (F : Fam) (n : Nat) : (F.ctx n).mod = F.t.1 := rfl
@[simp] theorem Fam.ctx_lim (F : Fam) (n : Nat) : (F.ctx n).lim = F.lim := rfl
@[simp] theorem Fam.ctx_self (F : Fam) (n : Nat) : (F.ctx n).self = F.t := rfl
@[simp] theorem Fam.ctx_call (F : Fam) (n : Nat) : (F.ctx n).call = callFn F.lim F.P n := rfl
@[simp] theorem Fam.ctx_fuel (F : Fam) (n : Nat) : (F.ctx n).fuel = n := rfl
@[simp] theorem Fam.ctx_elem (F : Fam) (n : Nat) : (F.ctx n).elem = F.el n := rfl

/-- Evaluation with enough fuel. -/
def Evals (F : Fam) (e : Ex) (s : St) (r : Out × St) : Prop := Ev (fun n => e.eval (F.ctx n) s = some r)

/-- A call with enough fuel. -/
def Calls (lim : Nat) (P : Prog) (t : TypeId) (f : Fn) (vs : List Val) (s : St) (r : Out × St) : Prop :=
  Ev (fun n => callFn lim P n t f vs s = some r)

/-- The contexts in which the bodies of functions are executed. -/
def top (lim : Nat) (P : Prog) (t : TypeId) : Fam := ⟨lim, P, t, fun _ _ _ => none⟩

/-- How a function ends, given how its body ends. -/
inductive Ends : Out → Out → Prop
  | val (v) : Ends (.val v) (.val v)
  | ret (v) : Ends (.ret v) (.val v)
  | fail (e) : Ends (.fail e) (.fail e)

theorem Calls.intro {lim : Nat} {P : Prog} {t : TypeId} {f : Fn} {vs : List Val} {e : Ex} {env env' : List (Var × Val)}
    {out out' : Bytes} {rds rds' : List Bytes} {o o' : Out} (hP : P t f = some e)
    (h : Evals (top lim P t) e ⟨f.params.zip vs, out, rds⟩ (o, ⟨env', out', rds'⟩)) (ho : Ends o o') :
    Calls lim P t f vs ⟨env, out, rds⟩ (o', ⟨env, out', rds'⟩) := by
  obtain ⟨N, h⟩ := h
  refine ⟨N + 1, fun n hn => ?_⟩
  obtain ⟨n, rfl⟩ : ∃ k, n = k + 1 := ⟨n - 1, by omega⟩
  have := h n (by omega)
  simp only [callFn, hP, M.frame]
  have h' : evalIn lim (callFn lim P n) n t e ⟨f.params.zip vs, out, rds⟩ = some (o, ⟨env', out', rds'⟩) := this
  rw [h']
  cases ho <;> rfl

theorem Runs.iff {lim : Nat} {P : Prog} {t : TypeId} {e : Ex} {s : St} {r : Out × St} :
    Runs lim P t e s r ↔ Evals (top lim P t) e s r := Iff.rfl

/-! ### Loops -/

theorem Ev.mapEach {α : Type} {f : Nat → Val → M} {s : St} (enc g : α → Val) :
    ∀ l : List α, (∀ a ∈ l, Ev (fun n => f n (enc a) s = some (.val (g a), s))) →
      Ev (fun n => mapEach (f n) (l.map enc) s = some (.val (.vec (l.map g)), s))
  | [], _ => .of fun _ => rfl
  | a :: l, h => by
    refine ((h a List.mem_cons_self).and (Ev.mapEach enc g l (fun b hb => h b (List.mem_cons_of_mem _ hb)))).mono ?_
    intro n ⟨h1, h2⟩
    simp only [List.map_cons, Gen.mapEach, M.bind, h1, h2, M.pure]

theorem Ev.foldEach {α β : Type} {f : Nat → Val → Val → M} {s : St} (enc : α → Val) (num : β → Val) (g : β → α → β) :
    ∀ (l : List α) (x : β), (∀ a ∈ l, ∀ x, Ev (fun n => f n (num x) (enc a) s = some (.val (num (g x a)), s))) →
      Ev (fun n => foldEach (f n) (num x) (l.map enc) s = some (.val (num (l.foldl g x)), s))
  | [], _, _ => .of fun _ => rfl
  | a :: l, x, h => by
    refine ((h a List.mem_cons_self x).and (Ev.foldEach enc num g l (g x a) (fun b hb => h b (List.mem_cons_of_mem _ hb)))).mono ?_
    intro n ⟨h1, h2⟩
    simp only [List.map_cons, Gen.foldEach, M.bind, h1, h2, List.foldl_cons]

theorem foldl_add {α : Type} (h : α → Nat) : (l : List α) → (x : Nat) → l.foldl (fun x a => x + h a) x = x + l.foldl (fun x a => x + h a) 0
  | [], _ => rfl
  | a :: l, x => by
    rw [List.foldl_cons, List.foldl_cons, foldl_add h l (x + h a), foldl_add h l (0 + h a)]
    omega

/-- Sums which do not overflow. -/
theorem Ev.sumEach {α : Type} {f : Nat → Val → Val → M} {s : St} (enc : α → Val) (h : α → Nat) :
    ∀ (l : List α) (x : Nat), l.foldl (fun x a => x + h a) x < 2 ^ 64 →
      (∀ a ∈ l, ∀ x, x + h a < 2 ^ 64 → Ev (fun n => f n (.usize x) (enc a) s = some (.val (.usize (x + h a)), s))) →
      Ev (fun n => Gen.foldEach (f n) (.usize x) (l.map enc) s = some (.val (.usize (l.foldl (fun x a => x + h a) x)), s))
  | [], _, _, _ => .of fun _ => rfl
  | a :: l, x, hb, hf => by
    rw [List.foldl_cons] at hb
    have ha : x + h a < 2 ^ 64 := by rw [foldl_add] at hb; omega
    refine ((hf a List.mem_cons_self x ha).and (Ev.sumEach enc h l (x + h a) hb (fun b hm => hf b (List.mem_cons_of_mem _ hm)))).mono ?_
    intro n ⟨h1, h2⟩
    simp only [List.map_cons, Gen.foldEach, M.bind, h1, h2, List.foldl_cons]

theorem Ev.forEach {α : Type} {f : Nat → Val → M} (enc : α → Val) (g : α → Bytes) (env : List (Var × Val)) (rds : List Bytes) :
    ∀ (l : List α) (out : Bytes),
      (∀ a ∈ l, ∀ out, ∃ v, Ev (fun n => f n (enc a) ⟨env, out, rds⟩ = some (.val v, ⟨env, out ++ g a, rds⟩))) →
      Ev (fun n => forEach (f n) (l.map enc) ⟨env, out, rds⟩ = some (.val .unit, ⟨env, out ++ l.flatMap g, rds⟩))
  | [], out, _ => .of fun _ => by simp [Gen.forEach, M.pure]
  | a :: l, out, h => by
    obtain ⟨v, hv⟩ := h a List.mem_cons_self out
    refine (hv.and (Ev.forEach enc g env rds l (out ++ g a) (fun b hb => h b (List.mem_cons_of_mem _ hb)))).mono ?_
    intro n ⟨h1, h2⟩
    simp only [List.map_cons, Gen.forEach, h1, h2, List.flatMap_cons, List.append_assoc]

/-- The rounds of a loop. -/
def Loops (F : Fam) (b : Ex) (s : St) (r : Out × St) : Prop :=
  ∃ N, ∀ n k, N ≤ n → N ≤ k → iterate (b.eval (F.ctx n)) k s = some r

theorem Loops.loop {F : Fam} {b : Ex} {s : St} {r : Out × St} (h : Loops F b s r) : Evals F (.loop b) s r := by
  obtain ⟨N, h⟩ := h
  exact ⟨N, fun n hn => by simp only [Ex.eval, Fam.ctx_fuel]; exact h n n hn hn⟩

theorem Loops.step {F : Fam} {b : Ex} {s s' : St} {v : Val} {r : Out × St} (h : Evals F b s (.val v, s')) (h' : Loops F b s' r) :
    Loops F b s r := by
  obtain ⟨N, h⟩ := h
  obtain ⟨N', h'⟩ := h'
  refine ⟨max N N' + 1, fun n k hn hk => ?_⟩
  obtain ⟨k, rfl⟩ : ∃ j, k = j + 1 := ⟨k - 1, by omega⟩
  simp only [iterate, h n (by omega)]
  exact h' n k (by omega) (by omega)

theorem Loops.brk {F : Fam} {b : Ex} {s s' : St} (h : Evals F b s (.brk, s')) : Loops F b s (.val .unit, s') := by
  obtain ⟨N, h⟩ := h
  refine ⟨N + 1, fun n k hn hk => ?_⟩
  obtain ⟨k, rfl⟩ : ∃ j, k = j + 1 := ⟨k - 1, by omega⟩
  simp only [iterate, h n (by omega)]

theorem Loops.ret {F : Fam} {b : Ex} {s s' : St} {v : Val} (h : Evals F b s (.ret v, s')) : Loops F b s (.ret v, s') := by
  obtain ⟨N, h⟩ := h
  refine ⟨N + 1, fun n k hn hk => ?_⟩
  obtain ⟨k, rfl⟩ : ∃ j, k = j + 1 := ⟨k - 1, by omega⟩
  simp only [iterate, h n (by omega)]

theorem Loops.fail {F : Fam} {b : Ex} {s s' : St} {e : Err} (h : Evals F b s (.fail e, s')) : Loops F b s (.fail e, s') := by
  obtain ⟨N, h⟩ := h
  refine ⟨N + 1, fun n k hn hk => ?_⟩
  obtain ⟨k, rfl⟩ : ∃ j, k = j + 1 := ⟨k - 1, by omega⟩
  simp only [iterate, h n (by omega)]

end Typical.Gen

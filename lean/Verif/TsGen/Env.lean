import Verif.TsGen.Program
import Verif.Gen.Ev

/-!
# Helper: variables, contexts, and tactics for executing generated TypeScript code
-/

namespace Typical.TsGen

/-! ### Variables -/

theorem lookup_setCell_ne {x y : TVar} (h : y ≠ x) (c : Cell) : (env : Env) → lookup y (setCell x c env) = lookup y env
  | [] => rfl
  | (z, d) :: l => by
    rw [setCell]
    by_cases hz : x = z
    · rw [if_pos hz, lookup, lookup, if_neg (fun e => h (e.trans hz.symm)), if_neg (fun e => h (e.trans hz.symm))]
    · rw [if_neg hz, lookup, lookup, lookup_setCell_ne h c l]

theorem assignable_setCell_ne {x y : TVar} (h : y ≠ x) (c : Cell) : (env : Env) → assignable y (setCell x c env) = assignable y env
  | [] => rfl
  | (z, d) :: l => by
    rw [setCell]
    by_cases hz : x = z
    · rw [if_pos hz, assignable, assignable, if_neg (fun e => h (e.trans hz.symm)), if_neg (fun e => h (e.trans hz.symm))]
    · rw [if_neg hz, assignable, assignable, assignable_setCell_ne h c l]

theorem uninit_setCell_ne {x y : TVar} (h : y ≠ x) (c : Cell) : (env : Env) → uninit y (setCell x c env) = uninit y env
  | [] => rfl
  | (z, d) :: l => by
    rw [setCell]
    by_cases hz : x = z
    · rw [if_pos hz, uninit, uninit, if_neg (fun e => h (e.trans hz.symm)), if_neg (fun e => h (e.trans hz.symm))]
    · rw [if_neg hz, uninit, uninit, uninit_setCell_ne h c l]

theorem lookup_update {x : TVar} (v : Val) : (env : Env) → assignable x env = true → lookup x (update x v env) = some v
  | [], h => by cases h
  | (z, d) :: l, h => by
    rw [assignable] at h
    unfold update
    rw [setCell]
    by_cases hz : x = z
    · rw [if_pos hz, lookup, if_pos hz]; rfl
    · rw [if_neg hz] at h
      rw [if_neg hz, lookup, if_neg hz, lookup_update v l h]

theorem assignable_update {x : TVar} (v : Val) : (env : Env) → assignable x env = true → assignable x (update x v env) = true
  | [], h => by cases h
  | (z, d) :: l, h => by
    rw [assignable] at h
    unfold update
    rw [setCell]
    by_cases hz : x = z
    · rw [if_pos hz, assignable, if_pos hz]; rfl
    · rw [if_neg hz] at h
      rw [if_neg hz, assignable, if_neg hz, assignable_update v l h]

/-- Assignments change no other property of variables. -/
theorem assignable_update' {x : TVar} (y : TVar) (v : Val) {env : Env} (h : assignable x env = true) :
    assignable y (update x v env) = assignable y env := by
  by_cases hy : y = x
  · subst hy; rw [assignable_update v env h, h]
  · exact assignable_setCell_ne hy _ _

theorem setCell_setCell (x : TVar) (c d : Cell) : (env : Env) → setCell x c (setCell x d env) = setCell x c env
  | [] => rfl
  | (z, e) :: l => by
    rw [setCell, setCell]
    by_cases hz : x = z
    · rw [if_pos hz, if_pos hz, setCell, if_pos hz]
    · rw [if_neg hz, if_neg hz, setCell, if_neg hz, setCell_setCell x c d l]

theorem setCell_comm {x y : TVar} (h : x ≠ y) (c d : Cell) : (env : Env) → setCell x c (setCell y d env) = setCell y d (setCell x c env)
  | [] => rfl
  | (z, e) :: l => by
    by_cases hx : x = z
    · have hy : y ≠ z := fun g => h (hx.trans g.symm)
      simp [setCell, hx, hy]
    · by_cases hy : y = z
      · simp [setCell, hx, hy]
      · simp [setCell, hx, hy, setCell_comm h c d l]

theorem update_self {x : TVar} {v : Val} : (env : Env) → assignable x env = true → lookup x env = some v → update x v env = env
  | [], h, _ => by cases h
  | (z, d) :: l, h, h' => by
    rw [assignable] at h
    rw [lookup] at h'
    unfold update
    rw [setCell]
    by_cases hz : x = z
    · rw [if_pos hz] at h h' ⊢
      cases d <;> simp_all [Cell.isLet, Cell.val]
    · rw [if_neg hz] at h h' ⊢
      have := update_self l h h'
      unfold update at this
      rw [this]

@[simp] theorem setCell_length (x : TVar) (c : Cell) : (env : Env) → (setCell x c env).length = env.length
  | [] => rfl
  | (z, e) :: l => by
    rw [setCell]
    split
    · rfl
    · simp [setCell_length x c l]

/-! ### Contexts -/

/-- The context in the namespace with this path, for an amount of fuel. -/
def ctx (P : Prog) (path : List Str) (n : Nat) : Ctx := ⟨path, P.exports, callFn P n, n⟩

@[simp] theorem ctx_path (P : Prog) (path : List Str) (n : Nat) : (ctx P path n).path = path := rfl
@[simp] theorem ctx_exports (P : Prog) (path : List Str) (n : Nat) : (ctx P path n).exports = P.exports := rfl
@[simp] theorem ctx_call (P : Prog) (path : List Str) (n : Nat) : (ctx P path n).call = callFn P n := rfl
@[simp] theorem ctx_fuel (P : Prog) (path : List Str) (n : Nat) : (ctx P path n).fuel = n := rfl

/-- The names which the generated code uses for functions and constants at the top of the file, and for global objects. -/
def usedNames : List Str :=
  ["unreachable", "zigzagEncode", "zigzagDecode", "varintSizeFromValue", "varintSizeFromFirstByte", "serializeVarint", "deserializeVarint",
    "fieldHeaderSize", "serializeFieldHeader", "deserializeFieldHeader", "dataView64", "textEncoder", "textDecoder", "missingFieldsErrorMessage",
    "DataView", "Uint8Array", "ArrayBuffer", "Number", "BigInt", "Object", "Array", "RangeError", "Error"].map String.toList

/-- In the namespace with this path, they are not hidden. -/
def Prog.Clear (P : Prog) (path : List Str) : Prop := ∀ name ∈ usedNames, ∀ n ≤ path.length, P.exports (path.take n) name = false

theorem Prog.Clear.top {P : Prog} {path : List Str} (h : P.Clear path) : P.Clear [] := by
  intro name hn n _
  have := h name hn 0 (Nat.zero_le _)
  rw [List.take_zero] at this
  rw [List.take_nil]
  exact this

theorem Prog.Clear.free {P : Prog} {path : List Str} (h : P.Clear path) {name : Str} (hn : name ∈ usedNames) (n : Nat) :
    (ctx P path n).free name = true := by
  unfold Ctx.free
  rw [List.all_eq_true]
  intro k hk
  rw [List.mem_range] at hk
  simp only [ctx_path, ctx_exports] at hk ⊢
  rw [h name hn k (by omega)]
  rfl

theorem Prog.Clear.runtime {P : Prog} {path : List Str} (h : P.Clear path) (n : Nat) (f : RuntimeFn) : (ctx P path n).free f.text = true :=
  h.free (by cases f <;> decide +kernel) n

theorem Prog.Clear.glob {P : Prog} {path : List Str} (h : P.Clear path) (n : Nat) (f : Glob) : (ctx P path n).free f.text = true :=
  h.free (by cases f <;> decide +kernel) n

theorem Prog.Clear.root {P : Prog} {path : List Str} (h : P.Clear path) (n : Nat) (f : Builtin) : (ctx P path n).free f.root = true :=
  h.free (by cases f <;> decide +kernel) n

/-- The variables which are not for fields. -/
def plainVars : List TVar :=
  [.size, .payloadAtlas, .payload, .payloadSize, .message, .fallbackAtlas, .dataView, .offset, .atlas, .dataViewAlias, .index, .e, .oldOffset,
    .newOffset, .elements, .oldPayload, .oldPayloadAtlas, .i, .arraySize, .zigzag, .varint, .sourceBuffer, .targetBuffer, .payloadAlias,
    .payloadSizeBig, .newPayload, .bytes, .messageAtlas, .arrayBuffer, .x, .value, .twice, .half, .firstByte, .trailingZeros, .sizeMinusOne,
    .offsetPlusOne, .remainingBytesValue, .integerEncoded, .tag, .newNewOffset, .sizeValue]

theorem plainVars_all (x : TVar) (h : ∀ n, x ≠ .field n) : x ∈ plainVars := by
  cases x <;> first | exact absurd rfl (h _) | simp [plainVars]

theorem plainVars_used : ∀ s ∈ plainVars.map TVar.text, s ∉ usedNames := by decide +kernel

/-- Variables do not hide functions at the top of the file, constants, or global objects. -/
theorem usedNames_free (x : TVar) : x.text ∉ usedNames := by
  by_cases h : ∃ n, x = .field n
  · obtain ⟨n, rfl⟩ := h
    have : ∀ s ∈ usedNames, s.head? ≠ some '$' := by decide +kernel
    intro h
    exact this _ h rfl
  · exact plainVars_used _ (List.mem_map_of_mem (plainVars_all x fun n e => h ⟨n, e⟩))

theorem plainVars_hide : ∀ x ∈ plainVars, ∀ f ∈ [Fn.size, .serialize, .deserialize, .atlas, .serializeWithAtlasUnsafe, .deserializeUnsafe],
    (x.text == f.text) = (x == .size && f == .size || x == .atlas && f == .atlas) := by decide +kernel

/-- Of the functions of a declaration, variables only hide `size` and `atlas`. -/
theorem hides_eq (x : TVar) (f : Fn) : (x.text == f.text) = (x == .size && f == .size || x == .atlas && f == .atlas) := by
  by_cases h : ∃ n, x = .field n
  · obtain ⟨n, rfl⟩ := h
    cases f <;> rfl
  · exact plainVars_hide x (plainVars_all x fun n e => h ⟨n, e⟩) f (by cases f <;> simp)

/-! ### Calls -/

theorem callFn_runtime (P : Prog) (n : Nat) (f : RuntimeFn) (args : List Val) :
    callFn P (n + 1) (.runtime f) args = M.frame f.params args f.body.declared (f.body.exec (ctx P [] n)) := rfl

theorem callFn_decl {P : Prog} {path : List Str} {code : Fn → Stms} (h : P.code path = some code) (n : Nat) (f : Fn) (args : List Val) :
    callFn P (n + 1) (.decl path f) args = M.frame f.params args (code f).declared ((code f).exec (ctx P path n)) := by
  simp only [callFn, h]
  rfl

theorem Stms.exec_append (c : Ctx) : (a b : Stms) → (s : St) → (a ++ b).exec c s = ((a.exec c).bind fun _ => b.exec c) s
  | .nil, b, s => by
    show b.exec c s = _
    rw [Stms.exec]
    rfl
  | .cons x a, b, s => by
    show (Stms.cons x (a.append b)).exec c s = _
    rw [Stms.exec, Stms.exec, M.bind, M.bind, M.bind]
    cases x.exec c s with
    | none => rfl
    | some r =>
      obtain ⟨o, s⟩ := r
      cases o with
      | val v => exact Stms.exec_append c a b s
      | _ => rfl

theorem Stms.declared_append : (a b : Stms) → (a ++ b).declared = a.declared ++ b.declared
  | .nil, b => rfl
  | .cons x a, b => by
    show (Stms.cons x (a.append b)).declared = _
    rw [Stms.declared, Stms.declared, show (a.append b) = a ++ b from rfl, Stms.declared_append a b, List.append_assoc]

theorem M.bind_val {m : M} {k : Val → M} {s s' : St} {v : Val} (h : m s = some (.val v, s')) : m.bind k s = k v s' := by
  rw [M.bind, h]

theorem M.bind_throw {m : M} {k : Val → M} {s s' : St} {e : Ts.Err} (h : m s = some (.throw e, s')) : m.bind k s = some (.throw e, s') := by
  rw [M.bind, h]

end Typical.TsGen

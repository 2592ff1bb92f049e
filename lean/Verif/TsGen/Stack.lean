import Verif.TsGen.Sim

/-!
# Meaning of generated TypeScript code on a stack which is limited

As `callFn`, with a stack: each call of a function takes some of it, and a call for which there is not enough left throws a `RangeError`. This is what
V8 and SpiderMonkey do ("Maximum call stack size exceeded" is a `RangeError` in V8; in SpiderMonkey it is an `InternalError`, to which the theorems about
this file do not apply). Calls of built-in functions are taken to need no stack; `catch` blocks call no functions.
-/

namespace Typical.TsGen

/-- The code of a function: parameters, the path of its namespace, body. -/
def Prog.body (P : Prog) : Callee → Option (List TVar × List Str × Stms)
  | .runtime f => some (f.params, [], f.body)
  | .decl path f => (P.code path).map (fun c => (f.params, path, c f))

/-- Execute a function: `call` is how it calls other functions, `n` bounds the rounds of loops. -/
def Prog.enter (P : Prog) (call : Callee → List Val → M) (n : Nat) (f : Callee) (args : List Val) : M :=
  match P.body f with
  | none => .stuck
  | some (params, path, body) => M.frame params args body.declared (body.exec ⟨path, P.exports, call, n⟩)

/-- Call a function with this much of the stack left; `cost f` is how much a call of `f` takes. -/
def callLimited (P : Prog) (cost : Callee → Nat) : Nat → Nat → Callee → List Val → M
  | 0, _, _, _ => .stuck
  | n + 1, room, f, args => if room < cost f then .throw .range else P.enter (callLimited P cost n (room - cost f)) n f args

/-- `callFn` has the same form, without the stack. -/
theorem callFn_body (P : Prog) (n : Nat) (f : Callee) (args : List Val) : callFn P (n + 1) f args = P.enter (callFn P n) n f args := by
  cases f with
  | runtime f => rfl
  | decl path f =>
    conv => lhs; unfold callFn
    unfold Prog.enter Prog.body
    dsimp only
    cases P.code path <;> rfl

/-- The functions which a function calls. -/
def Prog.callees (P : Prog) (f : Callee) : List Callee :=
  match P.body f with
  | none => []
  | some (_, path, body) => body.callees ⟨path, P.exports⟩

/-- Does its body contain `try`? -/
def Prog.tries (P : Prog) (f : Callee) : Bool :=
  match P.body f with
  | none => false
  | some (_, _, body) => body.tries

theorem enter_sim {over : Bool} {P : Prog} {call call' : Callee → List Val → M} {n n' : Nat} (hn : n ≤ n') {f : Callee}
    (hc : ∀ g ∈ P.callees f, ∀ vs, Sim over (call g vs) (call' g vs)) (ht : over = true → P.tries f = false) (vs : List Val) :
    Sim over (P.enter call n f vs) (P.enter call' n' f vs) := by
  unfold Prog.callees at hc
  unfold Prog.tries at ht
  unfold Prog.enter
  cases hb : P.body f with
  | none => exact .refl _
  | some b =>
    rw [hb] at hc ht
    exact (Stms.sim (c := ⟨b.2.1, P.exports, call, n⟩) (c' := ⟨b.2.1, P.exports, call', n'⟩) b.2.2 ⟨rfl, rfl, hn, hc⟩ ht).frame _ _ _

/-- More fuel does not change the outcome. -/
theorem callFn_mono (P : Prog) : (n n' : Nat) → n ≤ n' → ∀ f vs, Sim false (callFn P n f vs) (callFn P n' f vs)
  | 0, _, _ => fun f vs => .stuck _
  | n + 1, n' + 1, h => fun f vs => by
    rw [callFn_body, callFn_body]
    exact enter_sim (by omega) (fun g _ ws => callFn_mono P n n' (by omega) g ws) (by simp) vs

theorem callLimited_mono (P : Prog) (cost : Callee → Nat) : (n n' room : Nat) → n ≤ n' → ∀ f vs,
    Sim false (callLimited P cost n room f vs) (callLimited P cost n' room f vs)
  | 0, _, _, _ => fun f vs => .stuck _
  | n + 1, n' + 1, room, h => fun f vs => by
    rw [callLimited, callLimited]
    split
    · exact .refl _
    · exact enter_sim (by omega) (fun g _ ws => callLimited_mono P cost n n' _ (by omega) g ws) (by simp) vs

/-- A set of functions which call only functions in the set, and do not catch exceptions. -/
structure Prog.Throwing (P : Prog) (K : Callee → Prop) : Prop where
  calls : ∀ f, K f → ∀ g ∈ P.callees f, K g
  tries : ∀ f, K f → P.tries f = false

/-- Such functions end as without a limit, or throw a `RangeError`. -/
theorem callLimited_throwing {P : Prog} {K : Callee → Prop} (hK : P.Throwing K) (cost : Callee → Nat) : (n room : Nat) → ∀ f vs, K f →
    Sim true (callFn P n f vs) (callLimited P cost n room f vs)
  | 0, _ => fun f vs _ => .refl _
  | n + 1, room => fun f vs hf => by
    rw [callFn_body, callLimited]
    split
    · exact fun s => .over _ s rfl
    · exact enter_sim (Nat.le_refl n) (fun g hg ws => callLimited_throwing hK cost n _ g ws (hK.calls f hf g hg)) (fun _ => hK.tries f hf) vs

/-- Nested calls of a function need at most this much of the stack, whatever it is applied to. -/
inductive Needs (P : Prog) (cost : Callee → Nat) : Callee → Nat → Prop
  | intro {f r q} : cost f + q ≤ r → (∀ g ∈ P.callees f, Needs P cost g q) → Needs P cost f r

theorem Needs.mono {P : Prog} {cost : Callee → Nat} {f : Callee} {r r' : Nat} (h : Needs P cost f r) (hr : r ≤ r') : Needs P cost f r' := by
  cases h with
  | intro h1 h2 => exact .intro (Nat.le_trans h1 hr) h2

/-- With enough of the stack left, functions end as without a limit. -/
theorem callLimited_needs {P : Prog} {cost : Callee → Nat} : (n room : Nat) → ∀ f vs, Needs P cost f room →
    Sim false (callFn P n f vs) (callLimited P cost n room f vs)
  | 0, _ => fun f vs _ => .refl _
  | n + 1, room => fun f vs hf => by
    cases hf with
    | @intro _ _ q h1 h2 =>
      rw [callFn_body, callLimited, if_neg (by omega)]
      exact enter_sim (Nat.le_refl n) (fun g hg ws => callLimited_needs n _ g ws ((h2 g hg).mono (by omega))) (by simp) vs

/-- With enough of the stack for the number of nested calls which the fuel allows, functions end as without a limit. -/
theorem callLimited_enough {P : Prog} {cost : Callee → Nat} {C : Nat} (hC : ∀ f, cost f ≤ C) : (n room : Nat) → n * C ≤ room → ∀ f vs,
    Sim false (callFn P n f vs) (callLimited P cost n room f vs)
  | 0, _, _ => fun f vs => .refl _
  | n + 1, room, h => fun f vs => by
    have h1 := hC f
    have h2 : (n + 1) * C = n * C + C := Nat.succ_mul n C
    rw [callFn_body, callLimited, if_neg (by omega)]
    exact enter_sim (Nat.le_refl n) (fun g hg ws => callLimited_enough hC n _ (by omega) g ws) (by simp) vs

/-- Outcomes. -/
theorem Sim.some {m m' : M} (h : Sim false m m') {s : St} {r : Out × St} (hs : m s = some r) : m' s = some r := by
  have := h s
  rw [hs] at this
  generalize m' s = b at this
  cases this with
  | same => rfl
  | over _ _ h => cases h

theorem Sim.overflow {m m' : M} (h : Sim true m m') {s : St} {r : Out × St} (hs : m s = Option.some r) :
    m' s = Option.some r ∨ ∃ s', m' s = Option.some (.throw .range, s') := by
  have := h s
  rw [hs] at this
  generalize m' s = b at this
  cases this with
  | same => exact .inl rfl
  | over _ s' _ => exact .inr ⟨s', rfl⟩

/-! ### The functions for sizes and serialization do not catch exceptions -/

/-- A function for sizes and serialization. -/
def serFn : Callee → Bool
  | .runtime _ => true
  | .decl _ .size => true
  | .decl _ .serialize => true
  | .decl _ .atlas => true
  | .decl _ .serializeWithAtlasUnsafe => true
  | .decl _ .deserialize => false
  | .decl _ .deserializeUnsafe => false

/-- Code which calls only such functions, and does not catch exceptions. -/
def Stm.Ser (s : Stm) : Prop := ∀ c, s.tries = false ∧ ∀ g ∈ s.callees c, serFn g = true
def Stms.Ser (b : Stms) : Prop := ∀ c, b.tries = false ∧ ∀ g ∈ b.callees c, serFn g = true

theorem Stms.append_tries : (a b : Stms) → (a ++ b).tries = (a.tries || b.tries)
  | .nil, b => rfl
  | .cons s a, b => by
    show (Stms.cons s (a ++ b)).tries = _
    rw [Stms.tries, Stms.tries, Stms.append_tries a b, Bool.or_assoc]

theorem Stms.append_callees (c : Site) : (a b : Stms) → (a ++ b).callees c = a.callees c ++ b.callees c
  | .nil, b => rfl
  | .cons s a, b => by
    show (Stms.cons s (a ++ b)).callees c = _
    rw [Stms.callees, Stms.callees, Stms.append_callees c a b, List.append_assoc]

theorem Stms.Ser.append {a b : Stms} (ha : a.Ser) (hb : b.Ser) : (a ++ b).Ser := by
  intro c
  rw [Stms.append_tries, Stms.append_callees, (ha c).1, (hb c).1]
  refine ⟨rfl, fun g hg => ?_⟩
  rcases List.mem_append.mp hg with hg | hg
  · exact (ha c).2 g hg
  · exact (hb c).2 g hg

theorem Stms.Ser.cons {s : Stm} {b : Stms} (ha : s.Ser) (hb : b.Ser) : (Stms.cons s b).Ser := by
  intro c
  rw [Stms.tries, Stms.callees, (ha c).1, (hb c).1]
  refine ⟨rfl, fun g hg => ?_⟩
  rcases List.mem_append.mp hg with hg | hg
  · exact (ha c).2 g hg
  · exact (hb c).2 g hg

theorem Stms.Ser.ofList : {l : List Stm} → (∀ s ∈ l, s.Ser) → (Stms.ofList l).Ser
  | [], _ => fun _ => ⟨rfl, fun _ h => by cases h⟩
  | s :: l, h => Stms.Ser.cons (h s List.mem_cons_self) (Stms.Ser.ofList fun t ht => h t (List.mem_cons_of_mem _ ht))

theorem mem_resolved {c : Site} {p : List Str} {f : Fn} {g : Callee} (h : g ∈ (tsResolve c.exports c.path p).toList.map (fun q => Callee.decl q f)) :
    ∃ q, tsResolve c.exports c.path p = some q ∧ g = .decl q f := by
  obtain ⟨q, hq, rfl⟩ := List.mem_map.mp h
  exact ⟨q, Option.mem_toList.mp hq, rfl⟩

theorem resolved_ser {c : Site} {p : List Str} {f : Fn} (hf : ∀ q, serFn (.decl q f) = true) :
    ∀ g ∈ (tsResolve c.exports c.path p).toList.map (fun q => Callee.decl q f), serFn g = true := by
  intro g hg
  obtain ⟨q, -, rfl⟩ := mem_resolved hg
  exact hf q

/-- Unfold what code calls. -/
macro "callees" "[" l:Lean.Parser.Tactic.simpLemma,* "]" : tactic =>
  `(tactic| simp only [Stm.tries, Stms.tries, Else.tries, Cases.tries, Stm.callees, Stms.callees, Else.callees, Cases.callees, Ex.callees, Args.callees,
    Inits.callees, stms, args, Stms.ofList, Args.ofList, Stms.append_tries, Stms.append_callees, Bool.or_false, Bool.false_or, Bool.or_self,
    List.nil_append, List.append_nil, $l,*])

theorem atlasLookup_callees (c : Site) : (t : TypeVariant) → (atlasLookup t).callees c = []
  | .array _ t => by rw [atlasLookup]; split <;> rfl
  | .bool => rfl
  | .bytes => rfl
  | .string => rfl
  | .custom _ _ => rfl
  | .f64 => rfl
  | .s64 => rfl
  | .u64 => rfl
  | .unit => rfl

theorem atlasInteger_ser (x : TVar) : (atlasInteger x).Ser := by
  intro c
  unfold atlasInteger
  callees []
  simp [serFn]

theorem atlasU64_ser (isField : Bool) : (atlasU64 isField).Ser := by
  unfold atlasU64
  split
  · exact atlasInteger_ser _
  · intro c; callees []; simp [serFn]

theorem atlasCalculation_ser (T : CharTable) (s : Schema) (ns : Namespace) : (t : TypeVariant) → (isField : Bool) → (atlasCalculation T s ns isField t).Ser
  | .array _ t, isField => by
    have ih := atlasCalculation_ser T s ns t false
    rw [atlasCalculation]
    split
    · intro c
      callees [atlasLookup_callees, (ih c).1]
      simp only [List.append_assoc, List.mem_append, List.mem_cons, List.not_mem_nil, or_false, true_and]
      rintro g (hg | rfl)
      · exact (ih c).2 g hg
      · rfl
    · split
      · have h := atlasU64_ser isField
        intro c
        callees [(h c).1]
        exact ⟨trivial, (h c).2⟩
      · split
        · intro c; callees []; simp
        · intro c
          callees [(ih c).1]
          exact ⟨trivial, (ih c).2⟩
  | .bool, isField => by
    rw [atlasCalculation]
    split <;> (intro c; callees []; simp)
  | .bytes, _ => by intro c; rw [atlasCalculation]; callees []; simp
  | .string, _ => by intro c; rw [atlasCalculation]; callees []; simp
  | .custom _ _, _ => by
    intro c; rw [atlasCalculation]; callees []; exact ⟨trivial, resolved_ser fun _ => rfl⟩
  | .f64, isField => by
    rw [atlasCalculation]
    split <;> (intro c; callees []; simp)
  | .s64, isField => by
    rw [atlasCalculation]
    split
    · have h := atlasInteger_ser .zigzag
      intro c
      callees [(h c).1]
      simp only [List.cons_append, List.nil_append, List.mem_cons, true_and]
      rintro g (rfl | hg)
      · rfl
      · exact (h c).2 g hg
    · intro c; callees []; simp [serFn]
  | .u64, isField => by rw [atlasCalculation]; exact atlasU64_ser _
  | .unit, _ => by intro c; rw [atlasCalculation]; callees []; simp

theorem u64Serialization_ser (isField : Bool) : (u64Serialization isField).Ser := by
  unfold u64Serialization
  split <;> (intro c; callees []; simp [serFn])

theorem varintBlock_ser (isField : Bool) {e : Ex} (he : ∀ c, ∀ g ∈ e.callees c, serFn g = true) : (varintBlock isField e).Ser := by
  intro c
  have h := u64Serialization_ser isField c
  unfold varintBlock
  callees [h.1]
  refine ⟨trivial, fun g hg => ?_⟩
  rcases List.mem_append.mp hg with hg | hg
  · exact he c g hg
  · exact h.2 g hg

theorem serialization_ser (T : CharTable) (s : Schema) (ns : Namespace) : (t : TypeVariant) → (isField : Bool) → (serialization T s ns isField t).Ser
  | .array _ t, isField => by
    have ih := serialization_ser T s ns t false
    rw [serialization]
    split
    · intro c
      callees [atlasLookup_callees, (ih c).1]
      simp only [List.append_assoc, List.cons_append, List.nil_append, List.mem_cons, true_and]
      rintro g (rfl | hg)
      · rfl
      · exact (ih c).2 g hg
    · split
      · refine varintBlock_ser _ fun c => ?_
        callees []; simp
      · intro c
        callees [(ih c).1]
        exact ⟨trivial, (ih c).2⟩
  | .bool, isField => by
    rw [serialization]
    refine varintBlock_ser _ fun c => ?_
    callees []; simp
  | .bytes, _ => by intro c; rw [serialization, targetBuffer]; callees []; simp
  | .string, _ => by intro c; rw [serialization, targetBuffer]; callees []; simp
  | .custom _ _, _ => by
    intro c; rw [serialization]; callees []; exact ⟨trivial, resolved_ser fun _ => rfl⟩
  | .f64, isField => by
    rw [serialization]
    split <;> (intro c; unfold setFloat; callees []; simp)
  | .s64, isField => by
    rw [serialization]
    refine varintBlock_ser _ fun c => ?_
    callees []; simp [serFn]
  | .u64, isField => by
    rw [serialization]
    refine varintBlock_ser _ fun c => ?_
    callees []; simp
  | .unit, _ => by intro c; rw [serialization]; callees []; simp

theorem structFieldAtlas_ser (T : CharTable) (s : Schema) (ns : Namespace) (f : Field) : (structFieldAtlas T s ns f).Ser := by
  have h := atlasCalculation_ser T s ns f.type.variant true
  intro c
  unfold structFieldAtlas
  cases f.rule <;>
  · callees [atlasLookup_callees, (h c).1, messageField, headerSize]
    simp only [List.mem_append, List.mem_cons, List.not_mem_nil, or_false, true_and]
    rintro g (hg | rfl)
    · exact (h c).2 g hg
    · rfl

theorem localInits_callees (T : CharTable) (c : Site) : (fs : List Field) → (localInits T fs).callees c = []
  | [] => rfl
  | f :: fs => by rw [localInits, Inits.callees, localInits_callees T c fs]; rfl

theorem blank_ser : Stm.Ser .blank := fun _ => ⟨rfl, fun _ h => by cases h⟩

theorem nil_ser : Stms.Ser .nil := fun _ => ⟨rfl, fun _ h => by cases h⟩

theorem structAtlas_ser (T : CharTable) (s : Schema) (ns : Namespace) (fs : List Field) : (structAtlas T s ns fs).Ser := by
  unfold structAtlas declareLocals
  refine Stms.Ser.append (Stms.Ser.append (Stms.Ser.append (Stms.Ser.append ?_ ?_) ?_) ?_) ?_
  · intro c; callees []; simp
  · split
    · exact nil_ser
    · intro c; callees []; simp
  · split
    · exact nil_ser
    · intro c; callees []; simp
  · refine Stms.Ser.ofList fun x hx => ?_
    obtain ⟨f, -, hf⟩ := List.mem_flatMap.mp hx
    simp only [List.mem_cons, List.not_mem_nil, or_false] at hf
    rcases hf with rfl | rfl
    · exact blank_ser
    · exact structFieldAtlas_ser T s ns f
  · intro c; callees [localInits_callees]; simp

theorem structFieldSerialize_ser (T : CharTable) (s : Schema) (ns : Namespace) (f : Field) : (structFieldSerialize T s ns f).Ser := by
  have h := serialization_ser T s ns f.type.variant true
  intro c
  unfold structFieldSerialize
  cases f.rule <;>
  · callees [atlasLookup_callees, (h c).1, messageField, writeHeader]
    simp only [List.mem_append, List.mem_cons, List.not_mem_nil, or_false, true_and]
    rintro g (rfl | hg)
    · rfl
    · exact (h c).2 g hg

theorem structSerialize_ser (T : CharTable) (s : Schema) (ns : Namespace) (fs : List Field) : (structSerialize T s ns fs).Ser := by
  unfold structSerialize
  refine Stms.Ser.append ?_ ?_
  · refine Stms.Ser.ofList fun x hx => ?_
    obtain ⟨f, -, hf⟩ := List.mem_flatMap.mp hx
    simp only [List.mem_cons, List.not_mem_nil, or_false] at hf
    rcases hf with rfl | rfl
    · exact structFieldSerialize_ser T s ns f
    · exact blank_ser
  · intro c; callees []; simp

theorem returnUnreachable_ser : returnUnreachable.Ser := by intro c; unfold returnUnreachable; callees []; simp [serFn]

theorem choiceFieldAtlas_ser (T : CharTable) (s : Schema) (ns : Namespace) (f : Field) : (choiceFieldAtlas T s ns f).Ser := by
  have h := atlasCalculation_ser T s ns f.type.variant true
  intro c
  unfold choiceFieldAtlas
  split <;>
  · callees [atlasLookup_callees, (h c).1, messageField, headerSize]
    refine ⟨trivial, fun g hg => ?_⟩
    simp only [List.mem_append, List.mem_cons, List.not_mem_nil, or_false] at hg
    rcases hg with hg | hg
    · exact (h c).2 g hg
    · first | (rcases hg with rfl | rfl <;> rfl) | (rcases hg with rfl; rfl)

theorem choiceAtlas_ser (T : CharTable) (s : Schema) (ns : Namespace) (fs : List Field) : (choiceAtlas T s ns fs).Ser := by
  unfold choiceAtlas
  refine Stms.Ser.append ?_ ?_
  · refine Stms.Ser.ofList fun x hx => ?_
    obtain ⟨f, -, rfl⟩ := List.mem_map.mp hx
    exact choiceFieldAtlas_ser T s ns f
  · exact Stms.Ser.ofList fun x hx => by cases List.mem_singleton.mp hx; exact returnUnreachable_ser

theorem choiceFieldSerialize_ser (T : CharTable) (s : Schema) (ns : Namespace) (name : Identifier) (f : Field) :
    (choiceFieldSerialize T s ns name f).Ser := by
  have h := serialization_ser T s ns f.type.variant true
  intro c
  unfold choiceFieldSerialize
  split <;>
  · callees [atlasLookup_callees, (h c).1, messageField, writeHeader, atlasField]
    refine ⟨trivial, fun g hg => ?_⟩
    simp only [List.mem_append, List.mem_cons, List.not_mem_nil, or_false] at hg
    first
    | (rcases hg with (rfl | hg) | rfl
       · rfl
       · exact (h c).2 g hg
       · rfl)
    | (rcases hg with rfl | hg
       · rfl
       · exact (h c).2 g hg)

theorem choiceSerialize_ser (T : CharTable) (s : Schema) (ns : Namespace) (name : Identifier) (fs : List Field) :
    (choiceSerialize T s ns name fs).Ser := by
  unfold choiceSerialize
  refine Stms.Ser.append ?_ ?_
  · refine Stms.Ser.ofList fun x hx => ?_
    obtain ⟨f, -, rfl⟩ := List.mem_map.mp hx
    exact choiceFieldSerialize_ser T s ns name f
  · exact Stms.Ser.ofList fun x hx => by cases List.mem_singleton.mp hx; exact returnUnreachable_ser

theorem sizeFunction_ser (fs : List Field) : (sizeFunction fs).Ser := by
  unfold sizeFunction
  split <;> (intro c; callees []; simp [serFn])

theorem serializeFunction_ser (v : DeclVariant) (fs : List Field) : (serializeFunction v fs).Ser := by
  unfold serializeFunction
  split
  · exact Stms.Ser.ofList fun x hx => by cases List.mem_singleton.mp hx; exact returnUnreachable_ser
  · intro c; callees []; simp [serFn]

theorem declCode_ser (T : CharTable) (s : Schema) (ns : Namespace) (d : Declaration) (f : Fn) (q : List Str) (hf : serFn (.decl q f) = true) :
    ((declCode T s ns d).body f).Ser := by
  unfold declCode
  dsimp only
  cases f with
  | size => exact sizeFunction_ser _
  | serialize => exact serializeFunction_ser _ _
  | deserialize => cases hf
  | deserializeUnsafe => cases hf
  | atlas =>
    cases d.variant with
    | struct => exact structAtlas_ser _ _ _ _
    | choice => exact choiceAtlas_ser _ _ _ _
  | serializeWithAtlasUnsafe =>
    cases d.variant with
    | struct => exact structSerialize_ser _ _ _ _
    | choice => exact choiceSerialize_ser _ _ _ _ _

/-- The functions at the top of the file which such a function calls. -/
def runtimeCalls : RuntimeFn → List RuntimeFn
  | .deserializeVarint => [.varintSizeFromFirstByte]
  | .fieldHeaderSize => [.varintSizeFromValue, .varintSizeFromValue, .varintSizeFromValue, .varintSizeFromValue, .varintSizeFromValue]
  | .serializeFieldHeader => [.serializeVarint, .serializeVarint, .serializeVarint, .serializeVarint, .serializeVarint]
  | .deserializeFieldHeader => [.deserializeVarint, .varintSizeFromFirstByte, .deserializeVarint]
  | _ => []

theorem runtime_callees (c : Site) (f : RuntimeFn) : f.body.callees c = (runtimeCalls f).map .runtime := by cases f <;> rfl

theorem runtime_ser (f : RuntimeFn) : f.body.Ser := by
  intro c
  refine ⟨by cases f <;> decide +kernel, fun g hg => ?_⟩
  rw [runtime_callees] at hg
  obtain ⟨h, -, rfl⟩ := List.mem_map.mp hg
  rfl

/-- Each function in the generated program is that of a declaration. -/
def Prog.Generated (P : Prog) (T : CharTable) : Prop := ∀ path code, P.code path = some code → ∃ s ns d, code = (declCode T s ns d).body

mutual
theorem moduleCodes_generated (T : CharTable) {p : List Str} {c : Fn → Stms} : (m : Module) → (ns : List Identifier) → (p, c) ∈ moduleCodes T ns m →
    ∃ s ns d, c = (declCode T s ns d).body
  | .mk children schema, ns, h => by
    rw [moduleCodes] at h
    rcases List.mem_append.mp h with h | h
    · exact modulesCodes_generated T children ns h
    · obtain ⟨d, -, e⟩ := List.mem_map.mp h
      cases e
      exact ⟨_, _, _, rfl⟩
theorem modulesCodes_generated (T : CharTable) {p : List Str} {c : Fn → Stms} : (ms : Modules) → (ns : List Identifier) → (p, c) ∈ modulesCodes T ns ms →
    ∃ s ns d, c = (declCode T s ns d).body
  | .nil, ns, h => by rw [modulesCodes] at h; cases h
  | .cons name child rest, ns, h => by
    rw [modulesCodes] at h
    rcases List.mem_append.mp h with h | h
    · exact moduleCodes_generated T child _ h
    · exact modulesCodes_generated T rest _ h
end

theorem findCode_some {path : List Str} {c : Fn → Stms} : {l : List (List Str × (Fn → Stms))} → findCode path l = some c → (path, c) ∈ l
  | (p, e) :: l, h => by
    rw [findCode] at h
    split at h
    next hp => cases h; rw [← hp]; exact List.mem_cons_self
    next => exact List.mem_cons_of_mem _ (findCode_some h)

theorem program_generated (T : CharTable) (S : Schemas) : (program T S).Generated T :=
  fun _ _ h => moduleCodes_generated T _ _ (findCode_some h)

/-- The functions for sizes and serialization do not catch exceptions, and call no others. -/
theorem throwing_ser (T : CharTable) (S : Schemas) : (program T S).Throwing (fun f => serFn f = true) := by
  have key : ∀ f, serFn f = true → ∀ b, (program T S).body f = some b → b.2.2.Ser := by
    intro f hf b hb
    cases f with
    | runtime f => cases hb; exact runtime_ser f
    | decl path f =>
      rw [Prog.body, Option.map_eq_some_iff] at hb
      obtain ⟨code, hc, rfl⟩ := hb
      obtain ⟨s, ns, d, rfl⟩ := program_generated T S path code hc
      exact declCode_ser T s ns d f path hf
  constructor
  · intro f hf g hg
    unfold Prog.callees at hg
    cases hb : (program T S).body f with
    | none => rw [hb] at hg; cases hg
    | some b => rw [hb] at hg; exact (key f hf b hb _).2 g hg
  · intro f hf
    unfold Prog.tries
    cases hb : (program T S).body f with
    | none => rfl
    | some b => exact (key f hf b hb ⟨[], fun _ _ => false⟩).1

end Typical.TsGen

import Verif.Spec.RustTyping

/-!
# Specification: generated Rust code does not use values which were moved

Written from the Rust Reference ("Moved and copied types", "Place expressions and value expressions", "Closure expressions", "Loops") for the syntax of
`Verif.Gen.Ast`, independent of the generator. `flow κ M value e` follows the moves in `e`:

* `κ v`: can the type of the variable `v` be one whose values are moved? (`false`: it implements `Copy`; then `Verif.Spec.RustTyping` allows using a place
  which starts at `v` as a value only if it is copied.) `&mut T` does not implement `Copy`; but where a parameter of a function has the type `&mut T`, a mutable
  reference is not moved but borrowed again.
* `M`: the places which can have been moved before. The result is the places which can have been moved after, or `none` if a place can be used which was moved.

The check is conservative: both branches of a condition are followed, and it is not used that code after `return` or `break` is not reached. In the body of a
loop or a closure, which can be run again, nothing may be moved which was defined outside.
-/

namespace Typical.Gen

/-- A variable, or one of its members. -/
abbrev Place := Var × Option Str

/-- The place which an expression is, or of which it is a part. -/
def Ex.place : Ex → Option Place
  | .var v => some (v, none)
  | .deref e => e.place
  | .paren e => e.place
  | .fst e => e.place
  | .snd e => e.place
  | .field e n =>
    match e.place with
    | some (v, none) => some (v, some n)
    | some (v, some m) => some (v, some m)
    | none => none
  | _ => none

/-- They have a common part. -/
def Place.meets (p q : Place) : Bool := decide (p.1 = q.1) && (p.2.isNone || q.2.isNone || decide (p.2 = q.2))

/-- A place is used, as a value (then it is moved, or copied) or not (then it is borrowed, or only looked at). -/
def usePlace (κ : Var → Bool) (M : List Place) (value : Bool) (p : Place) : Option (List Place) :=
  if M.any p.meets then none else if value && κ p.1 then some (p :: M) else some M

/-- What the value of an expression is: none (it does not end normally); copied when it is used; moved. -/
inductive Use
  | never
  | copied
  | moved
  deriving DecidableEq

/-- One or the other. -/
def Use.or : Use → Use → Use
  | .never, b => b
  | a, .never => a
  | .copied, b => b
  | .moved, _ => .moved

/-- Not known to be copied. -/
def Use.moves : Use → Bool
  | .copied => false
  | _ => true

def Use.ofBool (b : Bool) : Use := if b then .moved else .copied

def set (κ : Var → Bool) (v : Var) (b : Bool) : Var → Bool := fun w => if w = v then b else κ w

def setAll (κ : Var → Bool) (vs : List Var) (b : Bool) : Var → Bool := fun w => if w ∈ vs then b else κ w

/-- The value in the result of a call. -/
def Ex.resultMoves : Ex → Bool
  | .runtime _ .deserializeVarint _ => false
  | .runtime _ .deserializeFieldHeader _ => false
  | _ => true

/-- The elements of an iterator. -/
def Ex.elementMoves : Ex → Bool
  | .method _ .iter _ => false
  | _ => true

/-- The end of a block without a value. -/
def Ex.isDone : Ex → Bool
  | .done => true
  | _ => false

/-- The variables which a pattern binds. -/
def Pat.binders : Pat → List Var
  | .ok v => [v]
  | .err v => [v]
  | .variant _ _ _ bs => bs.filterMap id
  | .variants _ _ bs _ _ bs' => bs.filterMap id ++ bs'.filterMap id
  | _ => []

/-- Are values moved into these variables? For patterns for the value of `e`. -/
def Pat.moves (e : Ex) : Pat → Bool
  | .ok _ => e.resultMoves
  | .err _ => true
  | .variant ref _ _ _ => !ref
  | _ => false

/-- The value is taken apart by some of these patterns. -/
def Arms.take : Arms → Bool
  | .nil => false
  | .cons p _ rest =>
    (match p with
     | .ok _ => true
     | .err _ => true
     | .variant ref _ _ _ => !ref
     | .variants _ _ _ _ _ _ => true
     | .wild₂ => true
     | _ => false) || rest.take

mutual
/-- What the value of the expression is. Only what is needed is known to be copied. -/
def Ex.use (κ : Var → Bool) : Ex → Use
  | .var v => .ofBool (κ v)
  | .deref e => e.use κ
  | .paren e => e.use κ
  | .fst e => e.use κ
  | .snd e => e.use κ
  | .ref _ => .copied
  | .lit .newVec => .moved
  | .lit .newBytes => .moved
  | .lit .newString => .moved
  | .lit _ => .copied
  | .asU64 _ => .copied
  | .asUsize _ => .copied
  | .bin _ _ _ => .copied
  | .runtime _ .zigzagEncode _ => .copied
  | .runtime _ .zigzagDecode _ => .copied
  | .runtime _ .varintSizeFromValue _ => .copied
  | .runtime _ .fieldHeaderSize _ => .copied
  | .std .usizeFrom _ => .copied
  | .std .u64From _ => .copied
  | .std .u64FromLeBytes _ => .copied
  | .std .f64FromLeBytes _ => .copied
  | .method _ .len _ => .copied
  | .method _ .toBits _ => .copied
  | .method _ .toLeBytes _ => .copied
  | .method _ .asBytes _ => .copied
  | .method _ .isNone _ => .copied
  | .method _ .asRef _ => .copied
  | .method _ .size _ => .copied
  | .fold _ _ _ _ => .copied
  | .mapOr _ _ _ => .copied
  | .try_ e => .ofBool e.resultMoves
  | .brace b => b.use κ
  | .block b => b.use κ
  | .letIn _ v e b => b.use (set κ v (e.use κ).moves)
  | .seq e b => if e.use κ = .never then .never else if b.isDone then e.use κ else b.use κ
  | .blank b => b.use κ
  | .done => .copied
  | .ifInline _ a b => (a.use κ).or (b.use κ)
  | .ifElse _ a b => (a.use κ).or (b.use κ)
  | .ifThen _ _ => .copied
  | .ifEof _ _ => .copied
  | .matchInline e arms => arms.use κ e
  | .matchLines e arms => arms.use κ e
  | .break_ => .never
  | .return_ _ => .never
  | .panic => .never
  | _ => .moved
/-- What the value of some arm is, in a `match` on `e`. -/
def Arms.use (κ : Var → Bool) (e : Ex) : Arms → Use
  | .nil => .never
  | .cons p b rest => (b.use (setAll κ p.binders (p.moves e))).or (rest.use κ e)
end

/-- Methods which take their receiver as a value. -/
def Method.takes : Method → Bool
  | .unwrap => true
  | .intoIter => true
  | .into => true
  | _ => false

/-- Parameters of methods, as far as they matter. -/
def Method.params : Method → List Param
  | .serializeWithAtlas => [.writer]
  | _ => []

/-- Is an argument for the first of these parameters used as a value (or only borrowed again, where the type of the parameter is `&mut T`)? -/
def takesFirst : List Param → Bool
  | .reader :: _ => false
  | .writer :: _ => false
  | _ => true

/-- New variables, whose places are not moved yet, hide those outside. -/
def hide (vs : List Var) (M : List Place) : List Place := M.filter (fun p => decide (p.1 ∉ vs))

/-- After the scope of variables. -/
def leave (vs : List Var) (before after : List Place) : List Place := hide vs after ++ before.filter (fun p => decide (p.1 ∈ vs))

/-- After a body which can be run again: it must not have moved anything from outside. -/
def again (vs : List Var) (before after : List Place) : Option (List Place) :=
  if (hide vs after).all (fun p => before.contains p) then some before else none

mutual
/-- The places which can have been moved after the expression; `none` if it can use a place which was moved. -/
def flow (κ : Var → Bool) (M : List Place) (value : Bool) : Ex → Option (List Place)
  | .var v => usePlace κ M value (v, none)
  | .deref e => match e.place with
    | some p => usePlace κ M value p
    | none => flow κ M value e
  | .paren e => match e.place with
    | some p => usePlace κ M value p
    | none => flow κ M value e
  | .fst e => match e.place with
    | some p => usePlace κ M value p
    | none => flow κ M value e
  | .snd e => match e.place with
    | some p => usePlace κ M value p
    | none => flow κ M value e
  | .field e n => match (Ex.field e n).place with
    | some p => usePlace κ M value p
    | none => flow κ M value e
  | .lit _ => some M
  | .ref e => flow κ M false e
  | .refMut e => flow κ M false e
  | .asU64 e => flow κ M true e
  | .asUsize e => flow κ M true e
  | .bin _ a b => do flow κ (← flow κ M true a) true b
  | .pair a b => do flow κ (← flow κ M true a) true b
  | .sumLines es => flowArgs κ M [] es
  | .orLines es => flowArgs κ M [] es
  | .units e => flow κ M true e
  | .runtime _ f as => flowArgs κ M f.signature.1 as
  | .std _ as => flowArgs κ M [] as
  | .method e m as => do flowArgs κ (← flow κ M m.takes e) m.params as
  | .mutate v _ e => do usePlace κ (← flow κ M true e) false (v, none)
  | .read _ r v => do usePlace κ (← flow κ M false r) false (v, none)
  | .deserialize _ r => flow κ M false r
  | .deserializeSelf r => flow κ M false r
  | .try_ e => flow κ M true e
  | .mapVec e v b => do
    let M ← flow κ M true e
    again [v] M (← flow (set κ v e.elementMoves) (hide [v] M) true b)
  | .mapOption e v b => do
    let M ← flow κ M true e
    again [v] M (← flow (set κ v (e.use κ).moves) (hide [v] M) true b)
  | .mapOr e v b => do
    let M ← flow κ M true e
    again [v] M (← flow (set κ v (e.use κ).moves) (hide [v] M) true b)
  | .fold e x v b => do
    let M ← flow κ M true e
    again [x, v] M (← flow (set (set κ x false) v e.elementMoves) (hide [x, v] M) true b)
  | .structLit _ is => flowInits κ M is
  | .variantLit _ _ as => flowArgs κ M [] as
  | .brace b => flow κ M true b
  | .block b => flow κ M true b
  | .letIn _ v e b => do
    let M ← flow κ M true e
    return leave [v] M (← flow (set κ v (e.use κ).moves) (hide [v] M) true b)
  | .letNone v _ b => do return leave [v] M (← flow (set κ v true) (hide [v] M) true b)
  | .letPair v w e b => do
    let M ← flow κ M true e
    return leave [v, w] M (← flow (set (set κ v (e.use κ).moves) w (e.use κ).moves) (hide [v, w] M) true b)
  /- The function has its own variables: `sub_reader` and those which it defines. -/
  | .letFn _ e b => do
    let _ ← flow (fun _ => true) [] true e
    flow κ M true b
  | .callFn e => flow κ M false e
  | .seq e b => do flow κ (← flow κ M true e) true b
  | .blank b => flow κ M true b
  | .done => some M
  | .ifInline c a b => do
    let M ← flow κ M true c
    return (← flow κ M true a) ++ (← flow κ M true b)
  | .ifElse c a b => do
    let M ← flow κ M true c
    return (← flow κ M true a) ++ (← flow κ M true b)
  | .ifThen c a => do
    let M ← flow κ M true c
    return (← flow κ M true a) ++ M
  | .ifEof v a => do
    let M ← usePlace κ M false (v, none)
    return (← flow κ M true a) ++ M
  /- The variables are references. -/
  | .ifSome v w e f b => do
    let M ← flow κ (← flow κ M true e) true f
    return leave [v, w] M (← flow (set (set κ v false) w false) (hide [v, w] M) true b) ++ M
  | .forIn v e b => do
    let M ← flow κ M true e
    again [v] M (← flow (set κ v false) (hide [v] M) true b)
  | .forZip v w e f b => do
    let M ← flow κ (← flow κ M true e) true f
    again [v, w] M (← flow (set (set κ v e.elementMoves) w f.elementMoves) (hide [v, w] M) true b)
  | .matchInline e arms => do flowArms κ (← flow κ M arms.take e) e arms
  | .matchLines e arms => do flowArms κ (← flow κ M arms.take e) e arms
  | .loop b => do again [] M (← flow κ M true b)
  | .break_ => some M
  | .return_ e => flow κ M true e
  | .panic => some M
  | .errOf v => usePlace κ M true (v, none)
  | .errMissing _ => some M
/-- Arguments for these parameters, from left to right. -/
def flowArgs (κ : Var → Bool) (M : List Place) (ps : List Param) : Args → Option (List Place)
  | .nil => some M
  | .cons e es => do flowArgs κ (← flow κ M (takesFirst ps) e) ps.tail es
/-- Members of a struct expression, in the order in which they are written. -/
def flowInits (κ : Var → Bool) (M : List Place) : Inits → Option (List Place)
  | .nil => some M
  | .cons _ e is => do flowInits κ (← flow κ M true e) is
/-- The arms of a `match` on `e`; `M`: what was moved before. What can have been moved after some arm. -/
def flowArms (κ : Var → Bool) (M : List Place) (e : Ex) : Arms → Option (List Place)
  | .nil => some []
  | .cons p b rest => do
    let M' ← flow (setAll κ p.binders (p.moves e)) (hide p.binders M) true b
    return leave p.binders M M' ++ (← flowArms κ M e rest)
end

/-- The types whose values can be moved, decided. -/
def RT.moves : RT → Bool
  | .usize => false
  | .bool => false
  | .f64 => false
  | .i64 => false
  | .u64 => false
  | .u8 => false
  | .unit => false
  | .array => false
  | .ref _ => false
  | _ => true

/-- `κ` is right about these variables. -/
def Agrees (κ : Var → Bool) (Γ : Vars) : Prop := ∀ v τ m, Γ v = some (τ, m) → κ v = false → IsCopy τ

/-- A function with these parameters does not use a value which was moved. -/
def NoUseAfterMove (params : List (Var × RT × Bool)) (body : Ex) : Prop :=
  ∃ M, flow (fun v => params.any (fun p => decide (p.1 = v) && p.2.1.moves)) [] true body = some M

end Typical.Gen

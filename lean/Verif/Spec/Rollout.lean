import Verif.Props.AcrossLanguages

/-!
# Specification: rolling deployments

A schema is changed again and again. Programs generated from different versions run at the same time, and messages written by programs of older or newer
versions are still in flight or stored. `/repo/README.md` lines 295-308: each single change obeys the documented rules, the rules are not transitive, and "each schema change takes finite
time to propagate". The discipline is: a program of some version is started only when all programs which are running, and all messages which are still around, are at most one version away from
it. Programs may be updated one after another, in any order, and rolled back; several programs of the same version may run; messages may be kept, copied, dropped and reordered.
-/

namespace Typical

/-- The versions of the schemas: `schemas n` is version `n`, and `next n` tells which declarations of version `n + 1` are the successors of which
declarations of version `n`. -/
structure History where
  table : Nat → CharTable
  schemas : Nat → Schemas
  next : Nat → TypeKey → TypeKey → Prop

/-- Each version is valid and each single change obeys the documented rules. -/
structure History.Documented (H : History) : Prop where
  loaded : ∀ n, (H.schemas n).Loaded
  valid : ∀ n, validate (H.schemas n) = .ok []
  change : ∀ n, CompatibleSchemas (H.schemas n) (H.schemas (n + 1)) (H.next n)

/-- A message: the version and the declaration of its writer, its content and its bytes. -/
structure Sent where
  version : Nat
  key : TypeKey
  content : Tree
  bytes : Bytes

/-- The versions of the programs which are running, and the messages which are in flight or stored. -/
structure World where
  programs : List Nat
  messages : List Sent

/-- At most one version apart. -/
def Near (a b : Nat) : Prop := a = b ∨ a = b + 1 ∨ b = a + 1

/-- Everything in use is at most one version away from `v`. -/
def World.Settled (w : World) (v : Nat) : Prop := (∀ p ∈ w.programs, Near p v) ∧ ∀ m ∈ w.messages, Near m.version v

/-- What can happen. -/
inductive World.Step (H : History) : World → World → Prop
  /-- A running program writes a message, in Rust or TypeScript. -/
  | write {ps ms v k t bs} : v ∈ ps → WrittenBy (H.table v) (H.schemas v) k t bs → Step H ⟨ps, ms⟩ ⟨ps, ⟨v, k, t, bs⟩ :: ms⟩
  /-- A message is dropped. -/
  | drop {ps ms ms'} {m : Sent} : ms = ms' ++ [m] → Step H ⟨ps, ms⟩ ⟨ps, ms'⟩
  /-- Messages are copied or reordered. -/
  | shuffle {ps ms ms'} : (∀ m ∈ ms', m ∈ ms) → Step H ⟨ps, ms⟩ ⟨ps, ms'⟩
  /-- A program is started: perhaps one more of a version which is running, an update or a rollback. -/
  | start {ps ms v} : World.Settled ⟨ps, ms⟩ v → Step H ⟨ps, ms⟩ ⟨v :: ps, ms⟩
  /-- A program ends. -/
  | stop {ps ms} {before after : List Nat} {v : Nat} : ps = before ++ v :: after → Step H ⟨ps, ms⟩ ⟨before ++ after, ms⟩

/-- The worlds which can arise, from nothing. -/
inductive World.Reachable (H : History) : World → Prop
  | init : Reachable H ⟨[], []⟩
  | step {w w'} : Reachable H w → World.Step H w w' → Reachable H w'

/-- A sequence of steps, during which `P` holds. -/
inductive World.Steps (H : History) (P : World → Prop) : World → World → Prop
  | done {w} : P w → Steps H P w w
  | step {w w' w''} : P w → World.Step H w w' → Steps H P w' w'' → Steps H P w w''

/-- The declaration `k'` of version `v'` corresponds to the declaration `k` of version `v`. -/
inductive History.Corresponds (H : History) : Nat → TypeKey → Nat → TypeKey → Prop
  | same {v k} : Corresponds H v k v k
  | newer {v k k'} : H.next v k k' → Corresponds H v k (v + 1) k'
  | older {v k k'} : H.next v k k' → Corresponds H (v + 1) k' v k

/-- A Rust program of version `v` reads the message as a message of its declaration `k`: it gets the content, restricted to what its version knows. -/
def RustReads (H : History) (v : Nat) (k : TypeKey) (m : Sent) : Prop :=
  Accepted (H.table v) (H.schemas v) → ∀ ns f d, (H.schemas v).Declares k ns f d → ∀ lim < 2 ^ 64, 8 * (m.content.wire false).length ≤ lim → ∀ out : Bytes,
    ∃ c y, (H.schemas v).Denotes k c ∧ Gen.Holds (H.table v) (H.schemas v) .inn k y (c.project m.content) ∧
      Gen.Runs lim (Gen.program (H.table v) (H.schemas v)) (Gen.generatedType (H.table v) ns d .inn) Gen.traitDeserialize
        ⟨[(.reader, .reader 1)], out, [m.bytes]⟩ (.val (.ok y), ⟨[(.reader, .reader 1)], out, [[]]⟩)

open TsGen in
/-- The same for TypeScript. -/
def TsReads (H : History) (v : Nat) (k : TypeKey) (m : Sent) : Prop :=
  TsAccepted (H.table v) (H.schemas v) → ∀ ns f d, (H.schemas v).Declares k ns f d → (m.content.wire false).length < 2 ^ 64 → m.content.JsSafe →
    ∀ (hp : List Obj) (x : Val) (before after : Bytes), JsInput hp x before m.bytes after → ∀ scratch : Nat → UInt8,
      ∃ c y h' scratch', (H.schemas v).Denotes k c ∧ hp <+: h' ∧
        JsHolds (H.table v) (H.schemas v) .inn (fun r => if hp.length ≤ r then h'[r]? else none) k y (c.project m.content) ∧
        Calls (program (H.table v) (H.schemas v)) (declPath (H.table v) ns.components d) .deserialize [x] hp scratch (.val y) h' scratch'

end Typical

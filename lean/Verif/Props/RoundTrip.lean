import Verif.InjLemmas
import Verif.ViewLemmas

/-!
# Properties C06, C07, C08, C22, C45: whole messages through the generated Rust code

`lim` is the number of bytes the allocator can provide to a single `reserve_exact` call; the message
must be small enough (an `[F64]` array reserves eight times its size).
-/

namespace Typical

/-- A message type used in examples: a struct with nested struct, choice, arrays and all rules. -/
def exampleChoice : CTy :=
  .choice (.cons 0 .required .unit (.cons 1 .optional (.scalar .s64) (.cons 2 .asymmetric (.comp .string) .nil)))

def exampleType : CTy :=
  .struct (.cons 0 .required (.comp .string) (.cons 3 .optional (.scalar .u64)
    (.cons 1 .asymmetric (.comp (.array exampleChoice)) (.cons 7 .required (.comp (.scalars .f64)) .nil))))

theorem exampleType_wf : exampleType.WF := by
  simp [exampleType, exampleChoice, CTy.WF, Fields.WF, Ty.WF, Fields.indices]

/-- `{0: "A", 3: absent, 1: [choice 1(-5) with fallback (2("") with fallback 0)], 7: [1.0-ish, 0]}` -/
def exampleMsg : exampleType.Msg .out :=
  ((⟨[65], by decide⟩ : Utf8), (none : Option UInt64),
    [(.more (.inr (.inl ⟨(-5 : Int64), rfl⟩))
      (.more (.inr (.inr (.inl ⟨(⟨[], by decide⟩ : Utf8), rfl⟩))) (.last (.inl ⟨(), rfl⟩))) :
        exampleChoice.Msg .out)], [(4607182418800017408 : UInt64), (0 : UInt64)], ())

/-- **C06.** Serialising any message and deserialising the bytes with the same type succeeds and gives the
reader-side view of that message. -/
theorem C06_round_trip (c : CTy) (hw : c.WF) (m : c.Msg .out) (lim : Nat) (hlim : lim < 2 ^ 64)
    (h : 8 * size c m ≤ lim) :
    ∃ bs, serialize c m = some bs ∧ deserialize lim c bs = .ok (c.toIn m) := by
  have hs : size c m < 2 ^ 64 := by omega
  refine ⟨_, serialize_wire c hw m hs, ?_⟩
  have d := deserialize_wire lim hlim c hw _ (CTy.fits_tree c hw c hw (CTy.shape_refl c hw) m)
    (by rw [size_wire c hw m hs]; exact h)
  rw [CTy.read_tree c hw m] at d
  exact d

example : ∃ bs, serialize exampleType exampleMsg = some bs ∧
    deserialize 1000 exampleType bs = .ok (exampleType.toIn exampleMsg) :=
  C06_round_trip _ exampleType_wf _ 1000 (by decide) (by decide +kernel)

/-- **C06 (content).** What the reader gets has exactly the content of the message: the same fields
with the same values in the same order, at all depths, except that fallbacks of asymmetric fields are
cut off (`view`). -/
theorem C06_round_trip_content (c : CTy) (hw : c.WF) (m : c.Msg .out) (lim : Nat)
    (hlim : lim < 2 ^ 64) (h : 8 * size c m ≤ lim) :
    ∃ bs v, serialize c m = some bs ∧ deserialize lim c bs = .ok v ∧ c.tree v = c.view (c.tree m) := by
  obtain ⟨bs, h1, h2⟩ := C06_round_trip c hw m lim hlim h
  exact ⟨bs, _, h1, h2, CTy.tree_toIn_view c hw m⟩

/-- **C06 (same content).** If no choice has asymmetric fields, nothing is cut off. -/
theorem C06_round_trip_same_content (c : CTy) (hw : c.WF) (hc : c.NoAsymChoice) (m : c.Msg .out) (lim : Nat)
    (hlim : lim < 2 ^ 64) (h : 8 * size c m ≤ lim) :
    ∃ bs v, serialize c m = some bs ∧ deserialize lim c bs = .ok v ∧ c.tree v = c.tree m := by
  obtain ⟨bs, h1, h2⟩ := C06_round_trip c hw m lim hlim h
  exact ⟨bs, _, h1, h2, CTy.tree_toIn c hc m⟩

example : (CTy.struct (.cons 0 .asymmetric .unit (.cons 1 .required
    (.comp (.choice (.cons 0 .optional .unit (.cons 1 .required .unit .nil)))) .nil))).NoAsymChoice := by
  refine ⟨trivial, ⟨?_, trivial, trivial, trivial⟩, trivial⟩
  intro i h
  simp [Fields.HasRuleAt] at h

/-- **C07 (size).** For every message, `serialize` does not panic and writes exactly `size` bytes. -/
theorem C07_size_exact (c : CTy) (m : c.Msg .out) :
    ∃ bs, serialize c m = some bs ∧ bs.length = size c m :=
  ⟨_, serialize_eq c m, (size_eq c m).symm⟩

example : (serialize exampleType exampleMsg).map List.length = some (size exampleType exampleMsg) := by
  decide +kernel
example : size exampleType exampleMsg = 28 := by decide +kernel

/-- **C08.** Two messages with the same bytes are the same message; in particular an absent value is never
written like a present one. -/
theorem C08_injective (c : CTy) (hw : c.WF) (m m' : c.Msg .out) (hm : 8 * size c m < 2 ^ 64)
    (hm' : 8 * size c m' < 2 ^ 64) (h : serialize c m = serialize c m') : m = m' := by
  rw [serialize_wire c hw m (by omega), serialize_wire c hw m' (by omega)] at h
  exact wire_inj c hw m m' (by rw [size_wire c hw m (by omega)]; exact hm) (Option.some.inj h)

/-- **C08 (no default values).** Whatever the type of an optional field and its value, a message in which the
field is present is not written like one in which it is absent. -/
theorem C08_no_default (i : Nat) (t : Ty) (r : Fields) (hw : (CTy.struct (.cons i .optional t r)).WF)
    (m m' : r.Struct .out) (v : t.Msg .out)
    (hm : 8 * size (.struct (.cons i .optional t r)) ((some v : Option (t.Msg .out)), m) < 2 ^ 64)
    (hm' : 8 * size (.struct (.cons i .optional t r)) ((none : Option (t.Msg .out)), m') < 2 ^ 64) :
    serialize (.struct (.cons i .optional t r)) ((some v : Option (t.Msg .out)), m) ≠
      serialize (.struct (.cons i .optional t r)) ((none : Option (t.Msg .out)), m') := by
  intro h
  have e := C08_injective _ hw _ _ hm hm' h
  cases congrArg (Prod.fst : (Fields.cons i .optional t r).Struct .out → Option (t.Msg .out)) e

example : serialize (.struct (.cons 0 .optional (.scalar .u64) .nil)) ((some 0 : Option UInt64), ()) = some [1] ∧
    serialize (.struct (.cons 0 .optional (.scalar .u64) .nil)) ((none : Option UInt64), ()) = some [] := by
  decide +kernel

/-- **C22.** The in-memory conversion of a message from the writer-side to the reader-side type gives what
a reader gets when the message is sent. -/
theorem C22_into_agrees (c : CTy) (hw : c.WF) (m : c.Msg .out) (lim : Nat) (hlim : lim < 2 ^ 64)
    (h : 8 * size c m ≤ lim) (v : c.Msg .inn)
    (hv : ∃ bs, serialize c m = some bs ∧ deserialize lim c bs = .ok v) : c.toIn m = v := by
  obtain ⟨bs, h1, h2⟩ := C06_round_trip c hw m lim hlim h
  obtain ⟨bs', h1', h2'⟩ := hv
  rw [h1] at h1'
  cases h1'
  rw [h2] at h2'
  exact Except.ok.inj h2'

/-- **C45.** The bytes written for a message are those documented in the README for its content. -/
theorem C45_documented_format (c : CTy) (hw : c.WF) (m : c.Msg .out) (h : size c m < 2 ^ 64) :
    serialize c m = some ((c.tree m).wire false) := serialize_wire c hw m h

end Typical

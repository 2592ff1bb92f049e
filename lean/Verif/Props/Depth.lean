import Verif.DepthLemmas
import Verif.Props.RoundTrip

/-!
# Property C62: how deeply the generated deserialisers recurse
-/

namespace Typical

/-- **C62 (linear).** Whatever the input is, the number of nested calls is at most the nesting of the type plus the number of bytes. -/
theorem C62_linear (lim : Nat) (c : CTy) (hw : c.WF) (s : Bytes) : nestedCalls lim c s ≤ c.height + s.length := by
  have := CTy.calls_le lim 1 c hw (by simp) s.length s
  simpa [nestedCalls] using this

/-- **C62 (bounded by the schema).** If no choice of the type has an optional field, the number of nested calls is at most the nesting of
the type, for every input. -/
theorem C62_schema_bound (lim : Nat) (c : CTy) (hw : c.WF) (h : c.NoOptionalChoice) (s : Bytes) : nestedCalls lim c s ≤ c.height := by
  have := CTy.calls_le lim 0 c hw (fun _ => h) s.length s
  simpa [nestedCalls] using this

/-- **C62 (at least the nesting of the value).** A value which was decoded took at least as many nested calls as it is nested. -/
theorem C62_value (lim : Nat) (c : CTy) (s : Bytes) (v : c.Msg .inn) (h : deserialize lim c s = .ok v) :
    c.valueDepth v ≤ nestedCalls lim c s := by
  unfold deserialize at h
  cases hd : c.deser lim false s.length s with
  | error e => rw [hd] at h; cases h
  | ok p =>
    rw [hd] at h
    obtain ⟨v', r⟩ := p
    have h : Except.ok v' = Except.ok v := h
    injection h with h
    subst h
    exact CTy.calls_ge lim false c _ _ _ _ hd

/-- **C62 (otherwise unbounded).** If some choice has an optional field, then for every number there is a message, written by the
generated code itself and accepted, which takes that many nested calls. -/
theorem C62_unbounded (c : CTy) (hw : c.WF) (hp : c.Productive) (h : ¬ c.NoOptionalChoice) (n : Nat) :
    ∃ m : c.Msg .out, ∀ lim, lim < 2 ^ 64 → 8 * size c m ≤ lim →
      ∃ bs, serialize c m = some bs ∧ deserialize lim c bs = .ok (c.toIn m) ∧ n ≤ nestedCalls lim c bs := by
  obtain ⟨m, hm⟩ := CTy.deep c hw hp h n
  refine ⟨m, fun lim hlim hsz => ?_⟩
  obtain ⟨bs, h1, h2⟩ := C06_round_trip c hw m lim hlim hsz
  exact ⟨bs, h1, h2, Nat.le_trans hm (C62_value lim c bs _ h2)⟩

/-- A choice with an optional and a required field, both of type `Unit`. -/
def nestedType : CTy := .choice (.cons 0 .optional .unit (.cons 1 .required .unit .nil))

/-- `n` times the optional field, then the required one. -/
def nestedBytes (n : Nat) : Bytes := List.replicate n 1 ++ [9]

theorem nested_header (s : Bytes) : deserializeFieldHeader (1 :: s) = some (0, 0, s) := by
  have e : deserializeVarint (1 :: s) = some (0, s) := by
    have h : trailingZeros 1 = 0 := by decide
    simp only [deserializeVarint, h, readExact, Nat.zero_le, if_true, List.take_zero, List.drop_zero]
    rfl
  simp only [deserializeFieldHeader, e]
  rfl

theorem nestedBytes_succ (n : Nat) : nestedBytes (n + 1) = 1 :: nestedBytes n := by simp [nestedBytes, List.replicate_succ]

theorem nested_step (lim n : Nat) : choiceDepth (Fields.select lim (.cons 0 .optional .unit (.cons 1 .required .unit .nil)))
    (Fields.calls lim (.cons 0 .optional .unit (.cons 1 .required .unit .nil))) (n + 2) (nestedBytes n) = n := by
  induction n with
  | zero => rfl
  | succ n ih =>
    rw [nestedBytes_succ, choiceDepth, nested_header]
    simp only [List.take_zero, List.drop_zero]
    have e : ∀ x : Nat, max 0 x = x := by omega
    have h1 : Fields.calls lim (.cons 0 .optional .unit (.cons 1 .required .unit .nil)) 0 0 [] = 0 := rfl
    rw [h1, e]
    show 1 + choiceDepth _ _ (n + 2) ([] ++ nestedBytes n) = n + 1
    rw [List.nil_append, ih]
    omega

theorem nested_ok (lim n : Nat) : ∃ v, choiceLoop (Fields.select lim (.cons 0 .optional .unit (.cons 1 .required .unit .nil)))
    (n + 2) (nestedBytes n) = .ok v := by
  induction n with
  | zero => exact ⟨_, rfl⟩
  | succ n ih =>
    obtain ⟨v, hv⟩ := ih
    rw [nestedBytes_succ, choiceLoop, nested_header]
    simp only [List.take_zero, List.drop_zero]
    refine ⟨Chain.more (.inl ⟨(), rfl⟩) v, ?_⟩
    have hs : Fields.select lim (.cons 0 .optional .unit (.cons 1 .required .unit .nil)) 0 0 [] =
        .ok (some (.inl (.inl ⟨(), rfl⟩), [])) := rfl
    rw [hs]
    simp only [List.nil_append, hv]

/-- **C62 (one byte per call).** The bound is reached: a message of `n + 1` bytes takes `n + 1` nested calls, although the type is
nested only once. -/
theorem C62_one_byte_per_call (lim n : Nat) :
    (nestedBytes n).length = n + 1 ∧ nestedCalls lim nestedType (nestedBytes n) = n + 1 ∧ nestedType.height = 1 ∧
      ∃ v, deserialize lim nestedType (nestedBytes n) = .ok v := by
  have hl : (nestedBytes n).length = n + 1 := by simp [nestedBytes]
  refine ⟨hl, ?_, rfl, ?_⟩
  · show 1 + choiceDepth _ _ ((nestedBytes n).length + 1) (nestedBytes n) = n + 1
    rw [hl, nested_step]
    omega
  · obtain ⟨v, hv⟩ := nested_ok lim n
    refine ⟨v, ?_⟩
    have e : CTy.deser lim false nestedType (nestedBytes n).length (nestedBytes n) = .ok (v, []) := by
      simp only [nestedType, CTy.deser, hl, hv]
    rw [deserialize, e]

example : nestedType.WF ∧ nestedType.Productive ∧ ¬ nestedType.NoOptionalChoice := by
  refine ⟨by simp [nestedType, CTy.WF, Fields.WF, Ty.WF, Fields.indices], ?_, ?_⟩
  · exact ⟨⟨1, .required, .unit, by simp [Fields.lookup], rfl⟩, trivial, trivial, trivial⟩
  · intro h
    exact h.1 0 .unit (Fields.lookup_cons_self _ _ _ _)

example : (CTy.struct (.cons 0 .optional (.comp (.choice (.cons 3 .required .unit .nil))) .nil)).WF ∧
    (CTy.struct (.cons 0 .optional (.comp (.choice (.cons 3 .required .unit .nil))) .nil)).NoOptionalChoice ∧
    (CTy.struct (.cons 0 .optional (.comp (.choice (.cons 3 .required .unit .nil))) .nil)).height = 2 := by
  refine ⟨by simp [CTy.WF, Fields.WF, Ty.WF, Fields.indices], ?_, rfl⟩
  simp [CTy.NoOptionalChoice, Fields.NoOptionalChoice, Ty.NoOptionalChoice, Fields.lookup]

end Typical

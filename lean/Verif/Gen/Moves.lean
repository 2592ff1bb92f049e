import Verif.Spec.RustMoves
import Verif.Gen.RustGen

/-!
# Generated Rust code does not use values which were moved: lemmas
-/

namespace Typical.Gen

/-- Nothing from outside is moved. -/
def Quiet (κ : Var → Bool) (e : Ex) : Prop := flow κ [] true e = some []

/-- Only `payload` is moved. -/
def OnlyPayload (κ : Var → Bool) (e : Ex) : Prop := ∃ N, flow κ [] true e = some N ∧ ∀ p ∈ N, p.1 = Var.payload

@[simp] theorem copied_moves : Use.copied.moves = false := rfl

@[simp] theorem moved_moves : Use.moved.moves = true := rfl

@[simp] theorem flag_same (κ : Var → Bool) (v : Var) (b : Bool) : set κ v b v = b := by simp [set]

@[simp] theorem flag_other (κ : Var → Bool) {v w : Var} (b : Bool) (h : w ≠ v) : set κ v b w = κ w := by simp [set, h]

@[simp] theorem hide_nil (vs : List Var) : hide vs [] = [] := rfl

@[simp] theorem again_nil (vs : List Var) : again vs [] [] = some [] := rfl

@[simp] theorem leave_nil (vs : List Var) : leave vs [] [] = [] := rfl

@[simp] theorem flow_v (κ : Var → Bool) (M : List Place) (b : Bool) (x : Var) : flow κ M b (v x) = usePlace κ M b (x, none) := by simp [v, flow]

@[simp] theorem place_v (x : Var) : (v x).place = some (x, none) := rfl

@[simp] theorem use_v (κ : Var → Bool) (x : Var) : (v x).use κ = .ofBool (κ x) := by simp [v, Ex.use, Ex.isDone]

@[simp] theorem leave_single (x : Var) (n : Option Str) : leave [x] [] [(x, n)] = [] := by simp [leave, hide]

@[simp] theorem takesFirst_nil : takesFirst [] = true := rfl

theorem leave_only {N : List Place} (h : ∀ p ∈ N, p.1 = Var.payload) : leave [.payload] [] N = [] := by
  simp only [leave, hide, List.filter_nil, List.append_nil, List.filter_eq_nil_iff]
  intro p hp
  simp [h p hp]

theorem again_only {N : List Place} (h : ∀ p ∈ N, p.1 = Var.payload) : again [.payload] [] N = some [] := by
  have : hide [.payload] N = [] := by
    simp only [hide, List.filter_eq_nil_iff]
    intro p hp
    simp [h p hp]
  simp [again, this]

@[simp] theorem usePlace_nil (κ : Var → Bool) (p : Place) : usePlace κ [] false p = some [] := by simp [usePlace]

theorem usePlace_copied {κ : Var → Bool} (b : Bool) {p : Place} (h : κ p.1 = false) : usePlace κ [] b p = some [] := by simp [usePlace, h]

theorem usePlace_value (κ : Var → Bool) (p : Place) : usePlace κ [] true p = some (if κ p.1 then [p] else []) := by
  cases h : κ p.1 <;> simp [usePlace, h]

theorem u64_quiet (κ : Var → Bool) (supers : Nat) (isField : Bool) (h : κ .payload = false) : Quiet κ (atlasU64 supers isField) := by
  cases isField <;> simp [Quiet, atlasU64, flow, flowArgs, flowArms, Ex.place, args, v, usePlace, h, Pat.binders, Pat.moves, Arms.take, setAll]

theorem atlasLookup_quiet (κ : Var → Bool) (t : TypeVariant) (h : κ .payloadAtlas = false) : flow κ [] true (atlasLookup t) = some [] := by
  cases t <;> simp only [atlasLookup] <;> try split
  all_goals simp [flow, flowArgs, Ex.place, v, Ex.m, Method.takes, usePlace, h]

theorem atlasLookup_use (κ : Var → Bool) (t : TypeVariant) (h : κ .payloadAtlas = false) : (atlasLookup t).use κ = .copied := by
  cases t <;> simp only [atlasLookup] <;> try split
  all_goals simp [Ex.use, Ex.isDone, v, Ex.m, Use.ofBool, h]

theorem atlasCalculation_quiet (supers : Nat) : ∀ (t : TypeVariant) (isField : Bool) (κ : Var → Bool), κ .payload = false →
    flow κ [] true (atlasCalculation supers isField t) = some []
  | .array _ t, isField, κ, h => by
    have ih := fun κ h => atlasCalculation_quiet supers t false κ h
    simp only [atlasCalculation]
    split
    · have e1 := ih (set κ .payload false) (by simp)
      have e2 : ∀ κ' : Var → Bool, κ' .payloadAtlas = false → flow κ' [] true (atlasLookup t) = some [] :=
        fun κ' h' => atlasLookup_quiet κ' _ h'
      have e3 : ∀ κ' : Var → Bool, κ' .payloadAtlas = false → (atlasLookup t).use κ' = .copied := fun κ' h' => atlasLookup_use κ' _ h'
      simp [flow, flowArgs, Ex.place, v, Ex.m, Method.takes, usePlace, h, let', Ex.use, Ex.isDone, Ex.elementMoves, e1, e2, e3, args, leave, hide]
    · split
      · have := u64_quiet (set κ .payload false) supers isField (by simp)
        unfold Quiet at this
        simp [flow, flowArgs, Ex.place, v, Ex.m, Method.takes, usePlace, let', Ex.use, Ex.isDone, this]
      · split
        · simp [flow, flowArgs, Ex.place, v, Ex.m, Method.takes, usePlace, h]
        · have e1 := ih (set (set κ .x false) .payload false) (by simp)
          simp [flow, flowArgs, Ex.place, v, Ex.m, Method.takes, usePlace, Ex.elementMoves, e1]
  | .bool, isField, κ, h => by cases isField <;> simp [atlasCalculation, flow, flowArgs, Ex.place, args, v, usePlace, h]
  | .bytes, isField, κ, h => by simp [atlasCalculation, flow, flowArgs, Ex.place, Ex.m, v, usePlace, Method.takes, h]
  | .string, isField, κ, h => by simp [atlasCalculation, flow, flowArgs, Ex.place, Ex.m, v, usePlace, Method.takes, h]
  | .custom _ _, isField, κ, h => by simp [atlasCalculation, flow, flowArgs, Ex.place, Ex.m, v, usePlace, Method.takes, h]
  | .f64, isField, κ, h => by cases isField <;> simp [atlasCalculation, flow, flowArgs, Ex.place, Ex.m, v, usePlace, Method.takes, h]
  | .s64, isField, κ, h => by
    have := u64_quiet (set (set κ .zigzag false) .payload false) supers isField (by simp)
    unfold Quiet at this
    simp [atlasCalculation, flow, flowArgs, Ex.place, args, v, usePlace, h, let', Ex.use, Ex.isDone, this]
  | .u64, isField, κ, h => u64_quiet κ supers isField h
  | .unit, isField, κ, h => by simp [atlasCalculation, flow, Ex.place]

/-! ### Serialization -/

theorem u64Serialization_quiet (κ : Var → Bool) (supers : Nat) (isField : Bool) (h : κ .varint = false) :
    flow κ [] true (u64Serialization supers isField) = some [] := by
  cases isField <;> simp [u64Serialization, tryThen, flow, flowArgs, flowArms, Ex.place, args, v, Ex.m, Method.takes, usePlace, h, takesFirst, RuntimeFn.signature, Pat.binders, Pat.moves,
    Arms.take, setAll]

theorem serialization_quiet (supers : Nat) : ∀ (t : TypeVariant) (isField : Bool) (κ : Var → Bool) (rest : Ex), κ .payload = false →
    κ .payloadAtlas = false → flow κ [] true rest = some [] → flow κ [] true (serializationInvocation supers isField rest t) = some []
  | .array _ t, isField, κ, rest, h1, h2, hr => by
    have ih := fun κ h1 h2 => serialization_quiet supers t false κ .done h1 h2 (by simp [flow])
    simp only [serializationInvocation]
    split
    · have e1 := ih (set (set κ .payload false) .payloadAtlas false) (by simp) (by simp)
      have e2 := atlasLookup_quiet (set (set κ .payload false) .payloadAtlas false) t (by simp)
      simp [flow, flowArgs, takesFirst, RuntimeFn.signature, Method.params, Ex.place, v, Ex.m, Method.takes, usePlace, h1, h2, tryThen, Ex.elementMoves, e1, e2, args, hr]
    · split
      · have e1 := u64Serialization_quiet (set κ .varint false) supers isField (by simp)
        simp [flow, flowArgs, takesFirst, RuntimeFn.signature, Method.params, Ex.place, v, Ex.m, Method.takes, usePlace, let', Ex.use, Ex.isDone, e1, hr]
      · have e1 := ih (set κ .payload false) (by simp) (by simp [h2])
        simp [flow, flowArgs, takesFirst, RuntimeFn.signature, Method.params, Ex.place, v, Ex.m, Method.takes, usePlace, h1, e1, hr]
  | .bool, isField, κ, rest, h1, h2, hr => by
    have e1 := u64Serialization_quiet (set κ .varint false) supers isField (by simp)
    simp [serializationInvocation, flow, flowArgs, takesFirst, RuntimeFn.signature, Method.params, Ex.place, v, args, usePlace, let', Ex.use, Ex.isDone, e1, hr, h1]
  | .bytes, isField, κ, rest, h1, h2, hr => by
    simp [serializationInvocation, tryThen, flow, flowArgs, takesFirst, RuntimeFn.signature, Method.params, Ex.place, v, args, Method.takes, usePlace, h1, hr]
  | .custom _ _, isField, κ, rest, h1, h2, hr => by
    simp [serializationInvocation, tryThen, flow, flowArgs, takesFirst, RuntimeFn.signature, Method.params, Ex.place, v, args, Method.takes, usePlace, h2, hr]
  | .f64, isField, κ, rest, h1, h2, hr => by
    cases isField <;> simp [serializationInvocation, tryThen, flow, flowArgs, takesFirst, RuntimeFn.signature, Method.params, Ex.place, v, Ex.m, args, Method.takes, usePlace, hr]
  | .s64, isField, κ, rest, h1, h2, hr => by
    have e1 := u64Serialization_quiet (set κ .varint false) supers isField (by simp)
    simp [serializationInvocation, flow, flowArgs, takesFirst, RuntimeFn.signature, Method.params, Ex.place, v, args, usePlace, let', Ex.use, Ex.isDone, e1, hr, h1]
  | .string, isField, κ, rest, h1, h2, hr => by
    simp [serializationInvocation, tryThen, flow, flowArgs, takesFirst, RuntimeFn.signature, Method.params, Ex.place, v, Ex.m, args, Method.takes, usePlace, hr]
  | .u64, isField, κ, rest, h1, h2, hr => by
    have e1 := u64Serialization_quiet (set κ .varint false) supers isField (by simp)
    simp [serializationInvocation, flow, flowArgs, takesFirst, RuntimeFn.signature, Method.params, Ex.place, v, args, usePlace, let', Ex.use, Ex.isDone, Use.ofBool, e1, hr, h1]
  | .unit, isField, κ, rest, h1, h2, hr => by simpa [serializationInvocation] using hr

/-! ### Deserialization -/

/-- What follows the payload moves only that, whatever it is. -/
def RestOk (κ : Var → Bool) (rest : Ex) : Prop := ∀ κ' : Var → Bool, (∀ w, w ≠ .payload → w ≠ .buffer → κ' w = κ w) → OnlyPayload κ' rest

theorem RestOk.set_payload {κ : Var → Bool} {rest : Ex} (h : RestOk κ rest) (b : Bool) : RestOk (set κ .payload b) rest :=
  fun κ' h' => h κ' (fun w h1 h2 => (h' w h1 h2).trans (flag_other κ b h1))

/-- Bound to a variable. -/
theorem RestOk.let_ {κ : Var → Bool} {rest : Ex} (h : RestOk κ rest) (b : Bool) : ∃ N, flow (set κ .payload b) [] true rest = some N ∧ leave [.payload] [] N = [] := by
  obtain ⟨N, h1, h2⟩ := h (set κ .payload b) (fun w hw _ => flag_other κ b hw)
  exact ⟨N, h1, leave_only h2⟩

theorem RestOk.rebind {κ : Var → Bool} {rest e : Ex} (h : RestOk κ rest) (he : ∀ κ', OnlyPayload κ' e) : RestOk κ (let' .payload e rest) := by
  intro κ' h'
  obtain ⟨N, h1, h2⟩ := he κ'
  obtain ⟨N', h3, h4⟩ := h (set κ' .payload (e.use κ').moves) (fun w hw hw' => (flag_other κ' _ hw).trans (h' w hw hw'))
  have e1 : hide [.payload] N = [] := by
    simp only [hide, List.filter_eq_nil_iff]
    intro p hp
    simp [h2 p hp]
  refine ⟨leave [.payload] N N', by simp [let', flow, h1, e1, h3], ?_⟩
  simp only [leave, hide, List.mem_append, List.mem_filter]
  rintro p (h | h)
  · exact h4 p h.1
  · exact h2 p h.1

theorem payload_only (κ : Var → Bool) : OnlyPayload κ (v .payload) := by
  simp only [OnlyPayload, v, flow, usePlace_value]
  exact ⟨_, rfl, by intro p; split <;> simp +contextual⟩

theorem u64Deserialization_quiet {κ : Var → Bool} {rest : Ex} (supers : Nat) (isField : Bool) (hr : RestOk κ rest) :
    flow κ [] true (u64Deserialization supers isField rest) = some [] := by
  obtain ⟨N, h1, h2⟩ := hr.let_ false
  cases isField
  · simp [u64Deserialization, let', flow, flowArgs, Ex.place, args, v, usePlace, Ex.use, Ex.isDone, Ex.resultMoves, Use.ofBool, h1, h2]
  · simp [u64Deserialization, let', letMut, tryThen, flow, flowArgs, flowArms, Ex.place, args, v, usePlace, Ex.use, Ex.isDone, Ex.resultMoves, Use.ofBool, Use.or, Arms.use,
      Pat.binders, Pat.moves, Arms.take, setAll, h1, h2]

theorem breakAtEnd_quiet (κ : Var → Bool) (b : Bool) : ∃ N, flow κ [] true (breakAtEnd b) = some N ∧ leave [.err] [] N = [] := by
  cases b <;> cases h : κ .err <;> simp [breakAtEnd, flow, usePlace, leave, hide, h]

theorem breakAtEnd_use (κ : Var → Bool) (b : Bool) : (breakAtEnd b).use κ = .never := by cases b <;> simp [breakAtEnd, Ex.use, Ex.isDone]

theorem deserialization_quiet (T : CharTable) (supers : Nat) (s : Schema) (ns : Namespace) : ∀ (t : TypeVariant) (isField : Bool) (κ : Var → Bool) (rest : Ex),
    (isField = true ∨ sized t = true → κ .payloadSize = false) → RestOk κ rest →
    flow κ [] true (deserializationInvocation T supers s ns isField rest t) = some []
  | .array _ t, isField, κ, rest, hs, hr => by
    have ih := fun κ rest hs hr => deserialization_quiet T supers s ns t false κ rest hs hr
    have hs : κ .payloadSize = false := hs (.inr rfl)
    simp only [deserializationInvocation]
    split
    · obtain ⟨N, h1, h2⟩ := hr.let_ true
      obtain ⟨N', h3, h4⟩ := breakAtEnd_quiet (setAll (set κ .payload true) [.err] true) false
      have e1 := ih (set (set (set κ .payload true) .payloadSize false) .subReader true) (v .payload) (fun _ => by simp) (fun κ' _ => payload_only κ')
      simp [let', letMut, flow, flowArgs, flowArms, Ex.place, args, usePlace, Ex.use, Ex.isDone, Ex.resultMoves, Use.ofBool, Use.or, Arms.use,
        Pat.binders, Pat.moves, Arms.take, h1, h2, h3, h4, breakAtEnd_use]
      simp [setAll, e1, h1, h2]
    · split
      · refine u64Deserialization_quiet supers isField (hr.rebind fun κ' => ?_)
        obtain ⟨N, h1, h2⟩ := payload_only κ'
        exact ⟨N, by simp [flow, h1], h2⟩
      · obtain ⟨N, h1, h2⟩ := hr.let_ true
        obtain ⟨N', h3, h4⟩ := breakAtEnd_quiet (setAll (set κ .payload true) [.err] true) false
        have e1 := ih (fun _ => true) (.std .ok (args [v .payload])) (by
          rintro (h | h)
          · cases h
          · contradiction) (by
          intro κ' _
          obtain ⟨N, h1, h2⟩ := payload_only κ'
          exact ⟨N, by simp [flow, flowArgs, args, takesFirst, RuntimeFn.signature] at h1 ⊢; exact h1, h2⟩)
        split
        · simp [let', letMut, flow, flowArgs, flowArms, Ex.place, usePlace, Ex.use, Ex.isDone, Pat.binders, Pat.moves, Arms.take, hs, e1]
          cases hk : setAll (set κ Var.payload true) [Var.element] (v Var.subReader).refMut.callFn.resultMoves Var.element <;>
            simp [h1, h2, h3, h4]
        · simp [let', letMut, flow, flowArgs, flowArms, Ex.place, usePlace, Ex.use, Ex.isDone, Pat.binders, Pat.moves, Arms.take, e1]
          cases hk : setAll (set κ Var.payload true) [Var.element] (v Var.subReader).refMut.callFn.resultMoves Var.element <;>
            simp [h1, h2, h3, h4]
  | .bool, isField, κ, rest, hs, hr => by
    simp only [deserializationInvocation]
    refine u64Deserialization_quiet supers isField (hr.rebind fun κ' => ?_)
    obtain ⟨N, h1, h2⟩ := payload_only κ'
    exact ⟨N, by simp [flow, h1], h2⟩
  | .bytes, isField, κ, rest, hs, hr => by
    obtain ⟨N, h1, h2⟩ := hr.let_ true
    have hs : κ .payloadSize = false := hs (.inr rfl)
    simp [deserializationInvocation, tryThen, letMut, flow, Ex.place, usePlace, Ex.use, Ex.isDone, hs, h1, h2]
  | .custom _ _, isField, κ, rest, hs, hr => by
    obtain ⟨N, h1, h2⟩ := hr.let_ true
    simp [deserializationInvocation, let', flow, Ex.place, usePlace, Ex.use, Ex.isDone, Ex.resultMoves, Use.ofBool, h1, h2]
  | .f64, isField, κ, rest, hs, hr => by
    cases isField
    · obtain ⟨N, h1, h2⟩ := (show RestOk (set κ .buffer false) rest from fun κ'' h' => hr κ'' (fun w hw hw' => (h' w hw hw').trans (by simp [hw']))).let_ false
      simp [deserializationInvocation, tryThen, let', letMut, flow, flowArgs, args, Ex.place, usePlace, Ex.use, Ex.isDone, h1, h2]
    · have hs : κ .payloadSize = false := hs (.inl rfl)
      obtain ⟨N, h1, h2⟩ := hr.let_ false
      simp [deserializationInvocation, tryThen, let', letMut, flow, flowArgs, args, Ex.place, usePlace, Ex.use, Ex.isDone, Use.or, Use.ofBool, Ex.resultMoves, hs, h1, h2]
  | .s64, isField, κ, rest, hs, hr => by
    simp only [deserializationInvocation]
    refine u64Deserialization_quiet supers isField (hr.rebind fun κ' => ?_)
    obtain ⟨N, h1, h2⟩ := payload_only κ'
    exact ⟨N, by simp [flow, flowArgs, args, takesFirst, RuntimeFn.signature] at h1 ⊢; exact h1, h2⟩
  | .string, isField, κ, rest, hs, hr => by
    obtain ⟨N, h1, h2⟩ := hr.let_ true
    have hs : κ .payloadSize = false := hs (.inr rfl)
    simp [deserializationInvocation, tryThen, letMut, flow, Ex.place, usePlace, Ex.use, Ex.isDone, hs, h1, h2]
  | .u64, isField, κ, rest, hs, hr => u64Deserialization_quiet supers isField hr
  | .unit, isField, κ, rest, hs, hr => by
    obtain ⟨N, h1, h2⟩ := hr.let_ false
    simp [deserializationInvocation, let', flow, Ex.use, Ex.isDone, h1, h2]

end Typical.Gen

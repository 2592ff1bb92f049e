import Verif.FootprintLemmas
import Verif.Props.RoundTrip
import Verif.Props.Header

/-!
# Property C23: memory taken by deserialised messages
-/

namespace Typical

/-- **C23.** The memory taken by a successfully deserialised value is at most a constant of the schema plus a constant of
the schema times the length of the input. Units take no memory and spare capacity is not counted. -/
theorem C23_memory_bound (lim : Nat) (c : CTy) (s : Bytes) (v : c.Msg .inn)
    (h : deserialize lim c s = .ok v) : footprint c v ≤ c.width + c.cost * s.length := by
  unfold deserialize at h
  cases hr : c.deser lim false s.length s with
  | error e => rw [hr] at h; cases h
  | ok p =>
    obtain ⟨v', rest⟩ := p
    rw [hr] at h
    cases h
    have h1 := CTy.deser_heap lim false c s.length s v rest hr
    have h2 : c.cost * (s.length - rest.length) ≤ c.cost * s.length := Nat.mul_le_mul_left _ (by omega)
    unfold footprint
    omega

/-- **C23 (single factor).** Hence a schema-dependent multiple of the input length plus one. -/
theorem C23_memory_multiple (c : CTy) : ∃ K, ∀ lim s v, deserialize lim c s = .ok v →
    footprint c v ≤ K * (s.length + 1) := by
  refine ⟨c.width + c.cost, fun lim s v h => ?_⟩
  have := C23_memory_bound lim c s v h
  rw [Nat.add_mul, Nat.mul_add, Nat.mul_add]
  omega

/-- The bound is not vacuous: the example message takes 28 bytes on the wire and deserialises. -/
example : ∃ bs v, serialize exampleType exampleMsg = some bs ∧ deserialize 1000 exampleType bs = .ok v ∧
    footprint exampleType v ≤ exampleType.width + exampleType.cost * bs.length := by
  obtain ⟨bs, h1, h2⟩ := C06_round_trip _ exampleType_wf exampleMsg 1000 (by decide) (by decide +kernel)
  exact ⟨bs, _, h1, h2, C23_memory_bound _ _ _ _ h2⟩

/-- **C23 is false if spare capacity counts.** For every `n` (below `2^64`, not 0 or 8) there is an input of at most 10 bytes
whose deserialisation succeeds only if `n` bytes can be allocated: the claimed size of a `Bytes` field is reserved
before any byte of it is read. -/
theorem C23_reservation_unbounded (n : Nat) (hn : n < 2 ^ 64) (h0 : n ≠ 0) (h8 : n ≠ 8) :
    ∃ s : Bytes, s.length ≤ 10 ∧ ∀ lim,
      (∃ v, deserialize lim (.struct (.cons 0 .optional (.comp .bytes) .nil)) s = .ok v) ↔ n ≤ lim := by
  refine ⟨serializeFieldHeader 0 n false, ?_, fun lim => ?_⟩
  · rw [serializeFieldHeader_eq 0 _ _ (by decide) hn]
    have hs : Spec.sizeMode n false = 3 := by
      unfold Spec.sizeMode
      rw [if_neg h0, if_neg h8]; rfl
    simp only [Spec.header, hs, if_true, List.length_append]
    have h1 := varintLength_range (4 * 0 + 3)
    have h2 := varintLength_range n
    have hl : ∀ n, (Spec.varintBytes n).length = Spec.varintLength n := fun n => by
      rw [Spec.varintBytes, List.length_map, spec_varint_length]
    rw [hl, hl]
    have : Spec.varintLength (4 * 0 + 3) = 1 := by decide
    omega
  · have hh : deserializeFieldHeader (serializeFieldHeader 0 n false) = some (0, n, []) := by
      rw [serializeFieldHeader_eq 0 _ _ (by decide) hn]
      have hs : Spec.sizeMode n false = 3 := by
        unfold Spec.sizeMode
        rw [if_neg h0, if_neg h8]; rfl
      have h1 := deserializeVarint_varintBytes (n := 3) (by decide) (Spec.varintBytes n)
      have h2 := deserializeVarint_varintBytes hn []
      rw [List.append_nil] at h2
      unfold deserializeFieldHeader
      simp only [Spec.header, hs, if_true, Nat.mul_zero, Nat.zero_add, h1, h2]
      simp
      omega
    have hstep : ∀ (fs : Fields) (hfs : fs = .cons 0 .optional (.comp .bytes) .nil) (st : fs.Slots),
        if n ≤ lim then ∃ st', fs.step lim 0 n (List.take n []) st = .ok (some (st', []))
        else fs.step lim 0 n (List.take n []) st = .error .panic := by
      rintro _ rfl ⟨o, os⟩
      by_cases h : n ≤ lim
      · have hd : Ty.deser lim (.comp .bytes) n (List.take n []) = .ok ([], []) := by
          rw [List.take_nil]; exact if_pos h
        simp only [if_pos h, Fields.step, if_true, hd]
        exact ⟨_, rfl⟩
      · have hd : Ty.deser lim (.comp .bytes) n (List.take n []) = .error .panic := if_neg h
        simp only [if_neg h, Fields.step, if_true, hd]
    have hl : (serializeFieldHeader 0 n false).length ≠ 0 := by
      intro h
      rw [List.length_eq_zero_iff.mp h] at hh
      cases hh
    obtain ⟨k, hk⟩ := Nat.exists_eq_succ_of_ne_zero hl
    by_cases h : n ≤ lim
    · refine ⟨fun _ => h, fun _ => ?_⟩
      have hst := hstep _ rfl (Fields.emptySlots _)
      rw [if_pos h] at hst
      obtain ⟨st', hst⟩ := hst
      have hnone : deserializeFieldHeader [] = none := rfl
      simp only [deserialize, CTy.deser, structLoop, hk, hh, hst, List.nil_append, List.drop_nil, hnone]
      obtain ⟨a, b⟩ := st'
      exact ⟨_, rfl⟩
    · refine ⟨fun hv => ?_, fun h' => absurd h' h⟩
      exfalso
      obtain ⟨v, hv⟩ := hv
      have hst := hstep _ rfl (Fields.emptySlots _)
      rw [if_neg h] at hst
      simp only [deserialize, CTy.deser, structLoop, hh, hst] at hv
      cases hv

/-- **C23 (the exception).** For `[Unit]` the number of elements is not bounded by the input: every 64-bit length is
reached by an input of at most 9 bytes. -/
theorem C23_units_unbounded (n : UInt64) : ∃ s : Bytes, s.length ≤ 9 ∧ ∀ lim,
    deserialize lim .units s = .ok n := by
  refine ⟨serializeVarint n, ?_, fun lim => ?_⟩
  · rw [(C02_varint_length n).1]
    exact (varintLength_range _).2
  · have := C01_varint_round_trip n []
    rw [List.append_nil] at this
    have h : CTy.deser lim false .units (serializeVarint n).length (serializeVarint n) = .ok (n, []) := by
      show readU64Elem _ = _
      unfold readU64Elem
      rw [this]
      rfl
    unfold deserialize
    rw [h]

end Typical

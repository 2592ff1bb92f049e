import Verif.LoopLemmas
import Verif.Props.RoundTrip

/-!
# Properties C12 and C13: the generated Rust deserialiser on arbitrary bytes
-/

namespace Typical

theorem deserialize_fail (D : Fields → Prop) (S : Prop) (lim : Nat) (c : CTy) (hD : c.AllDecls D)
    (hS : c.hasBuffer = true → S) (s : Bytes) (e : Err) (h : deserialize lim c s = .error e) :
    FailN D S lim s.length e s := by
  have := CTy.deser_ok D S lim false c hD hS s.length s
  unfold deserialize at h
  cases hr : c.deser lim false s.length s with
  | ok p => rw [hr] at h; cases h
  | error e' =>
    rw [hr] at h this
    cases h
    exact this

/-- **C12 (loops).** Every loop of the deserialiser other than `skip` terminates: the model's bound on the
number of rounds is never reached, for any type, input and memory limit. -/
theorem C12_loops_terminate (lim : Nat) (c : CTy) (s : Bytes) : deserialize lim c s ≠ .error .fuel := by
  intro h
  rcases deserialize_fail (fun _ => True) True lim c (CTy.allDecls_true c) (fun _ => trivial) s _ h with h | h
  · exact h
  · exact absurd h.1 (by decide)

/-- **C12 is false as stated.** A truncated field with an unknown index makes the deserialiser spin forever, for every
reader type that is a struct: after any well-formed readable fields, a header announcing more bytes than there are. -/
theorem C12_hang_witness (gs : Fields) (lim : Nat) (i n : Nat) (payload : Bytes)
    (hi : i < 2 ^ 62) (hu : i ∉ gs.indices) (hn : n < 2 ^ 64) (hn8 : n ≠ 8) (hp : payload.length < n) :
    deserialize lim (.struct gs) (serializeFieldHeader i n false ++ payload) = .error .hang := by
  have hh : deserializeFieldHeader (serializeFieldHeader i n false ++ payload) = some (i, n, payload) := by
    rw [serializeFieldHeader_eq i _ _ hi hn]
    have hs : Spec.sizeMode n false = 3 := by
      unfold Spec.sizeMode
      rw [if_neg (by omega), if_neg hn8]; rfl
    have hlt : 4 * i + 3 < 2 ^ 64 := by omega
    unfold deserializeFieldHeader
    simp only [Spec.header, hs, if_true, List.append_assoc, deserializeVarint_varintBytes hlt]
    rw [tag_and i 3 hi (by omega), tag_shift i 3 hi (by omega)]
    simp [deserializeVarint_varintBytes hn]
    omega
  simp only [deserialize, CTy.deser, structLoop, hh, Fields.step_unknown gs i _ _ _ hu, skip]
  rw [if_neg (by omega)]

example : deserialize 1000 (.struct .nil) [7, 5, 1] = .error .hang := rfl
example : deserialize 1000 (.struct .nil) (serializeFieldHeader 0 2 false ++ [1]) = .error .hang :=
  C12_hang_witness .nil 1000 0 2 [1] (by decide) (by simp [Fields.indices]) (by decide) (by decide) (by decide)

/-- **C12 (partial).** The deserialiser terminates unless some contiguous part of the input is a truncated field
(a header announcing more bytes than that part has) with an index that some struct or choice in the
type does not know. -/
theorem C12_terminates_partial (lim : Nat) (c : CTy) (s : Bytes)
    (h : c.AllDecls (fun fs => ∀ body i n r, body <:+: s → deserializeFieldHeader body = some (i, n, r) →
      r.length < n → i ∈ fs.indices)) :
    deserialize lim c s ≠ .error .hang ∧ deserialize lim c s ≠ .error .fuel := by
  refine ⟨fun he => ?_, C12_loops_terminate lim c s⟩
  rcases deserialize_fail _ True lim c h (fun _ => trivial) s _ he with h | h
  · obtain ⟨body, fs, h1, h2, i, n, r, h3, h4, h5⟩ := h
    exact h5 (h2 body i n r h1 h3 h4)
  · exact absurd h.1 (by decide)

/-- Instance: a reader which knows all fields, whatever the truncation. -/
example : deserialize 1000 (.struct (.cons 0 .optional (.comp .bytes) .nil)) [7, 5, 1] ≠ .error .hang := by
  intro h
  cases h

/-- **C12 (well-formed inputs).** In particular it terminates, without panic, on every input which consists of
well-formed fields, whatever their indices: it succeeds or gives `UnexpectedEof` or `InvalidData`. -/
theorem C12_terminates_on_fields (lim : Nat) (hlim : lim < 2 ^ 64) (c : CTy) (hw : c.WF) (t : Tree)
    (hf : c.Fits t) (h : 8 * (t.wire false).length ≤ lim) :
    (∃ v, deserialize lim c (t.wire false) = .ok v) ∨ deserialize lim c (t.wire false) = .error .eof ∨
      deserialize lim c (t.wire false) = .error .invalid := by
  have d := deserialize_wire lim hlim c hw t hf h
  cases hr : c.read t with
  | none =>
    rw [hr] at d
    obtain ⟨e, h1, h2 | h2⟩ := d
    · exact .inr (.inl (h2 ▸ h1))
    · exact .inr (.inr (h2 ▸ h1))
  | some v =>
    rw [hr] at d
    exact .inl ⟨v, d⟩

/-- **C13 is false as stated.** For every memory limit below `2^64 - 1` bytes, a 10-byte input makes the deserialiser of
a struct with a single optional `Bytes` field panic: `reserve_exact` is called with the claimed payload size. -/
theorem C13_panic_witness (lim : Nat) (hlim : lim < 2 ^ 64 - 1) :
    deserialize lim (.struct (.cons 0 .optional (.comp .bytes) .nil))
      [7, 0, 127, 191, 223, 239, 247, 251, 253, 254] = .error .panic := by
  have hh : deserializeFieldHeader [7, 0, 127, 191, 223, 239, 247, 251, 253, 254] =
      some (0, 2 ^ 64 - 1, []) := by decide +kernel
  have hstep : ∀ st : (Fields.cons 0 .optional (.comp .bytes) .nil).Slots,
      (Fields.cons 0 .optional (.comp .bytes) .nil).step lim 0 (2 ^ 64 - 1)
        (List.take (2 ^ 64 - 1) []) st = .error .panic := by
    rintro ⟨o, os⟩
    have hd : Ty.deser lim (.comp .bytes) (2 ^ 64 - 1) (List.take (2 ^ 64 - 1) []) = .error .panic :=
      if_neg (by omega)
    simp only [Fields.step, if_true, hd]
  simp only [deserialize, CTy.deser, structLoop, hh, hstep]

/-- **C13 (partial).** The deserialiser does not panic if the type has no `Bytes`, `String` or `[F64]` in it, or if no size
found anywhere in the input is too large to be reserved. -/
theorem C13_no_panic_partial (lim : Nat) (c : CTy) (s : Bytes)
    (h : c.hasBuffer = true → 72 ≤ lim ∧ 8 * s.length ≤ lim ∧
      ∀ body v r, body <:+: s → deserializeVarint body = some (v, r) → 8 * v.toNat ≤ lim) :
    deserialize lim c s ≠ .error .panic := by
  intro he
  rcases deserialize_fail (fun _ => True) _ lim c (CTy.allDecls_true c) h s _ he with h | h
  · obtain ⟨⟨h1, h2, h3⟩, h4 | ⟨body, v, r, h5, h6, h7⟩⟩ := h
    · omega
    · exact absurd (h3 body v r h5 h6) (by omega)
  · obtain ⟨_, ⟨h1, h2, h3⟩, h4⟩ := h
    omega

/-- Types without `Bytes`, `String` and `[F64]` never panic. -/
theorem C13_no_panic_without_buffers (lim : Nat) (c : CTy) (s : Bytes) (h : c.hasBuffer = false) :
    deserialize lim c s ≠ .error .panic :=
  C13_no_panic_partial lim c s (fun h' => by rw [h] at h'; cases h')

/-- With unlimited memory nothing panics: the failed reservations are the only panics. -/
theorem C13_no_panic_unlimited (lim : Nat) (c : CTy) (s : Bytes) (h1 : 8 * 2 ^ 64 ≤ lim)
    (h2 : 8 * s.length ≤ lim) : deserialize lim c s ≠ .error .panic :=
  C13_no_panic_partial lim c s (fun _ => ⟨by omega, h2, fun _ v _ _ _ => by
    have := v.toNat_lt; omega⟩)

/-- Every failure of the deserialiser is one of four: `UnexpectedEof`, `InvalidData`, a failed reservation (only in
types with buffers) or the endless loop of a truncated unrecognised field. -/
theorem C13_failures (lim : Nat) (c : CTy) (s : Bytes) (e : Err) (h : deserialize lim c s = .error e) :
    e = .eof ∨ e = .invalid ∨ (e = .panic ∧ c.hasBuffer = true) ∨ e = .hang := by
  cases e with
  | eof => simp
  | invalid => simp
  | panic =>
    refine .inr (.inr (.inl ⟨rfl, ?_⟩))
    cases hb : c.hasBuffer with
    | true => rfl
    | false => exact absurd h (C13_no_panic_without_buffers lim c s hb)
  | hang => simp
  | fuel => exact absurd h (C12_loops_terminate lim c s)

/-- The hypotheses of `C13_no_panic_partial` are met by an ordinary message with a buffer: each size in
`[3, 4, 1]`-like inputs is small. -/
example : deserialize 2048 (.struct (.cons 0 .optional (.comp .bytes) .nil)) [3, 5, 9, 8] ≠ .error .panic := by
  intro h; cases h
example : (CTy.struct (.cons 0 .optional (.scalar .u64) .nil)).hasBuffer = false := by decide +kernel

end Typical

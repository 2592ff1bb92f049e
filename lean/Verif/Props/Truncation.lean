import Verif.CutUnique
import Verif.Props.RoundTrip

/-!
# Property C63: messages which are cut off
-/

namespace Typical

/-- **C63.** Let a message of type `w` be cut off after any number of bytes, and read by a reader of type `r` whose shared fields have the
same shape. There is exactly one content which the remaining bytes show. The reader gets what a reader of `r` gets from that content
(an error `UnexpectedEof` or `InvalidData`, if `r` cannot be read from it); otherwise it does not return, and some field of the message
is unknown to it. In no case does it panic. -/
theorem C63_truncated (w r : CTy) (hw : w.WF) (hr : r.WF) (hs : w.Shape r) (m : w.Msg .out) (lim : Nat) (hlim : lim < 2 ^ 64)
    (hsz : 8 * size w m ≤ lim) :
    ∃ bs, serialize w m = some bs ∧ ∀ p, p <+: bs →
      ∃ t, Tree.Cut false (w.tree m) p t ∧ (∀ t', Tree.Cut false (w.tree m) p t' → t' = t) ∧
        ((∃ v, r.read t = some v ∧ deserialize lim r p = .ok v) ∨
         (r.read t = none ∧ (deserialize lim r p = .error .eof ∨ deserialize lim r p = .error .invalid)) ∨
         (¬ r.Knows (w.tree m) ∧ deserialize lim r p = .error .hang)) := by
  have hlt : size w m < 2 ^ 64 := by omega
  refine ⟨_, serialize_wire w hw m hlt, fun p hp => ?_⟩
  have hfit := CTy.fits_tree w hw r hr hs m
  have hlen := size_wire w hw m hlt
  have main : ∃ t, Tree.Cut false (w.tree m) p t ∧ CutAgrees (¬ r.Knows (w.tree m)) (deserialize lim r p) (r.read t) := by
    by_cases hl : p.length < ((w.tree m).wire false).length
    · obtain ⟨t, h1, h2⟩ := CTy.deser_cut lim hlim false r hr _ hfit (by omega) p.length (fun h => by cases h) (by omega) p hp hl
      refine ⟨t, h1, ?_⟩
      rcases h2 with h2 | ⟨h2, h3⟩
      · cases hrt : r.read t with
        | none =>
          rw [hrt] at h2
          obtain ⟨e, h4, h5⟩ := h2
          exact .inl ⟨e, by rw [deserialize, h4], h5⟩
        | some v =>
          rw [hrt] at h2
          simp only [Option.map_some, Agrees] at h2
          left
          show _ = _
          rw [deserialize, h2]
      · exact .inr ⟨by rw [deserialize, h2], h3⟩
    · have e := hp.eq_of_length_le (by omega)
      rw [e]
      exact ⟨_, Tree.Cut.whole false _, .inl (deserialize_wire lim hlim r hr _ hfit (by omega))⟩
  obtain ⟨t, h1, h2⟩ := main
  refine ⟨t, h1, fun t' h' => h'.unique h1, ?_⟩
  rcases h2 with h2 | ⟨h2, h3⟩
  · cases hrt : r.read t with
    | none =>
      rw [hrt] at h2
      obtain ⟨e, h4, rfl | rfl⟩ := h2
      · exact .inr (.inl ⟨rfl, .inl h4⟩)
      · exact .inr (.inl ⟨rfl, .inr h4⟩)
    | some v =>
      rw [hrt] at h2
      exact .inl ⟨v, rfl, h2⟩
  · exact .inr (.inr ⟨h3, h2⟩)

/-- **C63 (same type).** If the reader has the type of the writer, it always returns, wherever the message is cut off. -/
theorem C63_same_type (c : CTy) (hw : c.WF) (m : c.Msg .out) (lim : Nat) (hlim : lim < 2 ^ 64) (hsz : 8 * size c m ≤ lim) :
    ∃ bs, serialize c m = some bs ∧ ∀ p, p <+: bs →
      ∃ t, Tree.Cut false (c.tree m) p t ∧
        ((∃ v, c.read t = some v ∧ deserialize lim c p = .ok v) ∨
         (c.read t = none ∧ (deserialize lim c p = .error .eof ∨ deserialize lim c p = .error .invalid))) := by
  obtain ⟨bs, h1, h2⟩ := C63_truncated c c hw hw (CTy.shape_refl c hw) m lim hlim hsz
  refine ⟨bs, h1, fun p hp => ?_⟩
  obtain ⟨t, h3, -, h4⟩ := h2 p hp
  refine ⟨t, h3, ?_⟩
  rcases h4 with h4 | h4 | ⟨h4, -⟩
  · exact .inl h4
  · exact .inr h4
  · exact absurd (CTy.knows_tree c hw m) h4

/-- A struct with a `U64` and a `Bytes` field, both required. -/
def cutType : CTy := .struct (.cons 0 .required (.scalar .u64) (.cons 1 .required (.comp .bytes) .nil))

/-- **C63 (truncation is not detected).** A message can be accepted although it is cut off, with other values than were written: here the
`Bytes` field loses its last two bytes. -/
theorem C63_undetected_witness :
    serialize cutType ((7 : UInt64), ([1, 2, 3] : Bytes), ()) = some [5, 15, 15, 7, 1, 2, 3] ∧
    deserialize 100 cutType [5, 15, 15, 7, 1] = .ok ((7 : UInt64), ([1] : Bytes), ()) := ⟨by decide +kernel, rfl⟩

/-- The rest of the message of the witness is one of the contents of C63. -/
example : Tree.Cut false (.fields [(0, .scalar .u64 (7 : UInt64)), (1, .bytes [1, 2, 3])]) [5, 15, 15, 7, 1]
    (.fields [(0, .scalar .u64 (7 : UInt64)), (1, .bytes [1])]) := by
  have := Tree.Cut.value false [(0, .scalar .u64 (7 : UInt64))] [] 1 (.bytes [1, 2, 3]) (.bytes [1]) [1]
    (Tree.Cut.bytes true [1, 2, 3] [1] (by decide) (by decide)) (by decide) (fun h => by cases h.1)
  have e : Tree.wireFields [(0, .scalar .u64 (7 : UInt64))] ++
      (Spec.header 1 ((Tree.bytes [1, 2, 3]).wire true).length (Tree.bytes [1, 2, 3]).isInteger ++ [1]) = [5, 15, 15, 7, 1] := by
    decide +kernel
  rw [e] at this
  exact this

example : deserialize 100 cutType [5] = .error .invalid := rfl
example : deserialize 100 cutType [] = .error .invalid := rfl
example : deserialize 100 cutType [5, 15] = .error .invalid := rfl

/-- The hypotheses are met by a type with structs, choices, arrays and strings. -/
example : ∃ bs, serialize exampleType exampleMsg = some bs ∧ ∀ p, p <+: bs →
    ∃ t, Tree.Cut false (exampleType.tree exampleMsg) p t ∧
      ((∃ v, exampleType.read t = some v ∧ deserialize 1000 exampleType p = .ok v) ∨
       (exampleType.read t = none ∧ (deserialize 1000 exampleType p = .error .eof ∨ deserialize 1000 exampleType p = .error .invalid))) :=
  C63_same_type _ exampleType_wf _ 1000 (by decide) (by decide +kernel)

end Typical

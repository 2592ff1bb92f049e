import Verif.TsEncLemmas
import Verif.TsWireLemmas
import Verif.TsTotalLemmas
import Verif.TsEmbedLemmas
import Verif.Props.Compat
import Verif.Props.Robust

/-!
# Properties C24-C27 and C46: the generated TypeScript code
-/

namespace Typical

/-! ### C24: writers -/

/-- **C24.** The TypeScript encoder produces exactly the bytes which the Rust encoder produces, for every type
and message. -/
theorem C24_same_bytes (c : CTy) (hw : c.WF) (m : c.Msg .out) (h : size c m < 2 ^ 64) :
    Ts.serialize c m = serialize c m := by
  have hs := size_eq c m
  rw [serialize_eq c m]
  exact Ts.serialize_enc c hw m (by omega)

/-- **C24 (sizes).** Both `size` functions give the same number. -/
theorem C24_same_size (c : CTy) (hw : c.WF) (m : c.Msg .out) (h : size c m < 2 ^ 64) :
    Ts.size c m = size c m := by
  have hs := size_eq c m
  rw [hs]
  exact Ts.size_enc c hw m (by omega)

example : Ts.serialize exampleType exampleMsg = serialize exampleType exampleMsg :=
  C24_same_bytes _ exampleType_wf _ (by decide +kernel)
example : (Ts.serialize exampleType exampleMsg).map List.length = some 28 := by decide +kernel

/-! ### C25: readers -/

/-- **C25.** The TypeScript decoder applied to a message written in either language gives the reader-side view
of that message - which is what the Rust decoder gives, C06. -/
theorem C25_round_trip (c : CTy) (hw : c.WF) (m : c.Msg .out) (h : size c m < 2 ^ 64) (hj : (c.tree m).JsSafe) :
    ∃ bs, serialize c m = some bs ∧ Ts.serialize c m = some bs ∧ Ts.deserialize c bs = .ok (c.toIn m) := by
  refine ⟨_, serialize_wire c hw m h, (C24_same_bytes c hw m h).trans (serialize_wire c hw m h), ?_⟩
  have := Ts.deserializeView_wire c hw _ (CTy.fits_tree c hw c hw (CTy.shape_refl c hw) m)
    (CTy.once_tree c hw c hw (CTy.Compat.refl c hw) m) hj (by rw [size_wire c hw m h]; exact h) _
    (Ts.holds_whole _)
  rw [CTy.read_tree c hw m] at this
  exact this

/-- **C25 (evolution).** A TypeScript reader of a compatible type reads every message written in either language;
it gets the content restricted to what it knows. -/
theorem C25_compatible_readers (w r : CTy) (hw : w.WF) (hr : r.WF) (hc : w.Compat r) (m : w.Msg .out)
    (h : size w m < 2 ^ 64) (hj : (w.tree m).JsSafe) :
    ∃ bs v, serialize w m = some bs ∧ Ts.serialize w m = some bs ∧ Ts.deserialize r bs = .ok v ∧
      r.tree v = r.project (w.tree m) := by
  have hcr := CTy.Compat.canRead w hw r hr hc
  obtain ⟨v, hv⟩ := Option.isSome_iff_exists.1 (CTy.CanRead.read w hw r hr hcr m)
  have := Ts.deserializeView_wire r hr _ (CTy.fits_tree w hw r hr (CTy.CanRead.shape w r hcr) m)
    (CTy.once_tree w hw r hr hc m) hj (by rw [size_wire w hw m h]; exact h) _ (Ts.holds_whole _)
  rw [hv] at this
  exact ⟨_, v, serialize_wire w hw m h, (C24_same_bytes w hw m h).trans (serialize_wire w hw m h), this,
    CTy.tree_read r hr _ v hv⟩

/-- **C25 (single changes).** In particular across each single safe change. -/
theorem C25_single_change (a b : CTy) (ha : a.WF) (hb : b.WF) (hc : a.Change b) (m : a.Msg .out)
    (h : size a m < 2 ^ 64) (hj : (a.tree m).JsSafe) :
    ∃ bs v, serialize a m = some bs ∧ Ts.serialize a m = some bs ∧ Ts.deserialize b bs = .ok v ∧
      b.tree v = b.project (a.tree m) :=
  C25_compatible_readers a b ha hb (hc.compat ha hb) m h hj

theorem exampleMsg_jsSafe : (exampleType.tree exampleMsg).JsSafe :=
  have h1 : ¬ [0xEF, 0xBB, 0xBF] <+: ([65] : Bytes) := by decide
  have h2 : ¬ [0xEF, 0xBB, 0xBF] <+: ([] : Bytes) := by decide
  ⟨h1, ⟨⟨trivial, h2, trivial, trivial⟩, trivial⟩, trivial, trivial⟩

example : ∃ bs, serialize exampleType exampleMsg = some bs ∧ Ts.serialize exampleType exampleMsg = some bs ∧
    Ts.deserialize exampleType bs = .ok (exampleType.toIn exampleMsg) :=
  C25_round_trip _ exampleType_wf _ (by decide +kernel) exampleMsg_jsSafe

/-- **C25 (what is excluded).** A string which begins with a byte order mark loses it in TypeScript. -/
theorem C25_bom_witness : ∃ (m : (CTy.struct (.cons 0 .required (.comp .string) .nil)).Msg .out) (bs : Bytes)
    (v v' : (CTy.struct (.cons 0 .required (.comp .string) .nil)).Msg .inn),
    serialize _ m = some bs ∧ deserialize 1000 _ bs = .ok v ∧ Ts.deserialize _ bs = .ok v' ∧
      (v.1 : Utf8).bytes = [0xEF, 0xBB, 0xBF, 65] ∧ (v'.1 : Utf8).bytes = [65] :=
  ⟨((⟨[0xEF, 0xBB, 0xBF, 65], by decide⟩ : Utf8), ()), [7, 9, 0xEF, 0xBB, 0xBF, 65],
    ((⟨[0xEF, 0xBB, 0xBF, 65], by decide⟩ : Utf8), ()), ((⟨[65], by decide⟩ : Utf8), ()), rfl, rfl, rfl, rfl, rfl⟩

/-! ### C26: arbitrary inputs -/

/-- **C26 (partial).** Both decoders have the same outcome - the same value, or failure - on every input which is the
layout of a content of the right shape, without repeated struct fields and without what JavaScript cannot
represent. The fields may come in any order, with any unrecognised fields, required ones may be missing. -/
theorem C26_agree_partial (c : CTy) (hw : c.WF) (lim : Nat) (hlim : lim < 2 ^ 64) (t : Tree) (hf : c.Fits t)
    (ho : c.Once t) (hj : t.JsSafe) (h : 8 * (t.wire false).length ≤ lim) (v : c.Msg .inn) :
    deserialize lim c (t.wire false) = .ok v ↔ Ts.deserialize c (t.wire false) = .ok v := by
  have h1 := deserialize_wire lim hlim c hw t hf h
  have h2 := Ts.deserializeView_wire c hw t hf ho hj (by omega) _ (Ts.holds_whole _)
  cases hr : c.read t with
  | none =>
    rw [hr] at h1 h2
    obtain ⟨e, h1, _⟩ := h1
    constructor
    · intro h; rw [h] at h1; cases h1
    · intro h
      unfold Ts.deserialize at h
      rcases h2 with h2 | h2 <;> rw [h] at h2 <;> cases h2
  | some m =>
    rw [hr] at h1 h2
    simp only [Agrees, Ts.Agrees] at h1 h2
    unfold Ts.deserialize
    rw [h1, h2]
    exact ⟨fun h => by cases h; rfl, fun h => by cases h; rfl⟩

/-- Instance: fields out of order, with an unrecognised one. -/
example : (CTy.struct (.cons 0 .required (.scalar .u64) (.cons 1 .optional .unit .nil))).Once
    (.fields [(5, .bytes [1, 2]), (1, .unit), (0, .scalar .u64 (7 : UInt64))]) := by
  simp [CTy.Once, Fields.OnceAt, Ty.Once, Fields.indices]

/-- **C26 is false as stated (repeated fields).** If a struct contains a field twice, Rust uses the first value and TypeScript the
last one. -/
theorem C26_repeated_field_witness :
    deserialize 1000 (.struct (.cons 0 .optional (.scalar .u64) .nil)) [5, 3, 5, 5] =
      .ok ((some 1 : Option UInt64), ()) ∧
    Ts.deserialize (.struct (.cons 0 .optional (.scalar .u64) .nil)) [5, 3, 5, 5] =
      .ok ((some 2 : Option UInt64), ()) := ⟨rfl, rfl⟩

/-- **C26 is false as stated (truncation).** A truncated `Bytes` field is accepted by Rust and rejected by TypeScript. -/
theorem C26_truncated_field_witness :
    deserialize 1000 (.struct (.cons 0 .optional (.comp .bytes) .nil)) [7, 11, 42] =
      .ok ((some [42] : Option Bytes), ()) ∧
    Ts.deserialize (.struct (.cons 0 .optional (.comp .bytes) .nil)) [7, 11, 42] = .error .range := ⟨rfl, rfl⟩

/-- **C26 is false as stated (truncated unknown field).** Rust does not terminate, TypeScript accepts. -/
theorem C26_truncated_unknown_witness :
    deserialize 1000 (.struct .nil) [7, 5, 1] = .error .hang ∧
    Ts.deserialize (.struct .nil) [7, 5, 1] = .ok () := ⟨rfl, rfl⟩

/-- **C26 is false as stated (text).** A string which is not UTF-8 is rejected by Rust; TypeScript replaces the offending bytes. -/
theorem C26_invalid_utf8_witness :
    deserialize 1000 (.struct (.cons 0 .optional (.comp .string) .nil)) [7, 3, 0xFF] = .error .invalid ∧
    ∃ u : Utf8, u.bytes = [0xEF, 0xBF, 0xBD] ∧
      Ts.deserialize (.struct (.cons 0 .optional (.comp .string) .nil)) [7, 3, 0xFF] =
        .ok ((some u : Option Utf8), ()) := ⟨rfl, ⟨[0xEF, 0xBF, 0xBD], by decide⟩, rfl, rfl⟩

/-! ### C27: views -/

/-- The view of a part of a buffer. -/
def Ts.part (pre s post : Bytes) : Ts.View := ⟨pre ++ s ++ post, pre.length, s.length⟩

/-- **C27 is false as stated.** The deserialiser reads bytes beyond the end of the view it is given: the result depends on
what follows in the underlying buffer. -/
theorem C27_overread_witness :
    Ts.deserializeView (.struct (.cons 0 .optional (.comp .bytes) .nil)) (Ts.part [] [7, 3] [42]) =
      .ok ((some [42] : Option Bytes), ()) ∧
    Ts.deserializeView (.struct (.cons 0 .optional (.comp .bytes) .nil)) (Ts.part [] [7, 3] [43]) =
      .ok ((some [43] : Option Bytes), ()) := ⟨rfl, rfl⟩

/-- **C27 (partial).** Whenever the bytes of the view, taken as a buffer of their own, are accepted, the view of the
larger buffer gives the same result, whatever surrounds it. (So bytes outside of the view can only matter for
inputs which would be rejected on their own.) Arbitrary bytes, arbitrary types. -/
theorem C27_inside_partial (c : CTy) (pre s post : Bytes) (v : c.Msg .inn) (h : Ts.deserialize c s = .ok v) :
    Ts.deserializeView c (Ts.part pre s post) = .ok v :=
  Ts.deserializeView_emb c ⟨s, 0, s.length⟩ (Ts.part pre s post)
    ⟨pre, post, rfl, rfl, rfl, Nat.le_of_eq (Nat.zero_add _)⟩ v h

/-- **C27 (messages).** Every message written in either language is read correctly from the middle of a larger
buffer. -/
theorem C27_messages (c : CTy) (hw : c.WF) (m : c.Msg .out) (h : size c m < 2 ^ 64) (hj : (c.tree m).JsSafe)
    (pre post : Bytes) :
    ∃ bs, serialize c m = some bs ∧ Ts.deserializeView c (Ts.part pre bs post) = .ok (c.toIn m) := by
  obtain ⟨bs, h1, _, h3⟩ := C25_round_trip c hw m h hj
  exact ⟨bs, h1, C27_inside_partial c pre bs post _ h3⟩

example : ∃ bs, serialize exampleType exampleMsg = some bs ∧
    Ts.deserializeView exampleType (Ts.part [1, 2, 3] bs [4]) = .ok (exampleType.toIn exampleMsg) :=
  C27_messages _ exampleType_wf _ (by decide +kernel) exampleMsg_jsSafe _ _

/-! ### C46: termination -/

/-- **C46.** The TypeScript deserialiser terminates on every input: no loop makes more rounds than the length of
its view plus one; the outcome is a value, a `RangeError` or the error for missing fields. -/
theorem C46_terminates (c : CTy) (v : Ts.View) :
    (∃ m, Ts.deserializeView c v = .ok m) ∨ Ts.deserializeView c v = .error .range ∨
      Ts.deserializeView c v = .error .missing := by
  have := Ts.deserializeView_fuel c v
  cases h : Ts.deserializeView c v with
  | ok m => exact .inl ⟨m, rfl⟩
  | error e =>
    rw [h] at this
    cases e with
    | range => simp
    | missing => simp
    | fuel => exact absurd rfl this

example : Ts.deserialize (.struct (.cons 0 .required .unit .nil)) [] = .error .missing := rfl

end Typical

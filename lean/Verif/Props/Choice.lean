import Verif.LoopLemmas

/-!
# Properties C14 and C15: reading choices (generated Rust code)
-/

namespace Typical

theorem readChain_skip {α β : Type} (f : Nat → Tree → Option (Option (α ⊕ β))) (pre l : List (Nat × Tree))
    (h : ∀ p ∈ pre, f p.1 p.2 = none) : readChain f (pre ++ l) = readChain f l := by
  induction pre with
  | nil => rfl
  | cons p pre ih =>
    obtain ⟨i, t⟩ := p
    rw [List.cons_append, readChain, h (i, t) (by simp)]
    exact ih (fun q hq => h q (by simp [hq]))

/-- **C14 (no fallback).** If the first recognised field of a chain is required or asymmetric for the
reader and its value can be read, the result is that field with that value, without fallback; whatever
comes later is ignored. -/
theorem C14_first_recognised (gs : Fields) (hw : (CTy.choice gs).WF) (lim : Nat) (hlim : lim < 2 ^ 64)
    (pre post : List (Nat × Tree)) (i : Nat) (tr : Tree) (r : Rule) (t : Ty)
    (hf : (CTy.choice gs).Fits (.fields (pre ++ (i, tr) :: post)))
    (hl : 8 * (Tree.wireFields (pre ++ (i, tr) :: post)).length ≤ lim)
    (hpre : ∀ p ∈ pre, p.1 ∉ gs.indices) (hi : gs.lookup i = some (r, t)) (hr : r ≠ .optional)
    (v : t.Msg .inn) (hv : t.read tr = some v) :
    ∃ b : gs.Sel .inn false,
      deserialize lim (.choice gs) (Tree.wireFields (pre ++ (i, tr) :: post)) = .ok (.last b) ∧
      gs.treeSel b = (i, t.tree v) := by
  have d := deserialize_wire lim hlim (.choice gs) hw (.fields (pre ++ (i, tr) :: post)) hf
    (by simpa only [Tree.wire] using hl)
  have hk := Fields.readVariant_known gs i tr r t hi
  rw [hv] at hk
  obtain ⟨x, h1, h2⟩ := hk
  simp only [Tree.wire, CTy.read] at d
  rw [readChain_skip _ _ _ (fun p hp => Fields.readVariant_unknown gs p.1 p.2 (hpre p hp)), readChain, h1] at d
  cases x with
  | inl a => exact absurd h2.1 hr
  | inr b => exact ⟨b, d, h2.2⟩

/-- **C14 (fallback).** If the first recognised field of a chain is optional for the reader, the result is
that field, and its fallback is what the reader gets from the rest of the chain. -/
theorem C14_optional_fallback (gs : Fields) (hw : (CTy.choice gs).WF) (lim : Nat) (hlim : lim < 2 ^ 64)
    (pre post : List (Nat × Tree)) (i : Nat) (tr : Tree) (t : Ty)
    (hf : (CTy.choice gs).Fits (.fields (pre ++ (i, tr) :: post)))
    (hl : 8 * (Tree.wireFields (pre ++ (i, tr) :: post)).length ≤ lim)
    (hpre : ∀ p ∈ pre, p.1 ∉ gs.indices) (hi : gs.lookup i = some (.optional, t))
    (v : t.Msg .inn) (hv : t.read tr = some v)
    (fallback : (CTy.choice gs).Msg .inn)
    (hfb : deserialize lim (.choice gs) (Tree.wireFields post) = .ok fallback) :
    ∃ a : gs.Sel .inn true,
      deserialize lim (.choice gs) (Tree.wireFields (pre ++ (i, tr) :: post)) = .ok (.more a fallback) ∧
      gs.treeSel a = (i, t.tree v) := by
  have d := deserialize_wire lim hlim (.choice gs) hw (.fields (pre ++ (i, tr) :: post)) hf
    (by simpa only [Tree.wire] using hl)
  have hlen : (Tree.wireFields post).length ≤ (Tree.wireFields (pre ++ (i, tr) :: post)).length := by
    rw [wireFields_append, Tree.wireFields, List.length_append, List.length_append]
    omega
  have hf' : (CTy.choice gs).Fits (.fields post) := by
    simp only [CTy.Fits, List.mem_append, List.mem_cons] at hf ⊢
    exact fun p hp => hf p (.inr (.inr hp))
  have d' := deserialize_wire lim hlim (.choice gs) hw (.fields post) hf' (by simp only [Tree.wire]; omega)
  have hk := Fields.readVariant_known gs i tr .optional t hi
  rw [hv] at hk
  obtain ⟨x, h1, h2⟩ := hk
  simp only [Tree.wire, CTy.read] at d d'
  rw [readChain_skip _ _ _ (fun p hp => Fields.readVariant_unknown gs p.1 p.2 (hpre p hp)), readChain, h1] at d
  cases hr : readChain gs.readVariant post with
  | none =>
    rw [hr] at d'
    obtain ⟨e, h3, _⟩ := d'
    rw [h3] at hfb
    cases hfb
  | some m =>
    rw [hr] at d' d
    simp only [Agrees] at d'
    rw [d'] at hfb
    cases hfb
    cases x with
    | inr b => exact absurd rfl h2.1
    | inl a => exact ⟨a, d, h2.2⟩

/-- Instance: unknown field 5, then optional 1, then unknown 6, then required 0. -/
example : ∃ a : (Fields.cons 0 .required .unit (.cons 1 .optional (.scalar .u64) .nil)).Sel .inn true,
    deserialize 1000 (.choice (.cons 0 .required .unit (.cons 1 .optional (.scalar .u64) .nil)))
      (Tree.wireFields ([(5, .bytes [1, 2])] ++ (1, .scalar .u64 (7 : UInt64)) :: [(6, .unit), (0, .unit)])) =
      .ok (.more a (.last (.inl ⟨(), rfl⟩))) ∧
    (Fields.cons 0 .required .unit (.cons 1 .optional (.scalar .u64) .nil)).treeSel a =
      (1, .scalar .u64 (7 : UInt64)) :=
  C14_optional_fallback _ (by simp [CTy.WF, Fields.WF, Ty.WF, Fields.indices]) 1000 (by decide) _ _ 1 _
    (.scalar .u64) (by simp [CTy.Fits, Fields.FitsAt, Ty.Fits]) (by decide +kernel)
    (by simp [Fields.indices]) rfl (7 : UInt64) rfl _ rfl

/-- Instance of the other case: unknown field 5, then asymmetric 1, then an unreadable tail. -/
example : ∃ b : (Fields.cons 0 .required .unit (.cons 1 .asymmetric (.scalar .u64) .nil)).Sel .inn false,
    deserialize 1000 (.choice (.cons 0 .required .unit (.cons 1 .asymmetric (.scalar .u64) .nil)))
      (Tree.wireFields ([(5, .bytes [1, 2])] ++ (1, .scalar .u64 (7 : UInt64)) :: [(6, .unit)])) = .ok (.last b) ∧
    (Fields.cons 0 .required .unit (.cons 1 .asymmetric (.scalar .u64) .nil)).treeSel b =
      (1, .scalar .u64 (7 : UInt64)) :=
  C14_first_recognised _ (by simp [CTy.WF, Fields.WF, Ty.WF, Fields.indices]) 1000 (by decide) _ _ 1 _
    .asymmetric (.scalar .u64) (by simp [CTy.Fits, Fields.FitsAt, Ty.Fits]) (by decide +kernel)
    (by simp [Fields.indices]) rfl (by decide) (7 : UInt64) rfl

/-- **C15.** If deserialisation of any bytes as a choice succeeds, the bytes contain a header with the index of a field
which is required or asymmetric for the reader. -/
theorem C15_recognised_field_present (gs : Fields) (lim : Nat) (s : Bytes)
    (v : (CTy.choice gs).Msg .inn) (h : deserialize lim (.choice gs) s = .ok v) :
    ∃ body i n r, body <:+ s ∧ deserializeFieldHeader body = some (i, n, r) ∧
      gs.Has i (· ≠ .optional) := by
  simp only [deserialize, CTy.deser] at h
  cases hl : choiceLoop (gs.select lim) (s.length + 1) s with
  | error e => rw [hl] at h; cases h
  | ok m =>
    exact choiceLoop_inv (gs.select lim)
      (fun i n s a rest h => Fields.select_suffix gs i n s a rest h)
      (fun i => gs.Has i (· ≠ .optional))
      (fun i n s b rest h => Fields.select_last gs i n s b rest h) _ s m hl

/-- **C15 (well-formed inputs).** A well-formed chain without a field that is required or asymmetric for the
reader gives `UnexpectedEof` or `InvalidData`. -/
theorem C15_no_recognised_field (gs : Fields) (hw : (CTy.choice gs).WF) (lim : Nat) (hlim : lim < 2 ^ 64)
    (l : List (Nat × Tree)) (hf : (CTy.choice gs).Fits (.fields l))
    (hl : 8 * (Tree.wireFields l).length ≤ lim) (h : ∀ p ∈ l, ¬ gs.Has p.1 (· ≠ .optional)) :
    deserialize lim (.choice gs) (Tree.wireFields l) = .error .eof ∨
    deserialize lim (.choice gs) (Tree.wireFields l) = .error .invalid := by
  have d := deserialize_wire lim hlim (.choice gs) hw (.fields l) hf (by simpa only [Tree.wire] using hl)
  simp only [Tree.wire, CTy.read] at d
  rw [Fields.readChain_missing gs l h] at d
  obtain ⟨e, h1, h2 | h2⟩ := d
  · exact .inl (h2 ▸ h1)
  · exact .inr (h2 ▸ h1)

example : deserialize 1000 (.choice (.cons 0 .required .unit (.cons 1 .optional (.scalar .u64) .nil)))
    (Tree.wireFields [(5, .unit), (1, .scalar .u64 (7 : UInt64))]) = .error .eof := rfl

end Typical

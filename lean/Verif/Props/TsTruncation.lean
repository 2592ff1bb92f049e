import Verif.TsCutLemmas
import Verif.Props.TypeScript
import Verif.Props.Truncation

/-!
# Property C66: messages which are cut off, read in TypeScript
-/

namespace Typical

/-- **C66 (structs).** Let a message be cut off after any number of bytes. What remains are some complete fields and a part `q` of a
further field. A TypeScript struct which can read the message gets exactly what it gets from the complete fields alone (in particular the
`Error` about missing fields if a required one is not among them); only if it knows the field which is cut off and the header of that
field is complete, it gets a `RangeError`. So it never gets a part of a value. -/
theorem C66_struct (w : CTy) (gs : Fields) (hw : w.WF) (hr : (CTy.struct gs).WF) (hc : w.Compat (.struct gs)) (m : w.Msg .out)
    (h : size w m < 2 ^ 64) (hj : (w.tree m).JsSafe) :
    ∃ bs, serialize w m = some bs ∧ Ts.serialize w m = some bs ∧ ∀ p, p <+: bs → p.length < bs.length →
      ∃ before i t after q, w.tree m = .fields (before ++ (i, t) :: after) ∧ p = Tree.wireFields before ++ q ∧
        q <+: Spec.field i t.isInteger (t.wire true) ∧ q.length < (Spec.field i t.isInteger (t.wire true)).length ∧
        ((i ∈ gs.indices ∧ Tree.HeaderComplete i t q) → Ts.deserialize (.struct gs) p = .error .range) ∧
        (¬ (i ∈ gs.indices ∧ Tree.HeaderComplete i t q) →
          (∃ v, (CTy.struct gs).read (.fields before) = some v ∧ Ts.deserialize (.struct gs) p = .ok v) ∨
          ((CTy.struct gs).read (.fields before) = none ∧ Ts.deserialize (.struct gs) p = .error .missing)) := by
  refine ⟨_, serialize_wire w hw m h, (C24_same_bytes w hw m h).trans (serialize_wire w hw m h), fun p hp hl => ?_⟩
  have hcr := CTy.Compat.canRead w hw _ hr hc
  have hfit := CTy.fits_tree w hw _ hr (CTy.CanRead.shape w _ hcr) m
  have honce := CTy.once_tree w hw _ hr hc m
  have hlen := size_wire w hw m h
  obtain ⟨l, hl'⟩ : ∃ l, w.tree m = .fields l := by
    cases w <;> simp only [CTy.Compat, reduceCtorEq] at hc <;> exact ⟨_, rfl⟩
  simp only [CTy.WF] at hr
  have hread := CTy.CanRead.read_fields w hw gs hr.2 (.inl hcr) m hl'
  rw [hl'] at hp hl hfit honce hlen hj
  simp only [Tree.wire] at hp hl hlen
  obtain ⟨before, i, t, after, q, e1, e2, h3, h4⟩ := wireFields_cut l p hp hl
  refine ⟨before, i, t, after, q, by rw [hl', e1], e2, h3, h4, ?_⟩
  simp only [CTy.Fits] at hfit
  simp only [CTy.Once] at honce
  simp only [Tree.JsSafe] at hj
  have hsub : ∀ x ∈ before, x ∈ l := fun x hx => by rw [e1]; simp [hx]
  have hmem : ∀ x ∈ l, (Spec.field x.1 x.2.isInteger (x.2.wire true)).length < 2 ^ 64 := by
    intro x hx
    have := length_le_flatMap (fun p : Nat × Tree => Spec.field p.1 p.2.isInteger (p.2.wire true)) hx
    rw [← wireFields_eq] at this
    omega
  have hwlt : ∀ x ∈ l, (x.2.wire true).length < 2 ^ 64 := by
    intro x hx
    have := hmem x hx
    rw [Spec.field, List.length_append] at this
    omega
  have hit : (i, t) ∈ l := by rw [e1]; simp
  obtain ⟨st, hst⟩ := Fields.tsFold_isSome gs before gs.emptySlots (fun x hx => hread x (hsub x hx))
  have hone : ∀ j ∈ gs.indices, (before.filter (fun p => p.1 == j)).length ≤ 1 := by
    intro j hj'
    refine Nat.le_trans ?_ (honce.1 j hj')
    rw [e1, List.filter_append, List.length_append]
    omega
  have hrd : (CTy.struct gs).read (.fields before) = gs.finish st := by
    show gs.readStruct before = _
    rw [← Ts.foldlM_finish gs hr.1 before hone, hst]
    rfl
  have hblt : (Tree.wireFields before).length < 2 ^ 64 := by
    have := hp.length_le
    rw [e2, List.length_append] at this
    omega
  have loop : ∀ res : gs.Slots → Except Ts.Err gs.Slots,
      (∀ fuel off st, q.length < fuel → Ts.Holds ⟨p, 0, p.length⟩ off q → Ts.structLoop (Ts.fieldsStep gs) ⟨p, 0, p.length⟩ fuel off st = res st) →
      Ts.structLoop (Ts.fieldsStep gs) ⟨p, 0, p.length⟩ (p.length + 1) 0 gs.emptySlots = res st := by
    intro res htail
    refine Ts.structLoop_tail _ _ (Ts.stepTree gs) before q res (fun x hx => (hfit x (hsub x hx)).1)
      (fun x hx st w' hw' => Ts.fieldsStep_wire gs hr.2 x.1 x.2 (hfit x (hsub x hx)).2 (honce.2 x (hsub x hx))
        (Ts.mem_fields hj (hsub x hx)) (hwlt x (hsub x hx)) w' hw' st) htail _ _ _ _ ?_ hblt ?_ hst
    · rw [e2, List.length_append]; omega
    · have := Ts.holds_whole p
      rw [e2] at this ⊢
      exact this
  have fin : ∀ r, Ts.structLoop (Ts.fieldsStep gs) ⟨p, 0, p.length⟩ (p.length + 1) 0 gs.emptySlots = r →
      Ts.deserialize (.struct gs) p = match r with
        | .error e => .error e
        | .ok s => match gs.finish s with | none => .error .missing | some v => .ok v := by
    intro r hr'
    rw [Ts.deserialize, Ts.deserializeView, Ts.cDeser, hr']
    cases r with
    | error e => rfl
    | ok s => simp only; cases gs.finish s <;> rfl
  have hcut := fun {off : Nat} (hh : Ts.Holds ⟨p, 0, p.length⟩ off q) => Ts.header_cut (v := ⟨p, 0, p.length⟩) (by simp)
    (hfit (i, t) hit).1 (hwlt (i, t) hit) hh h3 h4 t.wire_integer
  constructor
  · intro hk
    have := loop (fun _ => .error .range) ?_
    · rw [fin _ this]
    · intro fuel off st' hf hh
      rcases hcut hh with ⟨-, hn⟩ | ⟨-, -, off', h5, h6, h7⟩
      · exact absurd hk.2 hn
      · cases fuel with
        | zero => omega
        | succ fuel =>
          rw [Ts.structLoop, h5]
          simp only [h6, Ts.fieldsStep_beyond, if_pos hk.1]
  · intro hk
    have := loop .ok ?_
    · rw [fin _ this, hrd]
      simp only
      cases gs.finish st with
      | none => exact .inr ⟨rfl, rfl⟩
      | some v => exact .inl ⟨v, rfl, rfl⟩
    · intro fuel off st' hf hh
      cases fuel with
      | zero => omega
      | succ fuel =>
        rcases hcut hh with ⟨h5, -⟩ | ⟨hc', hq, off', h5, h6, h7⟩
        · rw [Ts.structLoop, h5]
        · have hni : i ∉ gs.indices := fun hi => hk ⟨hi, hc'⟩
          rw [Ts.structLoop, h5]
          simp only [h6, Ts.fieldsStep_beyond, if_neg hni]
          cases fuel with
          | zero => omega
          | succ fuel => rw [Ts.structLoop, Ts.header_beyond h7]

/-- **C66 (choices).** A TypeScript choice which can read the message gets exactly what it gets from the complete fields alone, and a
`RangeError` if that is nothing. -/
theorem C66_choice (w : CTy) (gs : Fields) (hw : w.WF) (hr : (CTy.choice gs).WF) (hc : w.Compat (.choice gs)) (m : w.Msg .out)
    (h : size w m < 2 ^ 64) (hj : (w.tree m).JsSafe) :
    ∃ bs, serialize w m = some bs ∧ Ts.serialize w m = some bs ∧ ∀ p, p <+: bs → p.length < bs.length →
      ∃ before i t after q, w.tree m = .fields (before ++ (i, t) :: after) ∧ p = Tree.wireFields before ++ q ∧
        q <+: Spec.field i t.isInteger (t.wire true) ∧ q.length < (Spec.field i t.isInteger (t.wire true)).length ∧
        ((∃ v, (CTy.choice gs).read (.fields before) = some v ∧ Ts.deserialize (.choice gs) p = .ok v) ∨
          ((CTy.choice gs).read (.fields before) = none ∧ Ts.deserialize (.choice gs) p = .error .range)) := by
  refine ⟨_, serialize_wire w hw m h, (C24_same_bytes w hw m h).trans (serialize_wire w hw m h), fun p hp hl => ?_⟩
  have hcr := CTy.Compat.canRead w hw _ hr hc
  have hfit := CTy.fits_tree w hw _ hr (CTy.CanRead.shape w _ hcr) m
  have honce := CTy.once_tree w hw _ hr hc m
  have hlen := size_wire w hw m h
  obtain ⟨l, hl'⟩ : ∃ l, w.tree m = .fields l := by
    cases w <;> simp only [CTy.Compat, reduceCtorEq] at hc <;> exact ⟨_, rfl⟩
  simp only [CTy.WF] at hr
  have hread := CTy.CanRead.read_fields w hw gs hr.2 (.inr hcr) m hl'
  rw [hl'] at hp hl hfit honce hlen hj
  simp only [Tree.wire] at hp hl hlen
  obtain ⟨before, i, t, after, q, e1, e2, h3, h4⟩ := wireFields_cut l p hp hl
  refine ⟨before, i, t, after, q, by rw [hl', e1], e2, h3, h4, ?_⟩
  simp only [CTy.Fits] at hfit
  simp only [CTy.Once] at honce
  simp only [Tree.JsSafe] at hj
  have hsub : ∀ x ∈ before, x ∈ l := fun x hx => by rw [e1]; simp [hx]
  have hmem : ∀ x ∈ l, (Spec.field x.1 x.2.isInteger (x.2.wire true)).length < 2 ^ 64 := by
    intro x hx
    have := length_le_flatMap (fun p : Nat × Tree => Spec.field p.1 p.2.isInteger (p.2.wire true)) hx
    rw [← wireFields_eq] at this
    omega
  have hwlt : ∀ x ∈ l, (x.2.wire true).length < 2 ^ 64 := by
    intro x hx
    have := hmem x hx
    rw [Spec.field, List.length_append] at this
    omega
  have hit : (i, t) ∈ l := by rw [e1]; simp
  have hblt : (Tree.wireFields before).length < 2 ^ 64 := by
    have := hp.length_le
    rw [e2, List.length_append] at this
    omega
  have loop : Ts.choiceLoop (Ts.fieldsSelect gs) (p.length + 1) ⟨p, 0, p.length⟩ 0 = Ts.orRange (readChain gs.readVariant before) := by
    refine Ts.choiceLoop_tail (Ts.fieldsSelect gs) gs.readVariant before q (fun x hx => (hfit x (hsub x hx)).1)
      (fun x hx w' hw' => Ts.fieldsSelect_wire gs hr.2 x.1 x.2 (hfit x (hsub x hx)).2 (honce x (hsub x hx))
        (Ts.mem_fields hj (hsub x hx)) (hwlt x (hsub x hx)) w' hw')
      (fun x hx => Fields.readVariant_ne gs x (hread x (hsub x hx))) ?_ _ _ _ ?_ (by simp) hblt ?_
    · intro fuel v off hf hb hh
      cases fuel with
      | zero => omega
      | succ fuel =>
        rcases Ts.header_cut hb (hfit (i, t) hit).1 (hwlt (i, t) hit) hh h3 h4 t.wire_integer with ⟨h5, -⟩ | ⟨-, hq, off', h5, h6, h7⟩
        · rw [Ts.choiceLoop, h5]
        · rw [Ts.choiceLoop, h5]
          simp only [h6]
          rcases Ts.fieldsSelect_beyond gs i (t.wire true).length with e | e <;> rw [e]
          cases fuel with
          | zero => omega
          | succ fuel => simp only; rw [Ts.choiceLoop, Ts.header_beyond h7]
    · rw [e2, List.length_append]; omega
    · have := Ts.holds_whole p
      rw [e2] at this ⊢
      exact this
  have hd : Ts.deserialize (.choice gs) p = Ts.orRange (readChain gs.readVariant before) := by
    rw [Ts.deserialize, Ts.deserializeView, Ts.cDeser]
    simp only [loop]
    cases readChain gs.readVariant before <;> rfl
  show (∃ v, readChain gs.readVariant before = some v ∧ _) ∨ (readChain gs.readVariant before = none ∧ _)
  rw [hd]
  cases readChain gs.readVariant before with
  | none => exact .inr ⟨rfl, rfl⟩
  | some v => exact .inl ⟨v, rfl, rfl⟩

/-- **C66 (what can be lost).** If a TypeScript struct accepts a message which is cut off, then it gets the content of some leading
fields, all complete, and none of the fields which are lost is required. -/
theorem C66_accepted (w : CTy) (gs : Fields) (hw : w.WF) (hr : (CTy.struct gs).WF) (hc : w.Compat (.struct gs)) (m : w.Msg .out)
    (h : size w m < 2 ^ 64) (hj : (w.tree m).JsSafe) (bs : Bytes) (hbs : serialize w m = some bs) (p : Bytes) (hp : p <+: bs)
    (hl : p.length < bs.length) (v : (CTy.struct gs).Msg .inn) (hv : Ts.deserialize (.struct gs) p = .ok v) :
    ∃ before lost, w.tree m = .fields (before ++ lost) ∧ lost ≠ [] ∧
      (CTy.struct gs).tree v = (CTy.struct gs).project (.fields before) ∧ ∀ x ∈ lost, ¬ gs.Has x.1 (· = .required) := by
  obtain ⟨bs', h1, -, h2⟩ := C66_struct w gs hw hr hc m h hj
  rw [hbs] at h1
  cases h1
  obtain ⟨before, i, t, after, q, h3, -, -, -, h4, h5⟩ := h2 p hp hl
  have hno : ¬ (i ∈ gs.indices ∧ Tree.HeaderComplete i t q) := fun h => by rw [h4 h] at hv; cases hv
  rcases h5 hno with ⟨v', h6, h7⟩ | ⟨-, h7⟩
  · rw [hv] at h7
    cases h7
    refine ⟨before, (i, t) :: after, h3, by simp, CTy.tree_read _ hr _ v h6, fun x hx hreq => ?_⟩
    have honce := CTy.once_tree w hw _ hr hc m
    rw [h3] at honce
    have hone := honce.1 x.1 hreq.mem
    by_cases hb : ∃ y ∈ before, y.1 = x.1
    · obtain ⟨y, hy, he⟩ := hb
      rw [List.filter_append, List.length_append] at hone
      have a1 : 0 < (before.filter (fun p => p.1 == x.1)).length :=
        List.length_pos_iff.mpr (List.ne_nil_of_mem (List.mem_filter.mpr ⟨hy, by simp [he]⟩))
      have a2 : 0 < (((i, t) :: after).filter (fun p => p.1 == x.1)).length :=
        List.length_pos_iff.mpr (List.ne_nil_of_mem (List.mem_filter.mpr ⟨hx, by simp⟩))
      omega
    · have := Fields.readStruct_missing gs before x.1 hreq (fun y hy e => hb ⟨y, hy, e⟩)
      have h6' : gs.readStruct before = some v := h6
      rw [this] at h6'
      cases h6'
  · rw [hv] at h7; cases h7

/-- A message which Rust accepts although the value of a field is cut off (C63) is rejected in TypeScript. -/
example : deserialize 100 cutType [5, 15, 15, 7, 1] = .ok ((7 : UInt64), ([1] : Bytes), ()) ∧
    Ts.deserialize cutType [5, 15, 15, 7, 1] = .error .range := ⟨rfl, rfl⟩

/-- **C66 (truncation is not always detected).** A TypeScript reader can accept a message which is cut off: here an optional field is
lost, since its header is cut off. -/
theorem C66_undetected_witness :
    serialize (.struct (.cons 0 .required (.scalar .u64) (.cons 1 .optional (.comp .bytes) .nil)))
      ((7 : UInt64), some ([1, 2, 3] : Bytes), ()) = some [5, 15, 15, 7, 1, 2, 3] ∧
    Ts.deserialize (.struct (.cons 0 .required (.scalar .u64) (.cons 1 .optional (.comp .bytes) .nil))) [5, 15, 15] =
      .ok ((7 : UInt64), none, ()) ∧
    Ts.deserialize (.struct (.cons 0 .required (.scalar .u64) (.cons 1 .optional (.comp .bytes) .nil))) [5, 15, 15, 7] =
      .error .range := ⟨by decide +kernel, rfl, rfl⟩

/-- The hypotheses are met by a type with structs, choices, arrays and strings. -/
example (bs : Bytes) (hbs : serialize exampleType exampleMsg = some bs) (p : Bytes) (hp : p <+: bs) (hl : p.length < bs.length)
    (v : exampleType.Msg .inn) (hv : Ts.deserialize exampleType p = .ok v) :
    ∃ before lost, exampleType.tree exampleMsg = .fields (before ++ lost) ∧ lost ≠ [] :=
  let ⟨b, l, h1, h2, _⟩ := C66_accepted _ _ exampleType_wf exampleType_wf (CTy.Compat.refl _ exampleType_wf) _ (by decide +kernel)
    exampleMsg_jsSafe bs hbs p hp hl v hv
  ⟨b, l, h1, h2⟩

end Typical

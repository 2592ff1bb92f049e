import Verif.ReadableLemmas
import Verif.Props.Compat

/-!
# Property C61: the documented conditions for safe changes are exact
-/

namespace Typical

/-- Some message of `w` cannot be read by a reader of type `r`: decoding what was written for it is an error. (Here `lim` is the memory
which can be reserved, see C13; messages of 2^64 bytes and more cannot be written.) -/
def Rejects (w r : CTy) : Prop :=
  ∃ m : w.Msg .out, ∀ lim, lim < 2 ^ 64 → 8 * size w m ≤ lim →
    ∃ bs e, serialize w m = some bs ∧ deserialize lim r bs = .error e ∧ (e = .eof ∨ e = .invalid)

/-- **C61 (sufficient).** If the reader's type satisfies the condition `Readable`, every message can be read, and the shared fields carry
the written values. This is weaker than the condition of C16. -/
theorem C61_sufficient (w r : CTy) (hw : w.WF) (hr : r.WF) (hs : w.Shape r) (h : w.Readable r) : Reads w r := by
  intro lim hlim m hsz
  have hlt : size w m < 2 ^ 64 := by omega
  obtain ⟨v, hv⟩ := Option.isSome_iff_exists.1 (CTy.Readable.read w hw r hr h m)
  have d := deserialize_wire lim hlim r hr _ (CTy.fits_tree w hw r hr hs m) (by rw [size_wire w hw m hlt]; exact hsz)
  rw [hv] at d
  exact ⟨_, v, serialize_wire w hw m hlt, d, CTy.tree_read r hr _ v hv⟩

/-- **C61 (weaker than C16).** -/
theorem C61_weaker (w r : CTy) (hw : w.WF) (h : w.CanRead r) : w.Readable r := CTy.CanRead.readable w hw r h

/-- **C61 (necessary).** If all types of the writer have messages and the reader's type violates the condition anywhere, at any depth,
then there is a message which the reader rejects. -/
theorem C61_necessary (w r : CTy) (hw : w.WF) (hr : r.WF) (hs : w.Shape r) (hp : w.Productive) (h : ¬ w.Readable r) :
    Rejects w r := by
  have hex : ∃ m : w.Msg .out, r.read (w.tree m) = none := by
    apply Classical.byContradiction
    intro hno
    apply h
    refine CTy.Readable.necessary w hw hp r hr (fun m _ => ?_)
    cases hm : r.read (w.tree m) with
    | none => exact absurd ⟨m, hm⟩ hno
    | some v => rfl
  obtain ⟨m, hm⟩ := hex
  refine ⟨m, fun lim hlim hsz => ?_⟩
  have hlt : size w m < 2 ^ 64 := by omega
  have d := deserialize_wire lim hlim r hr _ (CTy.fits_tree w hw r hr hs m) (by rw [size_wire w hw m hlt]; exact hsz)
  rw [hm] at d
  obtain ⟨e, h1, h2⟩ := d
  exact ⟨_, e, serialize_wire w hw m hlt, h1, h2⟩

/-- **C61 (types without messages).** What is excluded by `Productive`: a choice without a required field has no messages at all. -/
theorem C61_unproductive (fs : Fields) (h : ∀ i, ¬ fs.Has i (· = .required)) (hn : fs.indices.Nodup) :
    ¬ Nonempty ((CTy.choice fs).Msg .out) := by
  rintro ⟨m⟩
  obtain ⟨p, -, hp⟩ := Fields.chain_has fs hn m
  exact h _ hp

/-- **C61 (types with messages).** Productive types have messages. -/
theorem C61_productive (c : CTy) (h : c.Productive) : Nonempty (c.Msg .out) := CTy.Productive.nonempty c h

/-- **C61 (the documented rules).** For two versions of a type in which no struct became a choice or vice versa: if they are related by the
documented rules - optional and asymmetric fields may come and go, rules may change to and from asymmetric, at any depth - then each can
read the other's messages; otherwise one of them rejects a message of the other. -/
theorem C61_rules_exact (a b : CTy) (ha : a.WF) (hb : b.WF) (hpa : a.Productive) (hpb : b.Productive) (hk : a.SameKind b) :
    (a.Compat b → Reads a b ∧ Reads b a) ∧ (¬ a.Compat b → Rejects a b ∨ Rejects b a) := by
  refine ⟨C17_compatible_safe a b ha hb, fun h => ?_⟩
  by_cases h1 : a.Readable b
  · by_cases h2 : b.Readable a
    · exact absurd (CTy.Readable.compat a ha b hb hk h1 h2) h
    · exact .inr (C61_necessary b a hb ha (CTy.SameKind.shape _ _ (CTy.SameKind.symm b hb a ha hk)) hpb h2)
  · exact .inl (C61_necessary a b ha hb (CTy.SameKind.shape _ _ hk) hpa h1)

/-! ### Instances -/

/-- A struct which contains an array of structs with one optional field, and the version in which that field is required. -/
def optionalInside : CTy := .struct (.cons 3 .required (.comp (.array (.struct (.cons 0 .optional (.scalar .u64) .nil)))) .nil)
def requiredInside : CTy := .struct (.cons 3 .required (.comp (.array (.struct (.cons 0 .required (.scalar .u64) .nil)))) .nil)

example : Rejects optionalInside requiredInside := by
  refine C61_necessary _ _ ?_ ?_ ?_ ?_ ?_
  · simp [optionalInside, CTy.WF, Fields.WF, Ty.WF, Fields.indices]
  · simp [requiredInside, CTy.WF, Fields.WF, Ty.WF, Fields.indices]
  · refine ⟨?_, trivial⟩
    intro r' t' h
    simp [Fields.lookup] at h
    rw [← h.2]
    refine ⟨?_, trivial⟩
    intro r' t' h
    simp [Fields.lookup] at h
    rw [← h.2]
    rfl
  · simp [optionalInside, CTy.Productive, Fields.Productive, Ty.Productive]
  · rintro ⟨⟨h, -⟩, -⟩
    have h : CTy.Readable (.struct (.cons 0 .optional (.scalar .u64) .nil)) (.struct (.cons 0 .required (.scalar .u64) .nil)) :=
      h .required (.comp (.array (.struct (.cons 0 .required (.scalar .u64) .nil)))) rfl
    have := h.2 0 ⟨_, _, Fields.lookup_cons_self _ _ _ _, rfl⟩
    obtain ⟨r, t, h1, h2⟩ := this
    simp [Fields.lookup] at h1
    exact h2 h1.1.symm

/-- The condition of C16 is not necessary: a struct is read as a choice, and the second field, which has an incompatible value, is never
looked at, because the first one is always written. -/
theorem C61_canRead_witness :
    let w : CTy := .struct (.cons 0 .required .unit (.cons 1 .optional (.comp (.choice (.cons 5 .required .unit .nil))) .nil))
    let r : CTy := .choice (.cons 0 .required .unit (.cons 1 .optional (.comp (.choice (.cons 6 .required .unit .nil))) .nil))
    w.WF ∧ r.WF ∧ w.Productive ∧ Reads w r ∧ ¬ w.CanRead r := by
  refine ⟨by simp [CTy.WF, Fields.WF, Ty.WF, Fields.indices], by simp [CTy.WF, Fields.WF, Ty.WF, Fields.indices], ?_, ?_, ?_⟩
  · simp only [CTy.Productive, Fields.Productive, Ty.Productive, and_true, true_and]
    exact ⟨5, _, _, Fields.lookup_cons_self _ _ _ _, rfl⟩
  · refine C61_sufficient _ _ (by simp [CTy.WF, Fields.WF, Ty.WF, Fields.indices])
      (by simp [CTy.WF, Fields.WF, Ty.WF, Fields.indices]) ?_ ?_
    · refine ⟨?_, ?_, trivial⟩
      · intro r' t' h
        simp [Fields.lookup] at h
        rw [← h.2]; rfl
      · intro r' t' h
        simp [Fields.lookup] at h
        rw [← h.2]
        refine ⟨?_, trivial⟩
        intro r' t' h
        simp [Fields.lookup] at h
    · exact ⟨rfl, .inl ⟨by simp, by simp⟩⟩
  · rintro ⟨⟨-, h, -⟩, -⟩
    have h : CTy.CanRead (.choice (.cons 5 .required .unit .nil)) (.choice (.cons 6 .required .unit .nil)) :=
      h .optional _ rfl
    have := h.2 5 ⟨_, _, Fields.lookup_cons_self _ _ _ _, rfl⟩
    obtain ⟨r, t, h1, -⟩ := this
    simp [Fields.lookup] at h1

example : Rejects (.choice (.cons 0 .required .unit (.cons 1 .required .unit .nil))) (.choice (.cons 0 .required .unit .nil)) ∨
    Rejects (.choice (.cons 0 .required .unit .nil)) (.choice (.cons 0 .required .unit (.cons 1 .required .unit .nil))) := by
  refine (C61_rules_exact _ _ (by simp [CTy.WF, Fields.WF, Ty.WF, Fields.indices])
    (by simp [CTy.WF, Fields.WF, Ty.WF, Fields.indices]) ?_ ?_ ?_).2 ?_
  · exact ⟨⟨0, _, _, Fields.lookup_cons_self _ _ _ _, rfl⟩, trivial, trivial, trivial⟩
  · exact ⟨⟨0, _, _, Fields.lookup_cons_self _ _ _ _, rfl⟩, trivial, trivial⟩
  · refine ⟨?_, ?_, trivial⟩
    · intro r' t' h
      simp [Fields.lookup] at h
      rw [← h.2]; rfl
    · intro r' t' h
      simp [Fields.lookup] at h
  · rintro ⟨⟨-, h, -⟩, -⟩
    simp [Fields.lookup] at h

end Typical

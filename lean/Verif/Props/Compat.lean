import Verif.ProjectLemmas
import Verif.ChangeLemmas
import Verif.Props.Struct
import Verif.Props.Choice

/-!
# Properties C16-C20: schema evolution (generated Rust code)
-/

namespace Typical
open Relation

/-- Every message of `w` (of a size within the limit) is read successfully by a reader of type `r`, and what the reader gets is the
content written, restricted to what the reader knows (`project`). -/
def Reads (w r : CTy) : Prop :=
  ∀ (lim : Nat), lim < 2 ^ 64 → ∀ (m : w.Msg .out), 8 * size w m ≤ lim →
    ∃ bs v, serialize w m = some bs ∧ deserialize lim r bs = .ok v ∧ r.tree v = r.project (w.tree m)

/-- **C16.** If the types satisfy the documented conditions for reader and writer (`CanRead`, at all depths),
every message of the writer can be read and the shared fields carry the written values. -/
theorem C16_compatible_readers (w r : CTy) (hw : w.WF) (hr : r.WF) (h : w.CanRead r) : Reads w r := by
  intro lim hlim m hs
  have hsz : size w m < 2 ^ 64 := by omega
  obtain ⟨v, hv⟩ := Option.isSome_iff_exists.1 (CTy.CanRead.read w hw r hr h m)
  have d := deserialize_wire lim hlim r hr _ (CTy.fits_tree w hw r hr (CTy.CanRead.shape w r h) m)
    (by rw [size_wire w hw m hsz]; exact hs)
  rw [hv] at d
  exact ⟨_, v, serialize_wire w hw m hsz, d, CTy.tree_read r hr _ v hv⟩

/-- Instance: the writer has dropped field 0 (asymmetric for the reader), added field 4, converted field
2 from asymmetric to required, changed the order, and field 1 contains a choice which became a struct. -/
def exampleWriter : CTy := .struct (.cons 4 .required .unit (.cons 2 .required (.scalar .s64)
  (.cons 1 .optional (.comp (.array (.choice (.cons 0 .required .unit .nil)))) .nil)))
def exampleReader : CTy := .struct (.cons 0 .asymmetric .unit
  (.cons 1 .optional (.comp (.array (.struct (.cons 0 .required .unit .nil))))
  (.cons 2 .asymmetric (.scalar .s64) .nil)))

theorem exampleWriter_wf : exampleWriter.WF := by
  simp [exampleWriter, CTy.WF, Fields.WF, Ty.WF, Fields.indices]
theorem exampleReader_wf : exampleReader.WF := by
  simp [exampleReader, CTy.WF, Fields.WF, Ty.WF, Fields.indices]

theorem example_canRead : exampleWriter.CanRead exampleReader := by
  refine ⟨⟨?_, ?_, ?_, trivial⟩, ?_⟩
  · intro r' t' h; simp [Fields.lookup] at h
  · intro r' t' h; simp [Fields.lookup] at h; rw [← h.2]; simp [Ty.CanRead]
  · intro r' t' h
    simp [Fields.lookup] at h
    rw [← h.2]
    refine ⟨⟨?_, trivial⟩, ?_⟩
    · intro r' t' h; simp [Fields.lookup] at h; rw [← h.2]; simp [Ty.CanRead]
    · intro i hi j hj
      obtain ⟨r1, t1, h1, _⟩ := hi
      obtain ⟨r2, t2, h2, _⟩ := hj
      simp only [Fields.lookup] at h1 h2
      split at h1 <;> split at h2 <;> simp_all
  · intro i hi
    obtain ⟨r, t, h1, h2⟩ := hi
    simp only [Fields.lookup] at h1
    split at h1
    · cases h1; cases h2
    · split at h1
      · cases h1; cases h2
      · split at h1
        · cases h1; cases h2
        · cases h1

example : Reads exampleWriter exampleReader :=
  C16_compatible_readers _ _ exampleWriter_wf exampleReader_wf example_canRead

/-- **C17.** Each single safe change - reordering, adding or removing optional or asymmetric fields, converting a
field from or to asymmetric, exchanging a struct with a single required field and the corresponding
choice - anywhere inside a type, is safe in both directions. (Renaming: names are not part of the wire
types, see C31.) -/
theorem C17_single_change_safe (a b : CTy) (ha : a.WF) (hb : b.WF) (h : a.Change b) :
    Reads a b ∧ Reads b a :=
  have hc := h.compat ha hb
  ⟨C16_compatible_readers a b ha hb (CTy.Compat.canRead a ha b hb hc),
    C16_compatible_readers b a hb ha (CTy.Compat.canRead b hb a ha (CTy.Compat.symm a ha b hb hc))⟩

/-- Instance: a change deep inside a type. -/
example : Reads
    (.struct (.cons 0 .required (.comp (.array (.choice (.cons 3 .asymmetric .unit .nil)))) .nil))
    (.struct (.cons 0 .required (.comp (.array (.choice (.cons 3 .required .unit .nil)))) .nil)) :=
  (C17_single_change_safe _ _ (by simp [CTy.WF, Fields.WF, Ty.WF, Fields.indices])
    (by simp [CTy.WF, Fields.WF, Ty.WF, Fields.indices])
    (.struct (.nested 0 .required .nil (.array (.choice (.fromAsymmetric 3 .required .unit .nil)))))).1

/-- **C17 (relation).** More generally, types related by the documented compatibility relation - many such changes at
once, on different fields - can read each other. -/
theorem C17_compatible_safe (a b : CTy) (ha : a.WF) (hb : b.WF) (h : a.Compat b) :
    Reads a b ∧ Reads b a :=
  ⟨C16_compatible_readers a b ha hb (CTy.Compat.canRead a ha b hb h),
    C16_compatible_readers b a hb ha (CTy.Compat.canRead b hb a ha (CTy.Compat.symm a ha b hb h))⟩

/-- **C18 (reflexive).** -/
theorem C18_reflexive (a : CTy) (ha : a.WF) : a.Compat a := CTy.Compat.refl a ha

/-- **C18 (symmetric).** -/
theorem C18_symmetric (a b : CTy) (ha : a.WF) (hb : b.WF) (h : a.Compat b) : b.Compat a :=
  CTy.Compat.symm a ha b hb h

/-- **C18 (symmetric, single changes).** Every single safe change can be undone by one. -/
theorem C18_changes_symmetric (a b : CTy) (h : a.Change b) : b.Change a := h.symm

/-- **C18 (single changes are compatible).** -/
theorem C18_changes_compatible (a b : CTy) (ha : a.WF) (hb : b.WF) (h : a.Change b) : a.Compat b :=
  h.compat ha hb

/-- **C18 (not transitive).** There are two single safe changes whose composite is not safe: optional to asymmetric to
required. A message of the first type cannot be read with the last one. -/
theorem C18_not_transitive : ∃ a b c : CTy, a.WF ∧ b.WF ∧ c.WF ∧ a.Change b ∧ b.Change c ∧
    a.Compat b ∧ b.Compat c ∧ ¬ a.Compat c ∧
    ∃ m bs, serialize a m = some bs ∧ ∀ lim v, deserialize lim c bs ≠ .ok v := by
  have wf : ∀ r, (CTy.struct (.cons 0 r .unit .nil)).WF := fun r => by
    simp [CTy.WF, Fields.WF, Ty.WF, Fields.indices]
  have h1 : (CTy.struct (.cons 0 .optional .unit .nil)).Change (.struct (.cons 0 .asymmetric .unit .nil)) :=
    .struct (.toAsymmetric 0 .optional .unit .nil)
  have h2 : (CTy.struct (.cons 0 .asymmetric .unit .nil)).Change (.struct (.cons 0 .required .unit .nil)) :=
    .struct (.fromAsymmetric 0 .required .unit .nil)
  refine ⟨.struct (.cons 0 .optional .unit .nil), .struct (.cons 0 .asymmetric .unit .nil),
    .struct (.cons 0 .required .unit .nil), wf _, wf _, wf _, h1, h2, h1.compat (wf _) (wf _),
    h2.compat (wf _) (wf _), ?_, ((none : Option Unit), ()), [], rfl, ?_⟩
  · intro h
    have := h.1.1
    simp [Fields.lookup, Rule.Compat] at this
  · intro lim v h
    cases h

/-- **C19 (structs).** A struct message without some field required by the reader is rejected with
`InvalidData`, even if the reader can read all shared fields. -/
theorem C19_missing_required (fs gs : Fields) (hf : (CTy.struct fs).WF) (hg : (CTy.struct gs).WF)
    (hc : fs.CanReadShared gs) (i : Nat) (hi : gs.Has i (· = .required))
    (lim : Nat) (hlim : lim < 2 ^ 64) (m : fs.Struct .out) (hs : 8 * size (.struct fs) m ≤ lim)
    (hno : ∀ p ∈ fs.treeStruct m, p.1 ≠ i) :
    ∃ bs, serialize (.struct fs) m = some bs ∧ deserialize lim (.struct gs) bs = .error .invalid := by
  have hsz : size (.struct fs) m < 2 ^ 64 := by omega
  have hsh : (CTy.struct fs).Shape (.struct gs) := Fields.CanReadShared.shape fs gs hc
  have hlen := size_wire (.struct fs) hf m hsz
  refine ⟨_, serialize_wire (.struct fs) hf m hsz, ?_⟩
  simp only [CTy.tree, Tree.wire] at hlen ⊢
  exact C11_missing_required_invalid gs hg lim hlim _
    (CTy.fits_tree (.struct fs) hf (.struct gs) hg hsh m) (by omega)
    (Fields.CanReadShared.read_struct fs hf.2 gs hg.2 hc m) i hi hno

/-- **C19 (adding a required field).** Once a required field is added to a struct, every old message is
rejected. -/
theorem C19_add_required (i : Nat) (t : Ty) (fs : Fields) (hf : (CTy.struct fs).WF)
    (hg : (CTy.struct (.cons i .required t fs)).WF) (lim : Nat) (hlim : lim < 2 ^ 64)
    (m : fs.Struct .out) (hs : 8 * size (.struct fs) m ≤ lim) :
    ∃ bs, serialize (.struct fs) m = some bs ∧
      deserialize lim (.struct (.cons i .required t fs)) bs = .error .invalid := by
  have hni : i ∉ fs.indices := by
    have := hg.1
    simp only [Fields.indices, List.nodup_cons] at this
    exact this.1
  refine C19_missing_required fs _ hf hg ?_ i ⟨_, _, Fields.lookup_cons_self _ _ _ _, rfl⟩ lim hlim m hs ?_
  · have h := CTy.Compat.canRead (.struct fs) hf (.struct fs) hf (CTy.Compat.refl _ hf)
    exact (CanReadShared_cons_right fs fs h.1 i .required t hni)
  · intro p hp e
    exact hni (e ▸ Fields.treeStruct_mem fs m p hp)

example : ∃ bs, serialize (.struct (.cons 1 .required (.scalar .u64) .nil)) (((5 : UInt64), ()) : UInt64 × Unit) = some bs ∧
    deserialize 1000 (.struct (.cons 0 .required .unit (.cons 1 .required (.scalar .u64) .nil))) bs =
      .error .invalid :=
  C19_add_required 0 .unit _ (by simp [CTy.WF, Fields.WF, Ty.WF, Fields.indices])
    (by simp [CTy.WF, Fields.WF, Ty.WF, Fields.indices]) 1000 (by decide) _ (by decide +kernel)

/-- **C19 (optional to required).** Messages without the field are rejected. -/
theorem C19_optional_to_required (i : Nat) (t : Ty) (fs : Fields)
    (hf : (CTy.struct (.cons i .optional t fs)).WF)
    (lim : Nat) (hlim : lim < 2 ^ 64) (m : fs.Struct .out)
    (hs : 8 * size (.struct (.cons i .optional t fs)) ((none : Option (t.Msg .out)), m) ≤ lim) :
    ∃ bs, serialize (.struct (.cons i .optional t fs)) ((none : Option (t.Msg .out)), m) = some bs ∧
      deserialize lim (.struct (.cons i .required t fs)) bs = .error .invalid := by
  have hni : i ∉ fs.indices := by
    have := hf.1
    simp only [Fields.indices, List.nodup_cons] at this
    exact this.1
  have hg : (CTy.struct (.cons i .required t fs)).WF := hf
  have hc : (Fields.cons i .optional t fs).CanReadShared (.cons i .required t fs) :=
    (CTy.Compat.canRead _ hg _ hg (CTy.Compat.refl _ hg)).1
  refine C19_missing_required _ _ hf hg hc i ⟨_, _, Fields.lookup_cons_self _ _ _ _, rfl⟩ lim hlim
    ((none : Option (t.Msg .out)), m) hs ?_
  intro p hp e
  have hp' : p ∈ fs.treeStruct m := hp
  exact hni (e ▸ Fields.treeStruct_mem fs m p hp')

/-- **C19 (choices).** A chain none of whose fields is known to the reader as required or asymmetric is
rejected. -/
theorem C19_no_recognised (fs gs : Fields) (hf : (CTy.choice fs).WF) (hg : (CTy.choice gs).WF)
    (hsh : (CTy.choice fs).Shape (.choice gs)) (lim : Nat) (hlim : lim < 2 ^ 64)
    (m : (CTy.choice fs).Msg .out) (hs : 8 * size (.choice fs) m ≤ lim)
    (hno : ∀ p ∈ Chain.toList fs.treeSel fs.treeSel m, ¬ gs.Has p.1 (· ≠ .optional)) :
    ∃ bs e, serialize (.choice fs) m = some bs ∧ deserialize lim (.choice gs) bs = .error e ∧
      (e = .eof ∨ e = .invalid) := by
  have hsz : size (.choice fs) m < 2 ^ 64 := by omega
  have hlen := size_wire (.choice fs) hf m hsz
  have hfit := CTy.fits_tree (.choice fs) hf (.choice gs) hg hsh m
  simp only [CTy.tree, Tree.wire] at hlen hfit
  rcases C15_no_recognised_field gs hg lim hlim _ hfit (by omega) hno with h | h
  · exact ⟨_, _, serialize_wire (.choice fs) hf m hsz, h, .inl rfl⟩
  · exact ⟨_, _, serialize_wire (.choice fs) hf m hsz, h, .inr rfl⟩

/-- **C19 (dropping a required choice field).** Every message consisting of that field is rejected. -/
theorem C19_drop_required_choice_field (i : Nat) (t : Ty) (fs : Fields)
    (hf : (CTy.choice (.cons i .required t fs)).WF) (lim : Nat) (hlim : lim < 2 ^ 64)
    (v : t.Msg .out) (hs : 8 * size (.choice (.cons i .required t fs)) (.last (.inl ⟨v, rfl⟩)) ≤ lim) :
    ∃ bs e, serialize (.choice (.cons i .required t fs)) (.last (.inl ⟨v, rfl⟩)) = some bs ∧
      deserialize lim (.choice fs) bs = .error e ∧ (e = .eof ∨ e = .invalid) := by
  have hf' := hf
  simp only [CTy.WF, Fields.indices, List.nodup_cons, Fields.WF] at hf'
  have hg : (CTy.choice fs).WF := ⟨hf'.1.2, hf'.2.2.2⟩
  refine C19_no_recognised _ fs hf hg ?_ lim hlim _ hs ?_
  · refine ⟨fun r' t' h => ?_, Fields.shape_refl fs hf'.1.2 hf'.2.2.2⟩
    exact absurd (Fields.lookup_mem h) hf'.1.1
  · intro p hp hh
    simp only [Chain.toList, List.mem_singleton, Fields.treeSel] at hp
    subst hp
    exact hf'.1.1 hh.mem

/-- **C19 (required to optional in a choice).** Every message consisting of that field is rejected. -/
theorem C19_required_to_optional_choice_field (i : Nat) (t : Ty) (fs : Fields)
    (hf : (CTy.choice (.cons i .required t fs)).WF) (lim : Nat) (hlim : lim < 2 ^ 64)
    (v : t.Msg .out) (hs : 8 * size (.choice (.cons i .required t fs)) (.last (.inl ⟨v, rfl⟩)) ≤ lim) :
    ∃ bs e, serialize (.choice (.cons i .required t fs)) (.last (.inl ⟨v, rfl⟩)) = some bs ∧
      deserialize lim (.choice (.cons i .optional t fs)) bs = .error e ∧ (e = .eof ∨ e = .invalid) := by
  have hg : (CTy.choice (.cons i .optional t fs)).WF := hf
  have hsh : (CTy.choice (.cons i .required t fs)).Shape (.choice (.cons i .optional t fs)) :=
    CTy.shape_refl (.choice (.cons i .optional t fs)) hg
  refine C19_no_recognised _ _ hf hg hsh lim hlim _ hs ?_
  intro p hp hh
  simp only [Chain.toList, List.mem_singleton, Fields.treeSel] at hp
  subst hp
  obtain ⟨r', t', h1, h2⟩ := hh
  rw [Fields.lookup_cons_self] at h1
  cases h1
  exact h2 rfl

example : ∃ bs e, serialize (.choice (.cons 2 .required (.scalar .bool) .nil)) (.last (.inl ⟨true, rfl⟩)) = some bs ∧
    deserialize 1000 (.choice (.cons 2 .optional (.scalar .bool) .nil)) bs = .error e ∧ (e = .eof ∨ e = .invalid) :=
  C19_required_to_optional_choice_field 2 (.scalar .bool) .nil
    (by simp [CTy.WF, Fields.WF, Ty.WF, Fields.indices]) 1000 (by decide) true (by decide +kernel)

/-- **C20.** Any user-defined type can be migrated to any other one by a finite sequence of single safe
changes, all intermediate types being well-formed. -/
theorem C20_any_migration (a b : CTy) (ha : a.WF) (hb : b.WF) (ua : a.IsUserDefined)
    (ub : b.IsUserDefined) : ReflTransGen (fun x y => x.Change y ∧ x.WF ∧ y.WF) a b :=
  (steps_to_empty_struct a ha ua).trans (steps_symm (steps_to_empty_struct b hb ub))

example : ReflTransGen (fun x y => x.Change y ∧ x.WF ∧ y.WF) exampleType exampleReader :=
  C20_any_migration _ _ exampleType_wf exampleReader_wf trivial trivial

end Typical

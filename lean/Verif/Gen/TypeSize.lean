import Verif.Gen.TypeCheckProgram
import Verif.Front.DenoteLemmas

/-!
# Helper: generated types have a finite size
-/

namespace Typical.Gen

section
variable {T : CharTable} {S : Schemas}

/-- Only a mentioned type is inside a type. -/
theorem inline_typeOf {s : Schema} {ns' : Namespace} {mod : List Str} {x : NameSuffix} {id : TypeId} {τ : RT} : (tv : TypeVariant) →
    (typeOf T s ns' x tv).resolve mod = some τ → τ.Inline id →
    ∃ i n, tv.Mentions i n ∧ (TypeEx.path (typePath T s ns' i n x)).resolve mod = some (.named id)
  | .array _ t, h, hi => by
    unfold typeOf at h
    split at h
    · split at h
      · simp only [TypeEx.resolve] at h
        cases hr : (typeOf T s ns' x t).resolve mod with
        | none => rw [hr] at h; cases h
        | some σ => rw [hr] at h; cases h; cases hi with
          | left h => cases h
          | right h => cases h
      · cases h; cases hi
    · simp only [TypeEx.resolve, Option.map_eq_some_iff] at h
      obtain ⟨_, -, rfl⟩ := h
      cases hi
  | .custom i n, h, hi => by
    unfold typeOf at h
    have h' := h
    simp only [TypeEx.resolve, Option.map_eq_some_iff] at h'
    obtain ⟨_, -, rfl⟩ := h'
    cases hi
    exact ⟨i, n, .custom i n, h⟩
  | .bool, h, hi => by unfold typeOf at h; split at h <;> cases h <;> cases hi
  | .bytes, h, hi => by unfold typeOf at h; split at h <;> cases h <;> cases hi
  | .f64, h, hi => by unfold typeOf at h; split at h <;> cases h <;> cases hi
  | .s64, h, hi => by unfold typeOf at h; split at h <;> cases h <;> cases hi
  | .string, h, hi => by unfold typeOf at h; split at h <;> cases h <;> cases hi
  | .u64, h, hi => by unfold typeOf at h; split at h <;> cases h <;> cases hi
  | .unit, h, hi => by unfold typeOf at h; split at h <;> cases h <;> cases hi

/-- What is inside the type of a declaration is the type of a field. -/
theorem inline_item {s : Schema} {ns' : Namespace} {d : Declaration} {x : NameSuffix} {id t : TypeId} (hE : items T S t = some (declItem T s ns' d x))
    (hi : (items T S).Inline t id) : ∃ f ∈ d.fields, ∃ i n, f.type.variant.Mentions i n ∧ (TypeEx.path (typePath T s ns' i n x)).resolve t.1 = some (.named id) := by
  unfold Items.Inline at hi
  rw [hE] at hi
  unfold declItem at hi
  cases hv : d.variant with
  | struct =>
    rw [hv] at hi
    obtain ⟨m, hm, τ, h1, h2⟩ := hi
    rcases List.mem_append.mp hm with hm | hm
    · split at hm
      · cases List.mem_singleton.mp hm
        cases h1
        cases h2
      · cases hm
    · obtain ⟨f, hf, rfl⟩ := List.mem_map.mp hm
      refine ⟨f, hf, ?_⟩
      dsimp only at h1
      split at h1
      · simp only [TypeEx.resolve, Option.map_eq_some_iff] at h1
        obtain ⟨σ, h1, rfl⟩ := h1
        cases h2 with
        | option h2 => exact inline_typeOf _ h1 h2
      · exact inline_typeOf _ h1 h2
  | choice =>
    rw [hv] at hi
    obtain ⟨v, hm, t, ht, τ, h1, h2⟩ := hi
    obtain ⟨f, hf, rfl⟩ := List.mem_map.mp hm
    refine ⟨f, hf, ?_⟩
    unfold variantTypes at ht
    rcases List.mem_append.mp ht with ht | ht
    · rcases List.mem_append.mp ht with ht | ht
      · split at ht
        · cases List.mem_singleton.mp ht
          cases h1
          cases h2
        · cases ht
      · split at ht
        · cases List.mem_singleton.mp ht
          exact inline_typeOf _ h1 h2
        · cases ht
    · split at ht
      · cases List.mem_singleton.mp ht
        simp only [TypeEx.resolve, Option.map_eq_some_iff] at h1
        obtain ⟨_, -, rfl⟩ := h1
        cases h2
      · cases ht

/-- No type is inside itself. -/
theorem inline_acc (hl : S.Loaded) (hw : S.WellFormed) (hN : NamesOk T S) {k : List Str × Str} (ha : Acc (fun a b => S.Contains b a) k) {ns : Namespace} {s : Schema}
    {d : Declaration} (hd : S.Declares k ns s d) (x : NameSuffix) : Acc (fun a b => (items T S).Inline b a) ((declName T ns d).id x) := by
  induction ha generalizing ns s d with
  | intro k _ ih =>
    obtain ⟨ns', h1, h2, h3, h4⟩ := program_defines hl hN _ _ _ _ hd
    refine Acc.intro _ fun t ht => ?_
    obtain ⟨f, hf, i, n, hm, hr⟩ := inline_item (h2 x) ht
    obtain ⟨k', e1, ns₂, s₂, d₂, e2⟩ := (hw.declarations _ hd.1 _ hd.2.1).types f hf i n hm
    have := h4 f hf i n k' hm e1 _ _ _ e2 x
    cases hr.symm.trans this
    exact ih k' ⟨ns, s, d, hd, f, hf, i, n, hm, e1⟩ e2

theorem irrefl_of_acc {α : Type} {r : α → α → Prop} {a : α} (h : Acc r a) : ¬ r a a := by
  induction h with
  | intro a _ ih => exact fun h => ih a h h

theorem not_transGen_of_acc {α : Type} {r : α → α → Prop} {a : α} (h : Acc (fun a b => r b a) a) : ¬ Relation.TransGen r a a :=
  fun hc => irrefl_of_acc h.transGen (Relation.transGen_swap.mpr hc)

end

end Typical.Gen

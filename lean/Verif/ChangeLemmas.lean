import Verif.CompatLemmas
import Mathlib.Logic.Relation

/-!
# Helper lemmas: `Compat` and `Change`
-/

namespace Typical

theorem Rule.Compat.symm {r r' : Rule} (h : r.Compat r') : r'.Compat r := by
  rcases h with h | h | h
  · exact .inl h.symm
  · exact .inr (.inr h)
  · exact .inr (.inl h)

theorem Fields.compatShared_iff : {fs gs : Fields} → fs.indices.Nodup →
    (fs.CompatShared gs ↔ ∀ i r t, fs.lookup i = some (r, t) →
      match gs.lookup i with
      | none => r ≠ .required
      | some (r', t') => r.Compat r' ∧ Ty.Compat t t')
  | .nil, gs, _ => by simp [Fields.CompatShared, Fields.lookup]
  | .cons j r t rest, gs, hn => by
    simp only [Fields.indices, List.nodup_cons] at hn
    rw [Fields.CompatShared, Fields.compatShared_iff hn.2]
    constructor
    · rintro ⟨h1, h2⟩ i r' t' hl
      rw [Fields.lookup] at hl
      split at hl
      · rename_i e; subst e; cases hl; exact h1
      · exact h2 i r' t' hl
    · intro h
      refine ⟨h j r t (Fields.lookup_cons_self _ _ _ _), fun i r' t' hl => h i r' t' ?_⟩
      rw [Fields.lookup_cons_of_mem hn.1 (Fields.lookup_mem hl)]; exact hl

theorem Fields.newNotRequired_iff : {fs gs : Fields} → gs.indices.Nodup →
    (fs.NewNotRequired gs ↔ ∀ i r t, gs.lookup i = some (r, t) → fs.lookup i = none → r ≠ .required)
  | fs, .nil, _ => by simp [Fields.NewNotRequired, Fields.lookup]
  | fs, .cons j r t rest, hn => by
    simp only [Fields.indices, List.nodup_cons] at hn
    rw [Fields.NewNotRequired, Fields.newNotRequired_iff hn.2]
    constructor
    · rintro ⟨h1, h2⟩ i r' t' hl
      rw [Fields.lookup] at hl
      split at hl
      · rename_i e; subst e; cases hl; exact h1
      · exact h2 i r' t' hl
    · intro h
      refine ⟨h j r t (Fields.lookup_cons_self _ _ _ _), fun i r' t' hl => h i r' t' ?_⟩
      rw [Fields.lookup_cons_of_mem hn.1 (Fields.lookup_mem hl)]; exact hl

mutual
theorem CTy.Compat.canRead : (a : CTy) → a.WF → (b : CTy) → b.WF → a.Compat b → a.CanRead b
  | .bytes, _, b, _, h => by simpa only [CTy.Compat, CTy.CanRead] using h
  | .string, _, b, _, h => by simpa only [CTy.Compat, CTy.CanRead] using h
  | .units, _, b, _, h => by simpa only [CTy.Compat, CTy.CanRead] using h
  | .scalars _, _, b, _, h => by simpa only [CTy.Compat, CTy.CanRead] using h
  | .array c, ha, b, hb, h => by
    cases b <;> simp only [CTy.Compat] at h
    simp only [CTy.WF] at ha hb
    simp only [CTy.CanRead]
    exact CTy.Compat.canRead c ha _ hb h
  | .struct fs, ha, b, hb, h => by
    simp only [CTy.WF] at ha
    cases b <;> simp only [CTy.Compat] at h <;> rename_i gs <;> simp only [CTy.WF] at hb <;>
      simp only [CTy.CanRead]
    · refine ⟨Fields.CompatShared.canRead fs ha.2 gs hb.2 h.1, ?_⟩
      rintro i ⟨r', t', hl, rfl⟩
      cases hf : fs.lookup i with
      | none => exact absurd rfl ((Fields.newNotRequired_iff hb.1).1 h.2 i _ t' hl hf)
      | some p =>
        obtain ⟨r, t⟩ := p
        have := (Fields.compatShared_iff ha.1).1 h.1 i r t hf
        rw [hl] at this
        refine ⟨r, t, hf, ?_⟩
        rintro rfl
        simp [Rule.Compat] at this
    · obtain ⟨i, t, t', rfl, rfl, h⟩ := h
      refine ⟨Fields.CompatShared.canRead _ ha.2 _ hb.2 h, i, ?_, ?_⟩
      · exact ⟨_, t, Fields.lookup_cons_self _ _ _ _, by simp⟩
      · exact ⟨_, t', Fields.lookup_cons_self _ _ _ _, by simp⟩
  | .choice fs, ha, b, hb, h => by
    simp only [CTy.WF] at ha
    cases b <;> simp only [CTy.Compat] at h <;> rename_i gs <;> simp only [CTy.WF] at hb <;>
      simp only [CTy.CanRead]
    · obtain ⟨i, t, t', rfl, rfl, h⟩ := h
      refine ⟨Fields.CompatShared.canRead _ ha.2 _ hb.2 h, ?_⟩
      intro j hj k hk
      have hj := hj.mem
      have hk := hk.mem
      simp only [Fields.indices, List.mem_singleton] at hj hk
      rw [hj, hk]
    · refine ⟨Fields.CompatShared.canRead fs ha.2 gs hb.2 h.1, ?_⟩
      rintro i ⟨r, t, hl, rfl⟩
      have := (Fields.compatShared_iff ha.1).1 h.1 i _ t hl
      cases hg : gs.lookup i with
      | none => rw [hg] at this; exact absurd rfl this
      | some p =>
        rw [hg] at this
        obtain ⟨r', t'⟩ := p
        refine ⟨r', t', hg, ?_⟩
        rintro rfl
        simp [Rule.Compat] at this

theorem Ty.Compat.canRead : (a : Ty) → a.WF → (b : Ty) → b.WF → a.Compat b → a.CanRead b
  | .unit, _, b, _, h => by simpa only [Ty.Compat, Ty.CanRead] using h
  | .scalar _, _, b, _, h => by simpa only [Ty.Compat, Ty.CanRead] using h
  | .comp c, ha, b, hb, h => by
    cases b <;> simp only [Ty.Compat] at h
    simp only [Ty.WF] at ha hb
    simp only [Ty.CanRead]
    exact CTy.Compat.canRead c ha _ hb h

theorem Fields.CompatShared.canRead : (fs : Fields) → fs.WF → (gs : Fields) → gs.WF →
    fs.CompatShared gs → fs.CanReadShared gs
  | .nil, _, _, _, _ => trivial
  | .cons i r t rest, ha, gs, hb, h => by
    simp only [Fields.WF] at ha
    simp only [Fields.CompatShared] at h
    simp only [Fields.CanReadShared]
    refine ⟨?_, Fields.CompatShared.canRead rest ha.2.2 gs hb h.2⟩
    intro r' t' hl
    have := h.1
    rw [hl] at this
    exact Ty.Compat.canRead t ha.2.1 t' (hb.lookup hl) this.2
end

mutual
theorem CTy.Compat.refl : (a : CTy) → a.WF → a.Compat a
  | .bytes, _ => rfl
  | .string, _ => rfl
  | .units, _ => rfl
  | .scalars _, _ => rfl
  | .array c, ha => by
    simp only [CTy.WF] at ha; simp only [CTy.Compat]; exact CTy.Compat.refl c ha
  | .struct fs, ha => by
    simp only [CTy.WF] at ha; simp only [CTy.Compat]
    refine ⟨Fields.CompatShared.refl fs ha.1 ha.2, (Fields.newNotRequired_iff ha.1).2 ?_⟩
    intro i r t h h'; rw [h] at h'; cases h'
  | .choice fs, ha => by
    simp only [CTy.WF] at ha; simp only [CTy.Compat]
    refine ⟨Fields.CompatShared.refl fs ha.1 ha.2, (Fields.newNotRequired_iff ha.1).2 ?_⟩
    intro i r t h h'; rw [h] at h'; cases h'

theorem Ty.Compat.refl : (a : Ty) → a.WF → a.Compat a
  | .unit, _ => rfl
  | .scalar _, _ => rfl
  | .comp c, ha => by simp only [Ty.WF] at ha; simp only [Ty.Compat]; exact CTy.Compat.refl c ha

theorem Fields.Compat.refl_lookup : (fs : Fields) → fs.WF → ∀ i r t, fs.lookup i = some (r, t) →
    Ty.Compat t t
  | .nil, _, i, r, t, h => by simp [Fields.lookup] at h
  | .cons j r' t' rest, hw, i, r, t, h => by
    simp only [Fields.WF] at hw
    rw [Fields.lookup] at h
    split at h
    · cases h; exact Ty.Compat.refl t' hw.2.1
    · exact Fields.Compat.refl_lookup rest hw.2.2 i r t h

theorem Fields.CompatShared.refl : (fs : Fields) → fs.indices.Nodup → fs.WF → fs.CompatShared fs
  | .nil, _, _ => trivial
  | .cons j r' t' rest, hn, hw => by
    simp only [Fields.WF] at hw
    rw [Fields.compatShared_iff hn]
    intro i r t h
    rw [h]
    refine ⟨.inl rfl, ?_⟩
    rw [Fields.lookup] at h
    split at h
    · cases h; exact Ty.Compat.refl t' hw.2.1
    · exact Fields.Compat.refl_lookup rest hw.2.2 i r t h
end

mutual
theorem CTy.Compat.symm : (a : CTy) → a.WF → (b : CTy) → b.WF → a.Compat b → b.Compat a
  | .bytes, _, b, _, h => by simp only [CTy.Compat] at h; subst h; rfl
  | .string, _, b, _, h => by simp only [CTy.Compat] at h; subst h; rfl
  | .units, _, b, _, h => by simp only [CTy.Compat] at h; subst h; rfl
  | .scalars _, _, b, _, h => by simp only [CTy.Compat] at h; subst h; rfl
  | .array c, ha, b, hb, h => by
    cases b <;> simp only [CTy.Compat] at h
    simp only [CTy.WF] at ha hb
    simp only [CTy.Compat]
    exact CTy.Compat.symm c ha _ hb h
  | .struct fs, ha, b, hb, h => by
    simp only [CTy.WF] at ha
    cases b <;> simp only [CTy.Compat] at h <;> rename_i gs <;> simp only [CTy.WF] at hb <;>
      simp only [CTy.Compat]
    · exact Fields.CompatShared.symm_both fs ha.1 ha.2 gs hb.1 hb.2 h.1 h.2
    · obtain ⟨i, t, t', rfl, rfl, h⟩ := h
      refine ⟨i, t', t, rfl, rfl, ?_⟩
      exact (Fields.CompatShared.symm_both _ ha.1 ha.2 _ hb.1 hb.2 h (by
        rw [Fields.newNotRequired_iff hb.1]
        intro j r t'' h1 h2
        have := Fields.lookup_mem h1
        simp only [Fields.indices, List.mem_singleton] at this
        subst this
        rw [Fields.lookup_cons_self] at h2; cases h2)).1
  | .choice fs, ha, b, hb, h => by
    simp only [CTy.WF] at ha
    cases b <;> simp only [CTy.Compat] at h <;> rename_i gs <;> simp only [CTy.WF] at hb <;>
      simp only [CTy.Compat]
    · obtain ⟨i, t, t', rfl, rfl, h⟩ := h
      refine ⟨i, t', t, rfl, rfl, ?_⟩
      exact (Fields.CompatShared.symm_both _ ha.1 ha.2 _ hb.1 hb.2 h (by
        rw [Fields.newNotRequired_iff hb.1]
        intro j r t'' h1 h2
        have := Fields.lookup_mem h1
        simp only [Fields.indices, List.mem_singleton] at this
        subst this
        rw [Fields.lookup_cons_self] at h2; cases h2)).1
    · exact Fields.CompatShared.symm_both fs ha.1 ha.2 gs hb.1 hb.2 h.1 h.2

theorem Ty.Compat.symm : (a : Ty) → a.WF → (b : Ty) → b.WF → a.Compat b → b.Compat a
  | .unit, _, b, _, h => by simp only [Ty.Compat] at h; subst h; rfl
  | .scalar _, _, b, _, h => by simp only [Ty.Compat] at h; subst h; rfl
  | .comp c, ha, b, hb, h => by
    cases b <;> simp only [Ty.Compat] at h
    simp only [Ty.WF] at ha hb
    simp only [Ty.Compat]
    exact CTy.Compat.symm c ha _ hb h

theorem Fields.CompatShared.symm_lookup : (fs : Fields) → fs.WF → (gs : Fields) → gs.WF →
    fs.CompatShared gs → ∀ i r t, fs.lookup i = some (r, t) → ∀ r' t', gs.lookup i = some (r', t') →
    r'.Compat r ∧ Ty.Compat t' t
  | .nil, _, _, _, _, _, _, _, h, _, _, _ => by simp [Fields.lookup] at h
  | .cons j r₁ t₁ rest, hw, gs, hg, hc, i, r, t, h, r', t', h' => by
    simp only [Fields.WF] at hw
    simp only [Fields.CompatShared] at hc
    rw [Fields.lookup] at h
    split at h
    · rename_i e
      subst e
      cases h
      have := hc.1
      rw [h'] at this
      exact ⟨this.1.symm, Ty.Compat.symm t₁ hw.2.1 t' (hg.lookup h') this.2⟩
    · exact Fields.CompatShared.symm_lookup rest hw.2.2 gs hg hc.2 i r t h r' t' h'

theorem Fields.CompatShared.symm_both : (fs : Fields) → fs.indices.Nodup → fs.WF →
    (gs : Fields) → gs.indices.Nodup → gs.WF → fs.CompatShared gs → fs.NewNotRequired gs →
    gs.CompatShared fs ∧ gs.NewNotRequired fs
  | .nil, hn, _, gs, hn', hg, _, h2 => by
    rw [Fields.newNotRequired_iff hn'] at h2
    rw [Fields.compatShared_iff hn']
    exact ⟨fun i r t hl => h2 i r t hl rfl, trivial⟩
  | .cons j r₁ t₁ rest, hn, hw, gs, hn', hg, h1, h2 => by
    rw [Fields.newNotRequired_iff hn'] at h2
    have h1' := (Fields.compatShared_iff hn).1 h1
    rw [Fields.compatShared_iff hn', Fields.newNotRequired_iff hn]
    constructor
    · intro i r' t' hl
      cases hf : (Fields.cons j r₁ t₁ rest).lookup i with
      | none => exact h2 i r' t' hl hf
      | some p =>
        obtain ⟨r, t⟩ := p
        simp only [Fields.WF] at hw
        simp only [Fields.CompatShared] at h1
        rw [Fields.lookup] at hf
        simp only
        split at hf
        · rename_i e
          subst e
          cases hf
          have := h1.1
          rw [hl] at this
          exact ⟨this.1.symm, Ty.Compat.symm t₁ hw.2.1 t' (hg.lookup hl) this.2⟩
        · exact Fields.CompatShared.symm_lookup rest hw.2.2 gs hg h1.2 i r t hf r' t' hl
    · intro i r t hl hg'
      have := h1' i r t hl
      rw [hg'] at this
      exact this
end

/-! ### Single changes are compatible -/

/-- Distinct indices and well-formed fields. -/
def Fields.OK (fs : Fields) : Prop := fs.indices.Nodup ∧ fs.WF

/-- Compatibility of the fields of two declarations of the same kind. -/
def Fields.CompatAll (fs gs : Fields) : Prop := fs.CompatShared gs ∧ fs.NewNotRequired gs

theorem Fields.compatAll_iff {fs gs : Fields} (hf : fs.indices.Nodup) (hg : gs.indices.Nodup) :
    fs.CompatAll gs ↔ ∀ i, match fs.lookup i, gs.lookup i with
      | none, none => True
      | some (r, _), none => r ≠ .required
      | none, some (r, _) => r ≠ .required
      | some (r, t), some (r', t') => r.Compat r' ∧ Ty.Compat t t' := by
  rw [Fields.CompatAll, Fields.compatShared_iff hf, Fields.newNotRequired_iff hg]
  constructor
  · rintro ⟨h1, h2⟩ i
    cases h3 : fs.lookup i with
    | none =>
      cases h4 : gs.lookup i with
      | none => trivial
      | some p => exact h2 i p.1 p.2 h4 h3
    | some p =>
      have := h1 i p.1 p.2 h3
      cases h4 : gs.lookup i with
      | none => rw [h4] at this; exact this
      | some q => rw [h4] at this; exact this
  · intro h
    constructor
    · intro i r t h3
      have := h i
      rw [h3] at this
      cases h4 : gs.lookup i with
      | none => rw [h4] at this; exact this
      | some q => rw [h4] at this; exact this
    · intro i r t h3 h4
      have := h i
      rw [h3, h4] at this
      exact this

theorem Fields.OK.tail {i : Nat} {r : Rule} {t : Ty} {fs : Fields} (h : (Fields.cons i r t fs).OK) :
    fs.OK := by
  obtain ⟨h1, h2⟩ := h
  simp only [Fields.indices, List.nodup_cons] at h1
  simp only [Fields.WF] at h2
  exact ⟨h1.2, h2.2.2⟩

theorem Fields.OK.compat_lookup {fs : Fields} (h : fs.OK) {i : Nat} {r : Rule} {t : Ty}
    (hl : fs.lookup i = some (r, t)) : Ty.Compat t t := Fields.Compat.refl_lookup fs h.2 i r t hl

theorem Fields.compatAll_refl_ext {fs gs : Fields} (hf : fs.OK) (hg : gs.OK)
    (h : ∀ i, fs.lookup i = gs.lookup i) : fs.CompatAll gs := by
  rw [Fields.compatAll_iff hf.1 hg.1]
  intro i
  rw [← h i]
  cases hl : fs.lookup i with
  | none => trivial
  | some p => exact ⟨.inl rfl, hf.compat_lookup hl⟩

/-- One step of comparison when both sides start with a field of the same index. -/
theorem Fields.compatAll_cons {i : Nat} {r r' : Rule} {t t' : Ty} {fs gs : Fields}
    (hf : (Fields.cons i r t fs).OK) (hg : (Fields.cons i r' t' gs).OK)
    (h1 : r.Compat r') (h2 : Ty.Compat t t') (h : fs.CompatAll gs) :
    (Fields.cons i r t fs).CompatAll (.cons i r' t' gs) := by
  rw [Fields.compatAll_iff hf.tail.1 hg.tail.1] at h
  rw [Fields.compatAll_iff hf.1 hg.1]
  intro j
  simp only [Fields.lookup]
  by_cases hj : j = i
  · simp only [if_pos hj]; exact ⟨h1, h2⟩
  · simp only [if_neg hj]; exact h j

mutual
theorem CTy.Change.compat : {a b : CTy} → a.Change b → a.WF → b.WF → a.Compat b
  | _, _, .array h, ha, hb => by
    simp only [CTy.WF] at ha hb
    simp only [CTy.Compat]
    exact CTy.Change.compat h ha hb
  | _, _, .struct h, ha, hb => by
    simp only [CTy.WF] at ha hb
    simp only [CTy.Compat]
    exact Fields.Change.compat h ha hb
  | _, _, .choice h, ha, hb => by
    simp only [CTy.WF] at ha hb
    simp only [CTy.Compat]
    exact Fields.Change.compat h ha hb
  | _, _, .toChoice i t, ha, hb => by
    simp only [CTy.WF] at ha hb
    simp only [CTy.Compat]
    exact ⟨i, t, t, rfl, rfl, Fields.CompatShared.refl _ ha.1 ha.2⟩
  | _, _, .toStruct i t, ha, hb => by
    simp only [CTy.WF] at ha hb
    simp only [CTy.Compat]
    exact ⟨i, t, t, rfl, rfl, Fields.CompatShared.refl _ ha.1 ha.2⟩

theorem Fields.Change.compat : {fs gs : Fields} → fs.Change gs → fs.OK → gs.OK → fs.CompatAll gs
  | _, _, .tail i r t h, hf, hg =>
    Fields.compatAll_cons hf hg (.inl rfl) (hf.compat_lookup (Fields.lookup_cons_self _ _ _ _))
      (Fields.Change.compat h hf.tail hg.tail)
  | _, _, .swap i r t j r' t' fs, hf, hg => by
    apply Fields.compatAll_refl_ext hf hg
    intro k
    have hij : i ≠ j := by
      have := hf.1
      simp only [Fields.indices, List.nodup_cons, List.mem_cons, not_or] at this
      exact this.1.1
    simp only [Fields.lookup]
    by_cases h1 : k = i
    · have h2 : k ≠ j := fun e => hij (h1 ▸ e)
      rw [if_pos h1, if_neg h2, if_pos h1]
    · rw [if_neg h1, if_neg h1]
  | fs, _, .add i r t _ hr, hf, hg => by
    rw [Fields.compatAll_iff hf.1 hg.1]
    intro j
    simp only [Fields.lookup]
    by_cases h : j = i
    · rw [if_pos h]
      have : fs.lookup j = none := by
        apply Fields.lookup_none
        have := hg.1
        simp only [Fields.indices, List.nodup_cons] at this
        rw [h]; exact this.1
      rw [this]
      exact hr
    · rw [if_neg h]
      cases hl : fs.lookup j with
      | none => trivial
      | some p => exact ⟨.inl rfl, hf.compat_lookup hl⟩
  | _, gs, .remove i r t _ hr, hf, hg => by
    rw [Fields.compatAll_iff hf.1 hg.1]
    intro j
    simp only [Fields.lookup]
    by_cases h : j = i
    · rw [if_pos h]
      have : gs.lookup j = none := by
        apply Fields.lookup_none
        have := hf.1
        simp only [Fields.indices, List.nodup_cons] at this
        rw [h]; exact this.1
      rw [this]
      exact hr
    · rw [if_neg h]
      cases hl : gs.lookup j with
      | none => trivial
      | some p => exact ⟨.inl rfl, hg.compat_lookup hl⟩
  | _, _, .fromAsymmetric i r t fs, hf, hg =>
    Fields.compatAll_cons hf hg (.inr (.inl rfl))
      (hf.compat_lookup (Fields.lookup_cons_self _ _ _ _))
      (Fields.compatAll_refl_ext hf.tail hg.tail fun _ => rfl)
  | _, _, .toAsymmetric i r t fs, hf, hg =>
    Fields.compatAll_cons hf hg (.inr (.inr rfl))
      (hf.compat_lookup (Fields.lookup_cons_self _ _ _ _))
      (Fields.compatAll_refl_ext hf.tail hg.tail fun _ => rfl)
  | _, _, .nested i r fs h, hf, hg => by
    refine Fields.compatAll_cons hf hg (.inl rfl) ?_
      (Fields.compatAll_refl_ext hf.tail hg.tail fun _ => rfl)
    have h1 := hf.2
    have h2 := hg.2
    simp only [Fields.WF, Ty.WF] at h1 h2
    simp only [Ty.Compat]
    exact CTy.Change.compat h h1.2.1 h2.2.1
end

mutual
theorem CTy.Change.symm : {a b : CTy} → a.Change b → b.Change a
  | _, _, .array h => .array (CTy.Change.symm h)
  | _, _, .struct h => .struct (Fields.Change.symm h)
  | _, _, .choice h => .choice (Fields.Change.symm h)
  | _, _, .toChoice i t => .toStruct i t
  | _, _, .toStruct i t => .toChoice i t

theorem Fields.Change.symm : {fs gs : Fields} → fs.Change gs → gs.Change fs
  | _, _, .tail i r t h => .tail i r t (Fields.Change.symm h)
  | _, _, .swap i r t j r' t' fs => .swap j r' t' i r t fs
  | _, _, .add i r t fs h => .remove i r t fs h
  | _, _, .remove i r t fs h => .add i r t fs h
  | _, _, .fromAsymmetric i r t fs => .toAsymmetric i r t fs
  | _, _, .toAsymmetric i r t fs => .fromAsymmetric i r t fs
  | _, _, .nested i r fs h => .nested i r fs (CTy.Change.symm h)
end

/-! ### Migration -/

/-- A single change between well-formed types. -/
def CTy.Step (a b : CTy) : Prop := a.Change b ∧ a.WF ∧ b.WF

theorem CTy.Step.symm {a b : CTy} (h : a.Step b) : b.Step a := ⟨h.1.symm, h.2.2, h.2.1⟩

open Relation in
theorem steps_symm {a b : CTy} (h : ReflTransGen CTy.Step a b) : ReflTransGen CTy.Step b a := by
  induction h with
  | refl => exact .refl
  | tail _ h ih => exact .head h.symm ih

open Relation in
/-- All fields of a declaration can be removed. -/
theorem steps_to_empty (k : Fields → CTy) (hk : ∀ fs, (k fs).WF ↔ fs.OK)
    (hc : ∀ {fs gs}, fs.Change gs → (k fs).Change (k gs)) : (fs : Fields) → fs.OK →
    ReflTransGen CTy.Step (k fs) (k .nil)
  | .nil, _ => .refl
  | .cons i r t rest, h => by
    have hw : ∀ r', (Fields.cons i r' t rest).OK := fun r' => by
      simpa only [Fields.OK, Fields.indices, Fields.WF] using h
    have h1 : CTy.Step (k (.cons i r t rest)) (k (.cons i .asymmetric t rest)) :=
      ⟨hc (.toAsymmetric i r t rest), (hk _).2 (hw _), (hk _).2 (hw _)⟩
    have h2 : CTy.Step (k (.cons i .asymmetric t rest)) (k rest) :=
      ⟨hc (.remove i .asymmetric t rest (by simp)), (hk _).2 (hw _), (hk _).2 h.tail⟩
    exact .head h1 (.head h2 (steps_to_empty k hk hc rest h.tail))

open Relation in
/-- The empty struct and the empty choice are connected. -/
theorem steps_empty : ReflTransGen CTy.Step (.struct .nil) (.choice .nil) := by
  have ok : ∀ r, (Fields.cons 0 r .unit .nil).OK := fun r => by
    simp [Fields.OK, Fields.indices, Fields.WF, Ty.WF]
  have hs : ∀ r, (CTy.struct (.cons 0 r .unit .nil)).WF := fun r => ok r
  have hc : ∀ r, (CTy.choice (.cons 0 r .unit .nil)).WF := fun r => ok r
  have e1 : (CTy.struct .nil).WF := by simp [CTy.WF, Fields.indices, Fields.WF]
  have e2 : (CTy.choice .nil).WF := by simp [CTy.WF, Fields.indices, Fields.WF]
  exact .head (b := .struct (.cons 0 .asymmetric .unit .nil))
      ⟨.struct (.add 0 .asymmetric .unit .nil (by simp)), e1, hs _⟩
    (.head (b := .struct (.cons 0 .required .unit .nil))
      ⟨.struct (.fromAsymmetric 0 .required .unit .nil), hs _, hs _⟩
    (.head (b := .choice (.cons 0 .required .unit .nil))
      ⟨.toChoice 0 .unit, hs _, hc _⟩
    (.head (b := .choice (.cons 0 .asymmetric .unit .nil))
      ⟨.choice (.toAsymmetric 0 .required .unit .nil), hc _, hc _⟩
    (.single ⟨.choice (.remove 0 .asymmetric .unit .nil (by simp)), hc _, e2⟩))))

open Relation in
theorem steps_to_empty_struct (a : CTy) (ha : a.WF) (hu : a.IsUserDefined) :
    ReflTransGen CTy.Step a (.struct .nil) := by
  cases a <;> simp only [CTy.IsUserDefined] at hu
  · rename_i fs
    exact steps_to_empty .struct (fun fs => by simp only [CTy.WF, Fields.OK]) .struct fs ha
  · rename_i fs
    exact (steps_to_empty .choice (fun fs => by simp only [CTy.WF, Fields.OK]) .choice fs ha).trans
      (steps_symm steps_empty)

end Typical

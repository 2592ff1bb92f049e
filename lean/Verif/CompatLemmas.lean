import Verif.ReadLemmas

/-!
# Helper lemmas about compatibility
-/

namespace Typical
open Spec

theorem mapM_isSome {α β : Type} {f : α → Option β} {l : List α} (h : ∀ a ∈ l, (f a).isSome) :
    ∃ vs, l.mapM f = some vs ∧ vs.length = l.length := by
  induction l with
  | nil => exact ⟨[], rfl, rfl⟩
  | cons a l ih =>
    obtain ⟨vs, h1, h2⟩ := ih (fun b hb => h b (by simp [hb]))
    obtain ⟨v, hv⟩ := Option.isSome_iff_exists.1 (h a (by simp))
    exact ⟨v :: vs, by rw [List.mapM_cons, hv, h1]; rfl, by simp [h2]⟩

theorem Fields.Has.mem {fs : Fields} {i : Nat} {p : Rule → Prop} (h : fs.Has i p) :
    i ∈ fs.indices := by
  obtain ⟨r, t, h, _⟩ := h; exact Fields.lookup_mem h

theorem Fields.lookup_cons_of_mem {i : Nat} {r : Rule} {t : Ty} {rest : Fields} {j : Nat}
    (hi : i ∉ rest.indices) (hj : j ∈ rest.indices) :
    (Fields.cons i r t rest).lookup j = rest.lookup j := by
  have hne : j ≠ i := fun e => hi (e ▸ hj)
  rw [Fields.lookup, if_neg hne]

theorem Fields.lookup_cons_self (i : Nat) (r : Rule) (t : Ty) (rest : Fields) :
    (Fields.cons i r t rest).lookup i = some (r, t) := by
  rw [Fields.lookup, if_pos rfl]

theorem Fields.readStruct_isSome : (gs : Fields) → gs.indices.Nodup → (l : List (Nat × Tree)) →
    (∀ p ∈ l, ∀ r t, gs.lookup p.1 = some (r, t) → (t.read p.2).isSome) →
    (∀ i, gs.Has i (· = .required) → ∃ p ∈ l, p.1 = i) → (gs.readStruct l).isSome
  | .nil, _, _, _, _ => rfl
  | .cons i r t rest, hn, l, h1, h2 => by
    simp only [Fields.indices, List.nodup_cons] at hn
    have ih := Fields.readStruct_isSome rest hn.2 l
      (fun p hp r' t' hl => h1 p hp r' t'
        (by rw [Fields.lookup_cons_of_mem hn.1 (Fields.lookup_mem hl)]; exact hl))
      (fun j hj => h2 j (by
        obtain ⟨r', t', hl, hr⟩ := hj
        exact ⟨r', t', by rw [Fields.lookup_cons_of_mem hn.1 (Fields.lookup_mem hl)]; exact hl, hr⟩))
    obtain ⟨m, hm⟩ := Option.isSome_iff_exists.1 ih
    have : ∀ p ∈ l.filter (fun p => p.1 == i), (t.read p.2).isSome := by
      intro p hp
      rw [List.mem_filter] at hp
      have e : p.1 = i := by simpa using hp.2
      exact h1 p hp.1 r t (by rw [e, Fields.lookup_cons_self])
    obtain ⟨vs, hvs, hlen⟩ := mapM_isSome (f := fun p : Nat × Tree => t.read p.2) this
    simp only [Fields.readStruct]
    rw [hvs, hm]
    have hslot : ∃ a, Slot.ofOption (r.mayOmit .inn) vs.head? = some a := by
      cases r
      · exact ⟨_, rfl⟩
      · exact ⟨_, rfl⟩
      · obtain ⟨p, hp, hpi⟩ := h2 i ⟨_, t, Fields.lookup_cons_self _ _ _ _, rfl⟩
        cases vs with
        | nil =>
          have : p ∈ l.filter (fun p => p.1 == i) := by rw [List.mem_filter]; simp [hp, hpi]
          rw [List.length_nil] at hlen
          rw [List.eq_nil_of_length_eq_zero hlen.symm] at this
          cases this
        | cons v vs => exact ⟨v, rfl⟩
    obtain ⟨a, ha⟩ := hslot
    simp only [ha]
    rfl

/-- A struct without one of its required fields cannot be read. -/
theorem Fields.readStruct_missing : (gs : Fields) → (l : List (Nat × Tree)) → (i : Nat) →
    gs.Has i (· = .required) → (∀ p ∈ l, p.1 ≠ i) → gs.readStruct l = none
  | .nil, _, _, h, _ => by obtain ⟨_, _, h, _⟩ := h; simp [Fields.lookup] at h
  | .cons j r t rest, l, i, h, hl => by
    simp only [Fields.readStruct]
    obtain ⟨r', t', hlk, hr⟩ := h
    rw [Fields.lookup] at hlk
    split at hlk
    · rename_i e
      subst e
      cases hlk
      subst hr
      rw [filter_eq_nil_of hl]
      rfl
    · rw [Fields.readStruct_missing rest l i ⟨r', t', hlk, hr⟩ hl]
      cases (l.filter (fun p => p.1 == j)).mapM (fun p => Ty.read t p.2) with
      | none => rfl
      | some vs => simp only; cases Slot.ofOption (r.mayOmit .inn) vs.head? <;> rfl

theorem Fields.readVariant_unknown : (gs : Fields) → (i : Nat) → (t : Tree) → i ∉ gs.indices →
    gs.readVariant i t = none
  | .nil, _, _, _ => rfl
  | .cons j r ty rest, i, t, h => by
    simp only [Fields.indices, List.mem_cons, not_or] at h
    simp only [Fields.readVariant, if_neg h.1, Fields.readVariant_unknown rest i t h.2]

/-- Reading a known field of a choice. -/
theorem Fields.readVariant_known : (gs : Fields) → (i : Nat) → (tr : Tree) → (r : Rule) → (t : Ty) →
    gs.lookup i = some (r, t) →
    match t.read tr with
    | none => gs.readVariant i tr = some none
    | some v => ∃ x, gs.readVariant i tr = some (some x) ∧
        match x with
        | .inl a => r = .optional ∧ gs.treeSel a = (i, t.tree v)
        | .inr a => r ≠ .optional ∧ gs.treeSel a = (i, t.tree v)
  | .nil, _, _, _, _, h => by simp [Fields.lookup] at h
  | .cons j r' ty rest, i, tr, r, t, h => by
    rw [Fields.lookup] at h
    simp only [Fields.readVariant]
    split at h
    · rename_i e
      cases h
      subst e
      simp only [if_true]
      cases hr : ty.read tr with
      | none => rfl
      | some v =>
        simp only
        by_cases hf : r'.hasFallback .inn = true
        · refine ⟨_, by rw [dif_pos hf], ?_⟩
          simp only [Fields.treeSel, and_true]
          cases r' <;> simp_all [Rule.hasFallback]
        · refine ⟨_, by rw [dif_neg hf], ?_⟩
          simp only [Fields.treeSel, and_true]
          cases r' <;> simp_all [Rule.hasFallback]
    · rename_i e
      simp only [if_neg e]
      have ih := Fields.readVariant_known rest i tr r t h
      cases hr : t.read tr with
      | none => rw [hr] at ih; simp only at ih ⊢; rw [ih]
      | some v =>
        rw [hr] at ih
        simp only at ih ⊢
        obtain ⟨x, h1, h2⟩ := ih
        rw [h1]
        cases x with
        | inl a => exact ⟨_, rfl, h2⟩
        | inr a => exact ⟨_, rfl, h2⟩

theorem Fields.readChain_isSome (gs : Fields) (l : List (Nat × Tree))
    (h1 : ∀ p ∈ l, ∀ r t, gs.lookup p.1 = some (r, t) → (t.read p.2).isSome)
    (h2 : ∃ p ∈ l, gs.Has p.1 (· ≠ .optional)) : (readChain gs.readVariant l).isSome := by
  induction l with
  | nil => obtain ⟨p, hp, _⟩ := h2; cases hp
  | cons p l ih =>
    have ih := ih (fun q hq => h1 q (by simp [hq]))
    obtain ⟨i, tr⟩ := p
    rw [readChain]
    by_cases hi : i ∈ gs.indices
    · obtain ⟨r, t, hl⟩ := Fields.lookup_of_mem hi
      have hk := Fields.readVariant_known gs i tr r t hl
      obtain ⟨v, hv⟩ := Option.isSome_iff_exists.1 (h1 (i, tr) (by simp) r t hl)
      simp only at hv
      rw [hv] at hk
      obtain ⟨x, h3, h4⟩ := hk
      rw [h3]
      cases x with
      | inr b => rfl
      | inl a =>
        simp only at h4 ⊢
        rw [Option.isSome_map]
        apply ih
        obtain ⟨q, hq, r', t', h5, h6⟩ := h2
        rcases List.mem_cons.1 hq with hq | hq
        · subst hq
          simp only at h5
          rw [hl] at h5
          cases h5
          exact absurd h4.1 h6
        · exact ⟨q, hq, r', t', h5, h6⟩
    · rw [Fields.readVariant_unknown gs i tr hi]
      apply ih
      obtain ⟨q, hq, r', t', h5, h6⟩ := h2
      rcases List.mem_cons.1 hq with hq | hq
      · subst hq; exact absurd (Fields.lookup_mem h5) hi
      · exact ⟨q, hq, r', t', h5, h6⟩

/-- A choice without a recognised required or asymmetric field cannot be read. -/
theorem Fields.readChain_missing (gs : Fields) (l : List (Nat × Tree))
    (h : ∀ p ∈ l, ¬ gs.Has p.1 (· ≠ .optional)) : readChain gs.readVariant l = none := by
  induction l with
  | nil => rfl
  | cons p l ih =>
    have ih := ih (fun q hq => h q (by simp [hq]))
    obtain ⟨i, tr⟩ := p
    rw [readChain]
    by_cases hi : i ∈ gs.indices
    · obtain ⟨r, t, hl⟩ := Fields.lookup_of_mem hi
      have hk := Fields.readVariant_known gs i tr r t hl
      cases hv : t.read tr with
      | none => rw [hv] at hk; simp only at hk; rw [hk]
      | some v =>
        rw [hv] at hk
        obtain ⟨x, h3, h4⟩ := hk
        rw [h3]
        cases x with
        | inr b => exact absurd ⟨r, t, hl, h4.1⟩ (h (i, tr) (by simp))
        | inl a => simp only [ih, Option.map_none]
    · rw [Fields.readVariant_unknown gs i tr hi]
      exact ih

/-! ### What writers write -/

theorem Fields.treeStruct_has : (fs : Fields) → (m : fs.Struct .out) → (i : Nat) →
    fs.Has i (· ≠ .optional) → ∃ p ∈ fs.treeStruct m, p.1 = i
  | .nil, _, _, h => by obtain ⟨_, _, h, _⟩ := h; simp [Fields.lookup] at h
  | .cons j r t rest, (slot, m), i, h => by
    obtain ⟨r', t', hl, hr⟩ := h
    rw [Fields.lookup] at hl
    simp only [Fields.treeStruct, List.mem_append]
    split at hl
    · rename_i e
      cases hl
      cases r
      · exact ⟨(j, t.tree slot), .inl (by simp [Slot.get?, Rule.mayOmit]), e.symm⟩
      · exact absurd rfl hr
      · exact ⟨(j, t.tree slot), .inl (by simp [Slot.get?, Rule.mayOmit]), e.symm⟩
    · obtain ⟨p, hp, he⟩ := Fields.treeStruct_has rest m i ⟨r', t', hl, hr⟩
      exact ⟨p, .inr hp, he⟩

theorem Fields.treeSel_has : (fs : Fields) → fs.indices.Nodup → (p : fs.Sel .out false) →
    fs.Has (fs.treeSel p).1 (· = .required)
  | .nil, _, e => e.elim
  | .cons i r t rest, _, .inl p => by
    refine ⟨r, t, Fields.lookup_cons_self _ _ _ _, ?_⟩
    have := p.ok
    cases r <;> simp_all [Rule.hasFallback]
  | .cons i r t rest, hn, .inr p => by
    simp only [Fields.indices, List.nodup_cons] at hn
    obtain ⟨r', t', h1, h2⟩ := Fields.treeSel_has rest hn.2 p
    simp only [Fields.treeSel]
    exact ⟨r', t', by rw [Fields.lookup_cons_of_mem hn.1 (Fields.lookup_mem h1)]; exact h1, h2⟩

theorem Fields.chain_has (fs : Fields) (hn : fs.indices.Nodup)
    (m : Chain (fs.Sel .out true) (fs.Sel .out false)) :
    ∃ p ∈ m.toList fs.treeSel fs.treeSel, fs.Has p.1 (· = .required) := by
  induction m with
  | last b => exact ⟨_, by simp [Chain.toList], Fields.treeSel_has fs hn b⟩
  | more a rest ih =>
    obtain ⟨p, hp, h⟩ := ih
    exact ⟨p, by simp [Chain.toList, hp], h⟩

/-! ### `CanRead` is sound -/

mutual
theorem CTy.CanRead.shape : (w r : CTy) → w.CanRead r → w.Shape r
  | .bytes, r, h => by simpa only [CTy.CanRead, CTy.Shape] using h
  | .string, r, h => by simpa only [CTy.CanRead, CTy.Shape] using h
  | .units, r, h => by simpa only [CTy.CanRead, CTy.Shape] using h
  | .scalars _, r, h => by simpa only [CTy.CanRead, CTy.Shape] using h
  | .array c, r, h => by
    cases r <;> simp only [CTy.CanRead] at h
    simp only [CTy.Shape]
    exact CTy.CanRead.shape c _ h
  | .struct fs, r, h => by
    cases r <;> simp only [CTy.CanRead] at h <;> simp only [CTy.Shape] <;>
      exact Fields.CanReadShared.shape fs _ h.1
  | .choice fs, r, h => by
    cases r <;> simp only [CTy.CanRead] at h <;> simp only [CTy.Shape] <;>
      exact Fields.CanReadShared.shape fs _ h.1

theorem Ty.CanRead.shape : (w r : Ty) → w.CanRead r → w.Shape r
  | .unit, r, h => by simpa only [Ty.CanRead, Ty.Shape] using h
  | .scalar _, r, h => by simpa only [Ty.CanRead, Ty.Shape] using h
  | .comp c, r, h => by
    cases r <;> simp only [Ty.CanRead] at h
    simp only [Ty.Shape]
    exact CTy.CanRead.shape c _ h

theorem Fields.CanReadShared.shape : (fs gs : Fields) → fs.CanReadShared gs → fs.Shape gs
  | .nil, _, _ => trivial
  | .cons i r t rest, gs, h => by
    simp only [Fields.CanReadShared] at h
    simp only [Fields.Shape]
    exact ⟨fun r' t' hl => Ty.CanRead.shape t t' (h.1 r' t' hl),
      Fields.CanReadShared.shape rest gs h.2⟩
end

mutual
theorem CTy.CanRead.read : (w : CTy) → w.WF → (r : CTy) → r.WF → w.CanRead r →
    (m : w.Msg .out) → (r.read (w.tree m)).isSome
  | .bytes, _, r, _, h, m => by simp only [CTy.CanRead] at h; subst h; rfl
  | .string, _, r, _, h, m => by simp only [CTy.CanRead] at h; subst h; rfl
  | .units, _, r, _, h, m => by simp only [CTy.CanRead] at h; subst h; rfl
  | .scalars s, _, r, _, h, m => by
    simp only [CTy.CanRead] at h; subst h; simp only [CTy.tree, CTy.read, dif_pos]; rfl
  | .array c, hw, r, hr, h, m => by
    cases r <;> simp only [CTy.CanRead] at h
    rename_i c'
    simp only [CTy.WF] at hw hr
    simp only [CTy.tree, CTy.read]
    have : ∀ t ∈ List.map c.tree m, (c'.read t).isSome := by
      intro t ht
      obtain ⟨x, _, rfl⟩ := List.mem_map.1 ht
      exact CTy.CanRead.read c hw c' hr h x
    obtain ⟨vs, hvs, _⟩ := mapM_isSome this
    exact Option.isSome_iff_exists.2 ⟨vs, hvs⟩
  | .struct fs, hw, r, hr, h, m => by
    simp only [CTy.WF] at hw
    cases r <;> simp only [CTy.CanRead] at h <;> rename_i gs <;> simp only [CTy.WF] at hr <;>
      simp only [CTy.tree, CTy.read]
    · refine Fields.readStruct_isSome gs hr.1 _
        (Fields.CanReadShared.read_struct fs hw.2 gs hr.2 h.1 m) ?_
      intro i hi
      exact Fields.treeStruct_has fs m i (h.2 i hi)
    · refine Fields.readChain_isSome gs _ (Fields.CanReadShared.read_struct fs hw.2 gs hr.2 h.1 m) ?_
      obtain ⟨i, h1, h2⟩ := h.2
      obtain ⟨p, hp, he⟩ := Fields.treeStruct_has fs m i h1
      exact ⟨p, hp, he ▸ h2⟩
  | .choice fs, hw, r, hr, h, m => by
    simp only [CTy.WF] at hw
    have hc : ∀ gs : Fields, gs.WF → fs.CanReadShared gs →
        ∀ p ∈ Chain.toList fs.treeSel fs.treeSel m,
        ∀ r' t', gs.lookup p.1 = some (r', t') → (t'.read p.2).isSome := fun gs hg hs =>
      chain_mem_toList _ _ _ (Fields.CanReadShared.read_sel fs hw.2 gs hg hs)
        (Fields.CanReadShared.read_sel fs hw.2 gs hg hs) m
    obtain ⟨p, hp, hreq⟩ := Fields.chain_has fs hw.1 m
    cases r <;> simp only [CTy.CanRead] at h <;> rename_i gs <;> simp only [CTy.WF] at hr <;>
      simp only [CTy.tree, CTy.read]
    · refine Fields.readStruct_isSome gs hr.1 _ (hc gs hr.2 h.1) ?_
      intro i hi
      exact ⟨p, hp, h.2 i hi _ hreq⟩
    · exact Fields.readChain_isSome gs _ (hc gs hr.2 h.1) ⟨p, hp, h.2 _ hreq⟩

theorem Ty.CanRead.read : (w : Ty) → w.WF → (r : Ty) → r.WF → w.CanRead r →
    (m : w.Msg .out) → (r.read (w.tree m)).isSome
  | .unit, _, r, _, h, m => by simp only [Ty.CanRead] at h; subst h; rfl
  | .scalar s, _, r, _, h, m => by
    simp only [Ty.CanRead] at h; subst h
    simp only [Ty.tree, Ty.read, Scalar.cast, dif_pos]; rfl
  | .comp c, hw, r, hr, h, m => by
    cases r <;> simp only [Ty.CanRead] at h
    simp only [Ty.WF] at hw hr
    simp only [Ty.tree, Ty.read]
    exact CTy.CanRead.read c hw _ hr h m

theorem Fields.CanReadShared.read_struct : (fs : Fields) → fs.WF → (gs : Fields) → gs.WF →
    fs.CanReadShared gs → (m : fs.Struct .out) → ∀ p ∈ fs.treeStruct m,
    ∀ r' t', gs.lookup p.1 = some (r', t') → (t'.read p.2).isSome
  | .nil, _, _, _, _, _, p, hp => by simp [Fields.treeStruct] at hp
  | .cons i r t rest, hw, gs, hg, h, (slot, m), p, hp => by
    simp only [Fields.WF] at hw
    simp only [Fields.CanReadShared] at h
    simp only [Fields.treeStruct, List.mem_append] at hp
    rcases hp with hp | hp
    · split at hp
      · cases hp
      · rename_i v _
        simp only [List.mem_singleton] at hp
        subst hp
        intro r' t' hl
        exact Ty.CanRead.read t hw.2.1 t' (hg.lookup hl) (h.1 r' t' hl) v
    · exact Fields.CanReadShared.read_struct rest hw.2.2 gs hg h.2 m p hp

theorem Fields.CanReadShared.read_sel {fb : Bool} : (fs : Fields) → fs.WF → (gs : Fields) → gs.WF →
    fs.CanReadShared gs → (p : fs.Sel .out fb) →
    ∀ r' t', gs.lookup (fs.treeSel p).1 = some (r', t') → (t'.read (fs.treeSel p).2).isSome
  | .nil, _, _, _, _, e => e.elim
  | .cons i r t rest, hw, gs, hg, h, .inl p => by
    simp only [Fields.WF] at hw
    simp only [Fields.CanReadShared] at h
    simp only [Fields.treeSel]
    intro r' t' hl
    exact Ty.CanRead.read t hw.2.1 t' (hg.lookup hl) (h.1 r' t' hl) p.val
  | .cons i r t rest, hw, gs, hg, h, .inr p => by
    simp only [Fields.WF] at hw
    simp only [Fields.CanReadShared] at h
    simp only [Fields.treeSel]
    exact Fields.CanReadShared.read_sel rest hw.2.2 gs hg h.2 p
end

theorem CanReadShared_cons_right : (fs gs : Fields) → fs.CanReadShared gs → (i : Nat) → (r : Rule) → (t : Ty) →
    i ∉ fs.indices → fs.CanReadShared (.cons i r t gs)
  | .nil, _, _, _, _, _, _ => trivial
  | .cons j r' t' rest, gs, h, i, r, t, hn => by
    simp only [Fields.CanReadShared] at h ⊢
    simp only [Fields.indices, List.mem_cons, not_or] at hn
    refine ⟨fun r1 t1 hl => ?_, CanReadShared_cons_right rest gs h.2 i r t hn.2⟩
    rw [Fields.lookup, if_neg (fun e => hn.1 e.symm)] at hl
    exact h.1 r1 t1 hl

end Typical

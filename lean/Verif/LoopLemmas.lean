import Verif.TotalLemmas
import Verif.CompatLemmas

/-!
# Helper lemmas: decoder loops on inputs which are only partly known
-/

namespace Typical

/-! ### The number of rounds does not matter -/

theorem structLoop_fuel {σ : Type} (step : Nat → Nat → Bytes → σ → Except Err (Option (σ × Bytes)))
    (hstep : ∀ i n s st st' rest, step i n s st = .ok (some (st', rest)) → rest <:+ s) :
    ∀ f g s st, s.length < f → s.length < g → structLoop step f s st = structLoop step g s st := by
  intro f
  induction f with
  | zero => intro g s st h; omega
  | succ f ih =>
    intro g s st hf hg
    cases g with
    | zero => omega
    | succ g =>
      simp only [structLoop]
      cases hs : deserializeFieldHeader s with
      | none => rfl
      | some p =>
        obtain ⟨i, n, r⟩ := p
        have h1 := deserializeFieldHeader_suffix hs
        simp only
        cases hr : step i n (r.take n) st with
        | error e => rfl
        | ok q =>
          cases q with
          | some q =>
            obtain ⟨a, rest⟩ := q
            have h3 := (rest_suffix (hstep _ _ _ _ _ _ hr)).length_le
            exact ih g _ _ (by omega) (by omega)
          | none =>
            simp only [skip]
            by_cases hn : n ≤ r.length
            · simp only [if_pos hn]
              exact ih g _ _ (by simp only [List.length_drop]; omega) (by simp only [List.length_drop]; omega)
            · simp only [if_neg hn]

theorem choiceLoop_fuel {α β : Type} (step : Nat → Nat → Bytes → Except Err (Option ((α ⊕ β) × Bytes)))
    (hstep : ∀ i n s a rest, step i n s = .ok (some (a, rest)) → rest <:+ s) :
    ∀ f g s, s.length < f → s.length < g → choiceLoop step f s = choiceLoop step g s := by
  intro f
  induction f with
  | zero => intro g s h; omega
  | succ f ih =>
    intro g s hf hg
    cases g with
    | zero => omega
    | succ g =>
      simp only [choiceLoop]
      cases hs : deserializeFieldHeader s with
      | none => rfl
      | some p =>
        obtain ⟨i, n, r⟩ := p
        have h1 := deserializeFieldHeader_suffix hs
        simp only
        cases hr : step i n (r.take n) with
        | error e => rfl
        | ok q =>
          cases q with
          | some q =>
            obtain ⟨a, rest⟩ := q
            have h3 := (rest_suffix (hstep _ _ _ _ _ hr)).length_le
            cases a with
            | inr b => rfl
            | inl a => simp only [ih g (rest ++ r.drop n) (by omega) (by omega)]
          | none =>
            simp only [skip]
            by_cases hn : n ≤ r.length
            · simp only [if_pos hn]
              exact ih g _ (by simp only [List.length_drop]; omega) (by simp only [List.length_drop]; omega)
            · simp only [if_neg hn]

mutual
theorem CTy.allDecls_true : (c : CTy) → c.AllDecls (fun _ => True)
  | .bytes => by simp only [CTy.AllDecls]
  | .string => by simp only [CTy.AllDecls]
  | .units => by simp only [CTy.AllDecls]
  | .scalars _ => by simp only [CTy.AllDecls]
  | .array c => by simp only [CTy.AllDecls]; exact CTy.allDecls_true c
  | .struct fs => by simp only [CTy.AllDecls]; exact ⟨trivial, Fields.allDecls_true fs⟩
  | .choice fs => by simp only [CTy.AllDecls]; exact ⟨trivial, Fields.allDecls_true fs⟩

theorem Ty.allDecls_true : (t : Ty) → t.AllDecls (fun _ => True)
  | .unit => by simp only [Ty.AllDecls]
  | .scalar _ => by simp only [Ty.AllDecls]
  | .comp c => by simp only [Ty.AllDecls]; exact CTy.allDecls_true c

theorem Fields.allDecls_true : (fs : Fields) → fs.AllDecls (fun _ => True)
  | .nil => by simp only [Fields.AllDecls]
  | .cons _ _ t rest => by
    simp only [Fields.AllDecls]
    exact ⟨Ty.allDecls_true t, Fields.allDecls_true rest⟩
end

/-! ### Suffixes, for any allocation limit -/

theorem readU64Field_suffix {n : Nat} {s r : Bytes} {v : UInt64} (h : readU64Field n s = .ok (v, r)) :
    r <:+ s := by
  have := readU64Field_resOK (D := fun _ => True) (S := True) (lim := 72) (n := n) s
  rw [h] at this
  exact this

theorem Ty.deser_suffix {lim n : Nat} {s r : Bytes} : (t : Ty) → {v : t.Msg .inn} →
    t.deser lim n s = .ok (v, r) → r <:+ s
  | .unit, v, h => by cases h; exact List.suffix_rfl
  | .scalar sc, v, h => by
    have := readScalarField_resOK (D := fun _ => True) (S := True) (lim := 72) (n := n) sc s
    simp only [Ty.deser] at h
    rw [h] at this
    exact this
  | .comp c, v, h => by
    simp only [Ty.deser] at h
    cases c with
    | bytes => simp only [CTy.deser] at h; split at h <;> cases h; exact List.nil_suffix
    | string =>
      simp only [CTy.deser] at h
      split at h
      · split at h <;> cases h; exact List.nil_suffix
      · cases h
    | units => exact readU64Field_suffix h
    | scalars sc =>
      simp only [CTy.deser] at h
      split at h
      · cases h
      · split at h <;> cases h; exact List.nil_suffix
    | array c => simp only [CTy.deser] at h; split at h <;> cases h; exact List.nil_suffix
    | struct fs =>
      simp only [CTy.deser] at h
      split at h
      · cases h
      · split at h <;> cases h; exact List.nil_suffix
    | choice fs => simp only [CTy.deser] at h; split at h <;> cases h; exact List.nil_suffix

theorem Fields.step_suffix {lim : Nat} : (fs : Fields) → (i n : Nat) → (s : Bytes) →
    (st st' : fs.Slots) → (r : Bytes) → fs.step lim i n s st = .ok (some (st', r)) → r <:+ s
  | .nil, _, _, _, _, _, _, h => by cases h
  | .cons j r t rest, i, n, s, (o, os), st', r', h => by
    simp only [Fields.step] at h
    split at h
    · cases hd : t.deser lim n s with
      | error e => rw [hd] at h; cases h
      | ok p => rw [hd] at h; cases h; exact Ty.deser_suffix t hd
    · cases hs : rest.step lim i n s os with
      | error e => rw [hs] at h; cases h
      | ok q =>
        cases q with
        | none => rw [hs] at h; cases h
        | some q =>
          rw [hs] at h
          cases h
          exact Fields.step_suffix rest i n s os q.1 q.2 hs

theorem Fields.select_suffix {lim : Nat} : (fs : Fields) → (i n : Nat) → (s : Bytes) →
    (a : fs.Sel .inn true ⊕ fs.Sel .inn false) → (r : Bytes) →
    fs.select lim i n s = .ok (some (a, r)) → r <:+ s
  | .nil, _, _, _, _, _, h => by cases h
  | .cons j r t rest, i, n, s, a, r', h => by
    simp only [Fields.select] at h
    split at h
    · cases hd : t.deser lim n s with
      | error e => rw [hd] at h; cases h
      | ok p =>
        rw [hd] at h
        simp only at h
        have hs := Ty.deser_suffix t hd
        split at h <;> (cases h; exact hs)
    · cases hs : rest.select lim i n s with
      | error e => rw [hs] at h; cases h
      | ok q =>
        cases q with
        | none => rw [hs] at h; cases h
        | some q =>
          rw [hs] at h
          obtain ⟨q, r2⟩ := q
          have := Fields.select_suffix rest i n s q r2 hs
          cases q <;> (cases h; exact this)

/-! ### Unrecognised fields -/

theorem Fields.step_unknown {lim : Nat} : (fs : Fields) → (i n : Nat) → (s : Bytes) → (st : fs.Slots) →
    i ∉ fs.indices → fs.step lim i n s st = .ok none
  | .nil, _, _, _, _, _ => rfl
  | .cons j r t rest, i, n, s, (o, os), h => by
    simp only [Fields.indices, List.mem_cons, not_or] at h
    simp only [Fields.step, if_neg h.1, Fields.step_unknown rest i n s os h.2]

theorem Fields.select_unknown {lim : Nat} : (fs : Fields) → (i n : Nat) → (s : Bytes) →
    i ∉ fs.indices → fs.select lim i n s = .ok none
  | .nil, _, _, _, _ => rfl
  | .cons j r t rest, i, n, s, h => by
    simp only [Fields.indices, List.mem_cons, not_or] at h
    simp only [Fields.select, if_neg h.1, Fields.select_unknown rest i n s h.2]

/-- The loop gives the same result on `X` and `Y` after the same well-formed fields. -/
theorem structLoop_prefix {σ : Type} (step : Nat → Nat → Bytes → σ → Except Err (Option (σ × Bytes)))
    (ref : σ → Nat × Tree → Option σ) (X Y : Bytes)
    (hXY : ∀ st f g, X.length < f → Y.length < g → structLoop step f X st = structLoop step g Y st)
    (l : List (Nat × Tree)) (hi : ∀ p ∈ l, p.1 < 2 ^ 62)
    (hstep : ∀ p ∈ l, ∀ st, StepAgrees
      (step p.1 (p.2.wire true).length (p.2.wire true) st) st (ref st p)) :
    ∀ st f g, (Tree.wireFields l ++ X).length < f → (Tree.wireFields l ++ Y).length < g →
      (Tree.wireFields l).length < 2 ^ 64 →
      structLoop step f (Tree.wireFields l ++ X) st = structLoop step g (Tree.wireFields l ++ Y) st := by
  induction l with
  | nil => intro st f g hf hg _; exact hXY st f g hf hg
  | cons p l ih =>
    intro st f g hf hg hlt
    obtain ⟨i, t⟩ := p
    cases f with
    | zero => omega
    | succ f =>
    cases g with
    | zero => omega
    | succ g =>
      have hp := field_pos i t.isInteger (t.wire true)
      rw [Tree.wireFields] at hf hg hlt
      simp only [List.length_append] at hf hg hlt
      have ih := ih (fun p hp => hi p (by simp [hp])) (fun p hp => hstep p (by simp [hp]))
      have hs := hstep (i, t) (by simp) st
      simp only at hs
      rw [Tree.wireFields, List.append_assoc, List.append_assoc, structLoop, structLoop,
        deserializeFieldHeader_tree i t _ (hi (i, t) (by simp)) (by omega),
        deserializeFieldHeader_tree i t _ (hi (i, t) (by simp)) (by omega)]
      simp only [take_left', drop_left']
      rcases hs with ⟨h1, h2⟩ | ⟨st', h1, h2⟩ | ⟨e, h1, h2, h3⟩
      · rw [h1]
        simp only [skip, List.length_append, Nat.le_add_right, if_true, drop_left']
        exact ih st f g (by simp only [List.length_append]; omega)
          (by simp only [List.length_append]; omega) (by omega)
      · rw [h1]
        exact ih st' f g (by simp only [List.length_append]; omega)
          (by simp only [List.length_append]; omega) (by omega)
      · rw [h1]

theorem choiceLoop_prefix {α β : Type}
    (step : Nat → Nat → Bytes → Except Err (Option ((α ⊕ β) × Bytes)))
    (ref : Nat → Tree → Option (Option (α ⊕ β))) (X Y : Bytes)
    (hXY : ∀ f g, X.length < f → Y.length < g → choiceLoop step f X = choiceLoop step g Y)
    (l : List (Nat × Tree)) (hi : ∀ p ∈ l, p.1 < 2 ^ 62)
    (hstep : ∀ p ∈ l, SelectAgrees
      (step p.1 (p.2.wire true).length (p.2.wire true)) (ref p.1 p.2)) :
    ∀ f g, (Tree.wireFields l ++ X).length < f → (Tree.wireFields l ++ Y).length < g →
      (Tree.wireFields l).length < 2 ^ 64 →
      choiceLoop step f (Tree.wireFields l ++ X) = choiceLoop step g (Tree.wireFields l ++ Y) := by
  induction l with
  | nil => intro f g hf hg _; exact hXY f g hf hg
  | cons p l ih =>
    intro f g hf hg hlt
    obtain ⟨i, t⟩ := p
    cases f with
    | zero => omega
    | succ f =>
    cases g with
    | zero => omega
    | succ g =>
      have hp := field_pos i t.isInteger (t.wire true)
      rw [Tree.wireFields] at hf hg hlt
      simp only [List.length_append] at hf hg hlt
      have ih := ih (fun p hp => hi p (by simp [hp])) (fun p hp => hstep p (by simp [hp])) f g
        (by simp only [List.length_append]; omega) (by simp only [List.length_append]; omega) (by omega)
      have hs := hstep (i, t) (by simp)
      simp only at hs
      rw [Tree.wireFields, List.append_assoc, List.append_assoc, choiceLoop, choiceLoop,
        deserializeFieldHeader_tree i t _ (hi (i, t) (by simp)) (by omega),
        deserializeFieldHeader_tree i t _ (hi (i, t) (by simp)) (by omega)]
      simp only [take_left', drop_left']
      cases hr : ref i t with
      | none =>
        rw [hr] at hs
        simp only [SelectAgrees] at hs
        rw [hs]
        simp only [skip, List.length_append, Nat.le_add_right, if_true, drop_left']
        exact ih
      | some o =>
        rw [hr] at hs
        cases o with
        | none =>
          obtain ⟨e, h1, h2⟩ := hs
          rw [h1]
        | some ab =>
          simp only [SelectAgrees] at hs
          rw [hs]
          cases ab with
          | inl a => simp only [List.nil_append, ih]
          | inr b => rfl

/-! ### Invariants -/

theorem structLoop_inv {σ : Type} (step : Nat → Nat → Bytes → σ → Except Err (Option (σ × Bytes)))
    (hsuf : ∀ i n s st st' rest, step i n s st = .ok (some (st', rest)) → rest <:+ s)
    (P : σ → Prop) (s0 : Bytes)
    (hP : ∀ body i n r st st' rest, body <:+ s0 → deserializeFieldHeader body = some (i, n, r) →
      step i n (r.take n) st = .ok (some (st', rest)) → P st → P st') :
    ∀ f s st st', s <:+ s0 → P st → structLoop step f s st = .ok st' → P st' := by
  intro f
  induction f with
  | zero => intro s st st' _ _ h; cases h
  | succ f ih =>
    intro s st st' hs hst h
    simp only [structLoop] at h
    cases hh : deserializeFieldHeader s with
    | none => rw [hh] at h; cases h; exact hst
    | some p =>
      obtain ⟨i, n, r⟩ := p
      have h1 := deserializeFieldHeader_suffix hh
      rw [hh] at h
      simp only at h
      cases hr : step i n (r.take n) st with
      | error e => rw [hr] at h; cases h
      | ok q =>
        rw [hr] at h
        cases q with
        | some q =>
          obtain ⟨a, rest⟩ := q
          exact ih _ a st' (((rest_suffix (hsuf _ _ _ _ _ _ hr)).trans h1.1).trans hs)
            (hP s i n r st a rest hs hh hr hst) h
        | none =>
          simp only [skip] at h
          by_cases hn : n ≤ r.length
          · simp only [if_pos hn] at h
            exact ih _ st st' (((List.drop_suffix n r).trans h1.1).trans hs) hst h
          · simp only [if_neg hn] at h; cases h

/-- A successful choice decoder met a header of a field without fallback. -/
theorem choiceLoop_inv {α β : Type} (step : Nat → Nat → Bytes → Except Err (Option ((α ⊕ β) × Bytes)))
    (hsuf : ∀ i n s a rest, step i n s = .ok (some (a, rest)) → rest <:+ s)
    (P : Nat → Prop)
    (hP : ∀ i n s b rest, step i n s = .ok (some (.inr b, rest)) → P i) :
    ∀ f s m, choiceLoop step f s = .ok m →
      ∃ body i n r, body <:+ s ∧ deserializeFieldHeader body = some (i, n, r) ∧ P i := by
  intro f
  induction f with
  | zero => intro s m h; cases h
  | succ f ih =>
    intro s m h
    simp only [choiceLoop] at h
    cases hh : deserializeFieldHeader s with
    | none => rw [hh] at h; cases h
    | some p =>
      obtain ⟨i, n, r⟩ := p
      have h1 := deserializeFieldHeader_suffix hh
      rw [hh] at h
      simp only at h
      cases hr : step i n (r.take n) with
      | error e => rw [hr] at h; cases h
      | ok q =>
        rw [hr] at h
        cases q with
        | some q =>
          obtain ⟨a, rest⟩ := q
          cases a with
          | inr b => exact ⟨s, i, n, r, List.suffix_rfl, hh, hP _ _ _ _ _ hr⟩
          | inl a =>
            simp only at h
            cases hc : choiceLoop step f (rest ++ r.drop n) with
            | error e => rw [hc] at h; cases h
            | ok m' =>
              obtain ⟨body, i', n', r', h2, h3⟩ := ih _ _ hc
              exact ⟨body, i', n', r', h2.trans ((rest_suffix (hsuf _ _ _ _ _ hr)).trans h1.1), h3⟩
        | none =>
          simp only [skip] at h
          by_cases hn : n ≤ r.length
          · simp only [if_pos hn] at h
            obtain ⟨body, i', n', r', h2, h3⟩ := ih _ _ h
            exact ⟨body, i', n', r', h2.trans ((List.drop_suffix n r).trans h1.1), h3⟩
          · simp only [if_neg hn] at h; cases h

/-- The slot of the first field with a given index is empty. -/
def Fields.slotEmpty : (fs : Fields) → Nat → fs.Slots → Prop
  | .nil, _, _ => True
  | .cons i _ _ rest, j, (o, os) => if j = i then o = none else rest.slotEmpty j os

theorem Fields.slotEmpty_empty : (fs : Fields) → (j : Nat) → fs.slotEmpty j fs.emptySlots
  | .nil, _ => trivial
  | .cons i _ _ rest, j => by
    simp only [Fields.slotEmpty, Fields.emptySlots]
    split
    · trivial
    · exact Fields.slotEmpty_empty rest j

theorem Fields.step_slotEmpty {lim : Nat} : (fs : Fields) → (i n : Nat) → (s : Bytes) →
    (st st' : fs.Slots) → (r : Bytes) → fs.step lim i n s st = .ok (some (st', r)) →
    ∀ j, i ≠ j → fs.slotEmpty j st → fs.slotEmpty j st'
  | .nil, _, _, _, _, _, _, _, _, _, _ => trivial
  | .cons k r t rest, i, n, s, (o, os), st', r', h, j, hne, hj => by
    simp only [Fields.step] at h
    simp only [Fields.slotEmpty] at hj
    split at h
    · rename_i e
      cases hd : t.deser lim n s with
      | error e => rw [hd] at h; cases h
      | ok p =>
        rw [hd] at h
        cases h
        simp only [Fields.slotEmpty]
        subst e
        rw [if_neg (fun e => hne e.symm)] at hj ⊢
        exact hj
    · cases hs : rest.step lim i n s os with
      | error e => rw [hs] at h; cases h
      | ok q =>
        cases q with
        | none => rw [hs] at h; cases h
        | some q =>
          rw [hs] at h
          cases h
          simp only [Fields.slotEmpty]
          split
          · rename_i e; rw [if_pos e] at hj; exact hj
          · rename_i e
            rw [if_neg e] at hj
            exact Fields.step_slotEmpty rest i n s os q.1 q.2 hs j hne hj

theorem Fields.finish_slotEmpty : (fs : Fields) → (j : Nat) → fs.Has j (· = .required) →
    (st : fs.Slots) → fs.slotEmpty j st → fs.finish st = none
  | .nil, j, h, _, _ => by obtain ⟨_, _, h, _⟩ := h; simp [Fields.lookup] at h
  | .cons k r t rest, j, h, (o, os), hj => by
    obtain ⟨r', t', hl, hr⟩ := h
    rw [Fields.lookup] at hl
    simp only [Fields.slotEmpty] at hj
    simp only [Fields.finish]
    split at hl
    · rename_i e
      cases hl
      subst hr
      rw [if_pos e] at hj
      subst hj
      rfl
    · rename_i e
      rw [if_neg e] at hj
      rw [Fields.finish_slotEmpty rest j ⟨r', t', hl, hr⟩ os hj]
      cases finishSlot (r.mayOmit .inn) o <;> rfl

theorem Fields.select_last {lim : Nat} : (fs : Fields) → (i n : Nat) → (s : Bytes) →
    (b : fs.Sel .inn false) → (r : Bytes) → fs.select lim i n s = .ok (some (.inr b, r)) →
    fs.Has i (· ≠ .optional)
  | .nil, _, _, _, _, _, h => by cases h
  | .cons j r t rest, i, n, s, b, r', h => by
    simp only [Fields.select] at h
    split at h
    · rename_i e
      cases hd : t.deser lim n s with
      | error e => rw [hd] at h; cases h
      | ok p =>
        rw [hd] at h
        simp only at h
        split at h
        · cases h
        · rename_i hf
          refine ⟨r, t, by rw [e]; exact Fields.lookup_cons_self _ _ _ _, ?_⟩
          intro hr; subst hr; exact hf rfl
    · rename_i e
      cases hs : rest.select lim i n s with
      | error e => rw [hs] at h; cases h
      | ok q =>
        cases q with
        | none => rw [hs] at h; cases h
        | some q =>
          rw [hs] at h
          obtain ⟨q, r2⟩ := q
          cases q with
          | inl a => cases h
          | inr b' =>
            cases h
            obtain ⟨r3, t3, h3, h4⟩ := Fields.select_last rest i n s b' _ hs
            exact ⟨r3, t3, by rw [Fields.lookup, if_neg e]; exact h3, h4⟩

/-! ### Lists of fields -/

theorem Fields.stepTree_isSome : (gs : Fields) → (p : Nat × Tree) →
    (∀ r t, gs.lookup p.1 = some (r, t) → (t.read p.2).isSome) → (st : gs.Slots) →
    ∃ st', gs.stepTree st p = some st'
  | .nil, _, _, st => ⟨st, rfl⟩
  | .cons i r t rest, p, h, (o, os) => by
    simp only [Fields.stepTree]
    by_cases e : p.1 = i
    · have := h r t (by rw [e]; exact Fields.lookup_cons_self _ _ _ _)
      obtain ⟨v, hv⟩ := Option.isSome_iff_exists.1 this
      rw [if_pos e, hv]
      exact ⟨_, rfl⟩
    · rw [if_neg e]
      obtain ⟨st', hst⟩ := Fields.stepTree_isSome rest p
        (fun r' t' hl => h r' t' (by rw [Fields.lookup, if_neg e]; exact hl)) os
      rw [hst]
      exact ⟨_, rfl⟩

theorem foldlM_stepTree_isSome (gs : Fields) (l : List (Nat × Tree))
    (h : ∀ p ∈ l, ∀ r t, gs.lookup p.1 = some (r, t) → (t.read p.2).isSome) (st : gs.Slots) :
    ∃ st', l.foldlM gs.stepTree st = some st' := by
  induction l generalizing st with
  | nil => exact ⟨st, rfl⟩
  | cons p l ih =>
    obtain ⟨st', h1⟩ := Fields.stepTree_isSome gs p (h p (by simp)) st
    rw [List.foldlM_cons, h1]
    exact ih (fun q hq => h q (by simp [hq])) st'

theorem Fields.treeStruct_nodup {d : Dir} : (fs : Fields) → fs.indices.Nodup → (m : fs.Struct d) →
    ((fs.treeStruct m).map Prod.fst).Nodup
  | .nil, _, _ => List.nodup_nil
  | .cons i r t rest, h, (slot, m) => by
    simp only [Fields.indices, List.nodup_cons] at h
    have ih := Fields.treeStruct_nodup rest h.2 m
    simp only [Fields.treeStruct]
    cases slot.get? with
    | none => exact ih
    | some p =>
      simp only [List.cons_append, List.nil_append, List.map_cons, List.nodup_cons]
      refine ⟨fun hm => ?_, ih⟩
      obtain ⟨q, hq, e⟩ := List.mem_map.1 hm
      exact h.1 (e ▸ Fields.treeStruct_mem rest m q hq)

theorem filter_length_le_one {l : List (Nat × Tree)} (h : (l.map Prod.fst).Nodup) (i : Nat) :
    (l.filter (fun p => p.1 == i)).length ≤ 1 := by
  induction l with
  | nil => simp
  | cons p l ih =>
    simp only [List.map_cons, List.nodup_cons] at h
    by_cases e : p.1 = i
    · rw [List.filter_cons_of_pos (by simpa using e), filter_eq_nil_of]
      · simp
      · intro q hq e'
        exact h.1 (by rw [e, ← e']; exact List.mem_map_of_mem hq)
    · rw [List.filter_cons_of_neg (by simpa using e)]
      exact ih h.2

theorem perm_filter_eq {l l' : List (Nat × Tree)} (h : l.Perm l') (hn : (l'.map Prod.fst).Nodup) (i : Nat) :
    l.filter (fun p => p.1 == i) = l'.filter (fun p => p.1 == i) := by
  have hp := h.filter (fun p => p.1 == i)
  have hl := filter_length_le_one hn i
  cases hf : l'.filter (fun p => p.1 == i) with
  | nil => rw [hf] at hp; exact hp.eq_nil
  | cons a as =>
    rw [hf] at hp hl
    have : as = [] := by
      cases as with
      | nil => rfl
      | cons b bs => simp at hl
    subst this
    exact List.perm_singleton.1 hp

end Typical

import Verif.LoopLemmas
import Verif.Spec.Footprint

/-!
# Helper lemmas: memory taken by a deserialised value
-/

namespace Typical

/-- Memory of the slots filled so far. -/
def Fields.heapSlots : (fs : Fields) → fs.Slots → Nat
  | .nil, _ => 0
  | .cons _ _ t rest, (o, os) => (o.map (Ty.heap t)).getD 0 + Fields.heapSlots rest os

theorem Fields.heapSlots_empty : (fs : Fields) → fs.heapSlots fs.emptySlots = 0
  | .nil => rfl
  | .cons _ _ t rest => by
    have := Fields.heapSlots_empty rest
    show (none.map (Ty.heap t)).getD 0 + rest.heapSlots rest.emptySlots = 0
    rw [this]; rfl

theorem finishSlot_get {α : Type} : (b : Bool) → (o : Option α) → (a : Slot b α) → finishSlot b o = some a →
    Slot.get? a = o
  | true, o, a, h => by cases h; rfl
  | false, o, a, h => by
    simp only [finishSlot] at h
    subst h; rfl

theorem Fields.heap_finish : (fs : Fields) → (sl : fs.Slots) → (m : fs.Struct .inn) →
    fs.finish sl = some m → fs.heapStruct m = fs.heapSlots sl
  | .nil, _, _, _ => rfl
  | .cons _ r t rest, (o, os), m, h => by
    simp only [Fields.finish] at h
    cases h1 : finishSlot (r.mayOmit .inn) o with
    | none => rw [h1] at h; cases h
    | some a =>
      cases h2 : rest.finish os with
      | none => rw [h1, h2] at h; cases h
      | some b =>
        rw [h1, h2] at h
        cases h
        show ((Slot.get? a).map (Ty.heap t)).getD 0 + rest.heapStruct b = _
        rw [finishSlot_get _ _ _ h1, Fields.heap_finish rest os b h2]
        rfl

theorem structLoop_heap {σ : Type} (step : Nat → Nat → Bytes → σ → Except Err (Option (σ × Bytes)))
    (μ : σ → Nat) (K : Nat)
    (hstep : ∀ i n s st st' rest, step i n s st = .ok (some (st', rest)) →
      rest <:+ s ∧ μ st' ≤ μ st + K * (s.length - rest.length)) :
    ∀ f s st st', structLoop step f s st = .ok st' → μ st' ≤ μ st + K * s.length := by
  intro f
  induction f with
  | zero => intro s st st' h; cases h
  | succ f ih =>
    intro s st st' h
    simp only [structLoop] at h
    cases hs : deserializeFieldHeader s with
    | none => rw [hs] at h; cases h; omega
    | some p =>
      obtain ⟨i, n, r⟩ := p
      have h1 := (deserializeFieldHeader_suffix hs).2
      rw [hs] at h
      simp only at h
      cases hr : step i n (r.take n) st with
      | error e => rw [hr] at h; cases h
      | ok q =>
        rw [hr] at h
        cases q with
        | some q =>
          obtain ⟨a, rest⟩ := q
          obtain ⟨h2, h3⟩ := hstep _ _ _ _ _ _ hr
          have h4 := ih _ _ _ h
          have h5 := h2.length_le
          have h6 : K * ((r.take n).length - rest.length) + K * (rest ++ r.drop n).length ≤ K * s.length := by
            rw [← Nat.mul_add]
            apply Nat.mul_le_mul_left
            simp only [List.length_append, List.length_take, List.length_drop] at h5 ⊢
            omega
          omega
        | none =>
          simp only [skip] at h
          by_cases hn : n ≤ r.length
          · simp only [if_pos hn] at h
            have h4 := ih _ _ _ h
            have : K * (r.drop n).length ≤ K * s.length := by
              apply Nat.mul_le_mul_left
              simp only [List.length_drop]; omega
            omega
          · simp only [if_neg hn] at h; cases h

theorem choiceLoop_heap {α β : Type} (step : Nat → Nat → Bytes → Except Err (Option ((α ⊕ β) × Bytes)))
    (w : Nat) (f : α → Nat) (g : β → Nat) (K : Nat)
    (hstep : ∀ i n s a rest, step i n s = .ok (some (a, rest)) →
      rest <:+ s ∧ Sum.elim f g a ≤ K * (s.length - rest.length)) :
    ∀ fuel s m, choiceLoop step fuel s = .ok m → Chain.total w f g m ≤ (w + K) * s.length := by
  intro fuel
  induction fuel with
  | zero => intro s m h; cases h
  | succ fuel ih =>
    intro s m h
    simp only [choiceLoop] at h
    cases hs : deserializeFieldHeader s with
    | none => rw [hs] at h; cases h
    | some p =>
      obtain ⟨i, n, r⟩ := p
      have h1 := (deserializeFieldHeader_suffix hs).2
      rw [hs] at h
      simp only at h
      cases hr : step i n (r.take n) with
      | error e => rw [hr] at h; cases h
      | ok q =>
        rw [hr] at h
        cases q with
        | some q =>
          obtain ⟨a, rest⟩ := q
          obtain ⟨h2, h3⟩ := hstep _ _ _ _ _ hr
          have h5 := h2.length_le
          cases a with
          | inr b =>
            simp only at h
            cases h
            simp only [Chain.total, Sum.elim_inr] at h3 ⊢
            refine Nat.le_trans h3 (Nat.mul_le_mul (by omega) ?_)
            simp only [List.length_take]
            omega
          | inl a =>
            simp only at h
            cases hc : choiceLoop step fuel (rest ++ r.drop n) with
            | error e => rw [hc] at h; cases h
            | ok m' =>
              rw [hc] at h
              cases h
              have h4 := ih _ _ hc
              simp only [Chain.total, Sum.elim_inl] at h3 ⊢
              have h6 : K * ((r.take n).length - rest.length) ≤ (w + K) * ((r.take n).length - rest.length) :=
                Nat.mul_le_mul_right _ (by omega)
              have h7 : (w + K) * ((r.take n).length - rest.length) + ((w + K) * 1 +
                  (w + K) * (rest ++ r.drop n).length) ≤ (w + K) * s.length := by
                rw [← Nat.mul_add, ← Nat.mul_add]
                apply Nat.mul_le_mul_left
                simp only [List.length_append, List.length_take, List.length_drop] at h5 ⊢
                omega
              omega
        | none =>
          simp only [skip] at h
          by_cases hn : n ≤ r.length
          · simp only [if_pos hn] at h
            have h4 := ih _ _ h
            have : (w + K) * (r.drop n).length ≤ (w + K) * s.length := by
              apply Nat.mul_le_mul_left
              simp only [List.length_drop]; omega
            omega
          · simp only [if_neg hn] at h; cases h

theorem arrayLoop_heap {α : Type} (elem : Nat → Bytes → Res α) (w : Nat) (μ : α → Nat) (K : Nat)
    (helem : ∀ n s a rest, elem n s = .ok (a, rest) → rest <:+ s ∧ μ a ≤ K * (s.length - rest.length)) :
    ∀ fuel s l, arrayLoop elem fuel s = .ok l → (l.map (fun e => w + μ e)).sum ≤ (w + K) * s.length := by
  intro fuel
  induction fuel with
  | zero => intro s m h; cases h
  | succ fuel ih =>
    intro s l h
    simp only [arrayLoop] at h
    cases hs : deserializeVarint s with
    | none => rw [hs] at h; cases h; simp
    | some p =>
      obtain ⟨v, r⟩ := p
      have h1 := (deserializeVarint_suffix hs).2
      rw [hs] at h
      simp only at h
      cases hr : elem v.toNat (r.take v.toNat) with
      | error e => rw [hr] at h; cases h
      | ok q =>
        obtain ⟨a, rest⟩ := q
        obtain ⟨h2, h3⟩ := helem _ _ _ _ hr
        have h5 := h2.length_le
        rw [hr] at h
        simp only at h
        cases hc : arrayLoop elem fuel (rest ++ r.drop v.toNat) with
        | error e => rw [hc] at h; cases h
        | ok m' =>
          rw [hc] at h
          cases h
          have h4 := ih _ _ hc
          simp only [List.map_cons, List.sum_cons]
          have h6 : K * ((r.take v.toNat).length - rest.length) ≤
              (w + K) * ((r.take v.toNat).length - rest.length) := Nat.mul_le_mul_right _ (by omega)
          have h7 : (w + K) * ((r.take v.toNat).length - rest.length) + ((w + K) * 1 +
              (w + K) * (rest ++ r.drop v.toNat).length) ≤ (w + K) * s.length := by
            rw [← Nat.mul_add, ← Nat.mul_add]
            apply Nat.mul_le_mul_left
            simp only [List.length_append, List.length_take, List.length_drop] at h5 ⊢
            omega
          omega

theorem scalarLoop_length {α : Type} (elem : Bytes → Option (α × Bytes))
    (he : ∀ s a r, elem s = some (a, r) → r.length < s.length) :
    ∀ fuel s l, scalarLoop elem fuel s = .ok l → l.length ≤ s.length := by
  intro fuel
  induction fuel with
  | zero => intro s l h; cases h
  | succ fuel ih =>
    intro s l h
    simp only [scalarLoop] at h
    cases hs : elem s with
    | none => rw [hs] at h; cases h; simp
    | some p =>
      obtain ⟨a, r⟩ := p
      have h1 := he _ _ _ hs
      rw [hs] at h
      simp only at h
      cases hc : scalarLoop elem fuel r with
      | error e => rw [hc] at h; cases h
      | ok m' =>
        rw [hc] at h
        cases h
        have := ih _ _ hc
        simp only [List.length_cons]
        omega

theorem CTy.deser_suffix {lim n : Nat} {s r : Bytes} (isField : Bool) (c : CTy) {v : c.Msg .inn}
    (h : c.deser lim isField n s = .ok (v, r)) : r <:+ s := by
  have := CTy.deser_ok (fun _ => True) True lim isField c (CTy.allDecls_true c) (fun _ => trivial) n s
  rw [h] at this
  exact this

mutual
theorem CTy.deser_heap (lim : Nat) (isField : Bool) : (c : CTy) → (n : Nat) → (s : Bytes) →
    (v : c.Msg .inn) → (rest : Bytes) → c.deser lim isField n s = .ok (v, rest) →
    c.heap v ≤ c.cost * (s.length - rest.length)
  | .bytes, n, s, v, rest, h => by
    simp only [CTy.deser] at h
    split at h <;> cases h
    simp [CTy.heap, CTy.cost]
  | .string, n, s, v, rest, h => by
    simp only [CTy.deser] at h
    split at h
    · split at h <;> cases h
      simp [CTy.heap, CTy.cost]
    · cases h
  | .units, n, s, v, rest, h => by simp [CTy.heap]
  | .scalars sc, n, s, v, rest, h => by
    simp only [CTy.deser] at h
    split at h
    · cases h
    · cases hl : scalarLoop (readScalarElem sc) (s.length + 1) s with
      | error e => rw [hl] at h; cases h
      | ok l =>
        rw [hl] at h
        cases h
        have := scalarLoop_length _ (fun s a r h => (readScalarElem_length sc s a r h).2) _ _ _ hl
        simp only [CTy.heap, CTy.cost, List.length_nil]
        exact Nat.mul_le_mul_left 8 this
  | .array c, n, s, v, rest, h => by
    simp only [CTy.deser] at h
    cases hl : arrayLoop (CTy.deser lim false c) (s.length + 1) s with
    | error e => rw [hl] at h; cases h
    | ok l =>
      rw [hl] at h
      cases h
      have := arrayLoop_heap (CTy.deser lim false c) c.width (CTy.heap c) c.cost
        (fun n s a rest h => ⟨CTy.deser_suffix false c h, CTy.deser_heap lim false c n s a rest h⟩) _ _ _ hl
      simp only [CTy.heap, CTy.cost, List.length_nil]
      exact this
  | .struct fs, n, s, v, rest, h => by
    simp only [CTy.deser] at h
    cases hl : structLoop (fs.step lim) (s.length + 1) s fs.emptySlots with
    | error e => rw [hl] at h; cases h
    | ok sl =>
      rw [hl] at h
      simp only at h
      cases hf : fs.finish sl with
      | none => rw [hf] at h; cases h
      | some m =>
        rw [hf] at h
        cases h
        have h1 := structLoop_heap (fs.step lim) fs.heapSlots fs.cost
          (fun i n s st st' rest h => ⟨Fields.step_suffix fs i n s st st' rest h,
            Fields.step_heap lim fs i n s st st' rest h⟩) _ _ _ _ hl
        have h2 := Fields.heap_finish fs sl v hf
        have h3 := Fields.heapSlots_empty fs
        simp only [CTy.heap, CTy.cost, List.length_nil]
        refine Nat.le_trans (Nat.le_of_eq h2) ?_
        rw [h3, Nat.zero_add] at h1
        exact h1
  | .choice fs, n, s, v, rest, h => by
    simp only [CTy.deser] at h
    cases hl : choiceLoop (fs.select lim) (s.length + 1) s with
    | error e => rw [hl] at h; cases h
    | ok l =>
      rw [hl] at h
      cases h
      have := choiceLoop_heap (fs.select lim) (8 + fs.width) (fs.heapSel) (fs.heapSel) fs.cost
        (fun i n s a rest h => ⟨Fields.select_suffix fs i n s a rest h,
          Fields.select_heap lim fs i n s a rest h⟩) _ _ _ hl
      simp only [CTy.heap, CTy.cost, List.length_nil]
      exact this

theorem Ty.deser_heap (lim : Nat) : (t : Ty) → (n : Nat) → (s : Bytes) →
    (v : t.Msg .inn) → (rest : Bytes) → t.deser lim n s = .ok (v, rest) →
    t.heap v ≤ t.cost * (s.length - rest.length)
  | .unit, n, s, v, rest, h => by simp [Ty.heap]
  | .scalar sc, n, s, v, rest, h => by simp [Ty.heap]
  | .comp c, n, s, v, rest, h => by
    simp only [Ty.deser] at h
    exact CTy.deser_heap lim true c n s v rest h

theorem Fields.step_heap (lim : Nat) : (fs : Fields) → (i n : Nat) → (s : Bytes) →
    (st st' : fs.Slots) → (rest : Bytes) → fs.step lim i n s st = .ok (some (st', rest)) →
    fs.heapSlots st' ≤ fs.heapSlots st + fs.cost * (s.length - rest.length)
  | .nil, _, _, _, _, _, _, h => by cases h
  | .cons j r t fs, i, n, s, (o, os), st', rest, h => by
    simp only [Fields.step] at h
    split at h
    · cases hd : t.deser lim n s with
      | error e => rw [hd] at h; cases h
      | ok p =>
        obtain ⟨v, rest'⟩ := p
        rw [hd] at h
        cases h
        have h1 := Ty.deser_heap lim t n s v rest hd
        have h2 : t.cost * (s.length - rest.length) ≤ (Fields.cons j r t fs).cost * (s.length - rest.length) :=
          Nat.mul_le_mul_right _ (Nat.le_max_left _ _)
        cases o with
        | none => simp only [getOrInsert, Fields.heapSlots, Option.map, Option.getD]; omega
        | some o => simp only [getOrInsert, Fields.heapSlots, Option.map, Option.getD]; omega
    · cases hs : fs.step lim i n s os with
      | error e => rw [hs] at h; cases h
      | ok q =>
        cases q with
        | none => rw [hs] at h; cases h
        | some q =>
          obtain ⟨os', rest'⟩ := q
          rw [hs] at h
          cases h
          have h1 := Fields.step_heap lim fs i n s os os' rest hs
          have h2 : fs.cost * (s.length - rest.length) ≤ (Fields.cons j r t fs).cost * (s.length - rest.length) :=
            Nat.mul_le_mul_right _ (Nat.le_max_right _ _)
          simp only [Fields.heapSlots]
          omega

theorem Fields.select_heap (lim : Nat) : (fs : Fields) → (i n : Nat) → (s : Bytes) →
    (a : fs.Sel .inn true ⊕ fs.Sel .inn false) → (rest : Bytes) →
    fs.select lim i n s = .ok (some (a, rest)) →
    Sum.elim fs.heapSel fs.heapSel a ≤ fs.cost * (s.length - rest.length)
  | .nil, _, _, _, _, _, h => by cases h
  | .cons j r t fs, i, n, s, a, rest, h => by
    simp only [Fields.select] at h
    split at h
    · cases hd : t.deser lim n s with
      | error e => rw [hd] at h; cases h
      | ok p =>
        obtain ⟨v, rest'⟩ := p
        rw [hd] at h
        simp only at h
        have h1 := Ty.deser_heap lim t n s v rest' hd
        have h2 : t.cost * (s.length - rest'.length) ≤
            (Fields.cons j r t fs).cost * (s.length - rest'.length) :=
          Nat.mul_le_mul_right _ (Nat.le_max_left _ _)
        split at h <;> (cases h; exact Nat.le_trans h1 h2)
    · cases hs : fs.select lim i n s with
      | error e => rw [hs] at h; cases h
      | ok q =>
        cases q with
        | none => rw [hs] at h; cases h
        | some q =>
          obtain ⟨q, rest'⟩ := q
          rw [hs] at h
          have h1 := Fields.select_heap lim fs i n s q rest' hs
          have h2 : fs.cost * (s.length - rest'.length) ≤
              (Fields.cons j r t fs).cost * (s.length - rest'.length) :=
            Nat.mul_le_mul_right _ (Nat.le_max_right _ _)
          cases q <;> (cases h; exact Nat.le_trans h1 h2)
end

end Typical

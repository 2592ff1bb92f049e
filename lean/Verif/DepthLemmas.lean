import Verif.Depth
import Verif.Spec.Depth
import Verif.LoopLemmas
import Verif.ReadableLemmas

/-!
# Helper lemmas about the recursion of deserialisers
-/

namespace Typical

theorem CTy.deser_elem_suffix {lim n : Nat} {s r : Bytes} : (c : CTy) → {v : c.Msg .inn} →
    c.deser lim false n s = .ok (v, r) → r <:+ s
  | .bytes, v, h => by simp only [CTy.deser] at h; split at h <;> cases h; exact List.nil_suffix
  | .string, v, h => by
    simp only [CTy.deser] at h
    split at h
    · split at h <;> cases h; exact List.nil_suffix
    · cases h
  | .units, v, h => by
    have h : readU64Elem s = .ok (v, r) := h
    unfold readU64Elem at h
    cases hd : deserializeVarint s with
    | none => rw [hd] at h; cases h
    | some p => rw [hd] at h; cases h; exact (deserializeVarint_suffix hd).1
  | .scalars sc, v, h => by
    simp only [CTy.deser] at h
    split at h
    · cases h
    · split at h <;> cases h; exact List.nil_suffix
  | .array c, v, h => by simp only [CTy.deser] at h; split at h <;> cases h; exact List.nil_suffix
  | .struct fs, v, h => by
    simp only [CTy.deser] at h
    split at h
    · cases h
    · split at h <;> cases h; exact List.nil_suffix
  | .choice fs, v, h => by simp only [CTy.deser] at h; split at h <;> cases h; exact List.nil_suffix

theorem take_append_drop_length {rest s : Bytes} {n : Nat} (h : rest <:+ s.take n) : (rest ++ s.drop n).length ≤ s.length :=
  (rest_suffix h).length_le

/-! ### Upper bounds -/

theorem structDepth_le {σ : Type} (step : Nat → Nat → Bytes → σ → Except Err (Option (σ × Bytes)))
    (depth : Nat → Nat → Bytes → Nat) (K e : Nat) (hd : ∀ i n p, depth i n p ≤ K + e * p.length)
    (hs : ∀ i n p st st' r, step i n p st = .ok (some (st', r)) → r <:+ p) :
    ∀ fuel s st, structDepth step depth fuel s st ≤ K + e * s.length := by
  intro fuel
  induction fuel with
  | zero => intro s st; simp [structDepth]
  | succ fuel ih =>
    intro s st
    simp only [structDepth]
    cases hh : deserializeFieldHeader s with
    | none => simp
    | some p =>
      obtain ⟨i, n, r⟩ := p
      have hr := (deserializeFieldHeader_suffix hh).2
      have mono : ∀ t : Bytes, t.length ≤ r.length → K + e * t.length ≤ K + e * s.length := fun t ht =>
        Nat.add_le_add_left (Nat.mul_le_mul_left e (by omega)) K
      dsimp only
      refine Nat.max_le.mpr ⟨Nat.le_trans (hd i n _) (mono _ (by simp; omega)), ?_⟩
      cases hq : step i n (r.take n) st with
      | error x => simp
      | ok q =>
        cases q with
        | some q => exact Nat.le_trans (ih _ _) (mono _ (take_append_drop_length (hs _ _ _ _ _ _ hq)))
        | none =>
          dsimp only
          unfold skip
          by_cases hn : n ≤ r.length
          · rw [if_pos hn]; exact Nat.le_trans (ih _ _) (mono _ (by simp))
          · rw [if_neg hn]; simp

theorem choiceDepth_le {α β : Type} (step : Nat → Nat → Bytes → Except Err (Option ((α ⊕ β) × Bytes)))
    (depth : Nat → Nat → Bytes → Nat) (K e : Nat) (hd : ∀ i n p, depth i n p ≤ K + e * p.length)
    (hs : ∀ i n p a r, step i n p = .ok (some (a, r)) → r <:+ p)
    (he : ∀ i n p a r, step i n p = .ok (some (.inl a, r)) → 1 ≤ e) :
    ∀ fuel s, choiceDepth step depth fuel s ≤ K + e * s.length := by
  intro fuel
  induction fuel with
  | zero => intro s; simp [choiceDepth]
  | succ fuel ih =>
    intro s
    simp only [choiceDepth]
    cases hh : deserializeFieldHeader s with
    | none => simp
    | some p =>
      obtain ⟨i, n, r⟩ := p
      have hr := (deserializeFieldHeader_suffix hh).2
      have mono : ∀ t : Bytes, t.length ≤ r.length → K + e * t.length ≤ K + e * s.length := fun t ht =>
        Nat.add_le_add_left (Nat.mul_le_mul_left e (by omega)) K
      dsimp only
      refine Nat.max_le.mpr ⟨Nat.le_trans (hd i n _) (mono _ (by simp; omega)), ?_⟩
      cases hq : step i n (r.take n) with
      | error x => simp
      | ok q =>
        cases q with
        | some q =>
          obtain ⟨a, rest⟩ := q
          cases a with
          | inr b => simp
          | inl a =>
            have h1 := he _ _ _ _ _ hq
            have h2 := ih (rest ++ r.drop n)
            have h3 := take_append_drop_length (hs _ _ _ _ _ hq)
            dsimp only
            have h4 : e * (rest ++ r.drop n).length + e ≤ e * s.length := by
              rw [← Nat.mul_succ]; exact Nat.mul_le_mul_left e (by omega)
            omega
        | none =>
          dsimp only
          unfold skip
          by_cases hn : n ≤ r.length
          · rw [if_pos hn]; exact Nat.le_trans (ih _) (mono _ (by simp))
          · rw [if_neg hn]; simp

theorem arrayDepth_le {α : Type} (elem : Nat → Bytes → Res α) (depth : Nat → Bytes → Nat) (K e : Nat)
    (hd : ∀ n p, depth n p ≤ K + e * p.length) (hs : ∀ n p a r, elem n p = .ok (a, r) → r <:+ p) :
    ∀ fuel s, arrayDepth elem depth fuel s ≤ K + e * s.length := by
  intro fuel
  induction fuel with
  | zero => intro s; simp [arrayDepth]
  | succ fuel ih =>
    intro s
    simp only [arrayDepth]
    cases hh : deserializeVarint s with
    | none => simp
    | some p =>
      obtain ⟨n, r⟩ := p
      have hr := (deserializeVarint_suffix hh).2
      have mono : ∀ t : Bytes, t.length ≤ r.length → K + e * t.length ≤ K + e * s.length := fun t ht =>
        Nat.add_le_add_left (Nat.mul_le_mul_left e (by omega)) K
      dsimp only
      refine Nat.max_le.mpr ⟨Nat.le_trans (hd _ _) (mono _ (by simp; omega)), ?_⟩
      cases hq : elem n.toNat (r.take n.toNat) with
      | error x => simp
      | ok q => exact Nat.le_trans (ih _) (mono _ (take_append_drop_length (hs _ _ _ _ hq)))

/-- A variant with fallback is that of an optional field. -/
theorem Fields.sel_optional : (fs : Fields) → (p : fs.Sel .inn true) → fs.indices.Nodup → ∃ i t, fs.lookup i = some (.optional, t)
  | .nil, e, _ => e.elim
  | .cons i r t rest, .inl p, _ => by
    have := p.ok
    have : r = .optional := by cases r <;> simp_all [Rule.hasFallback]
    exact ⟨i, t, by rw [Fields.lookup_cons_self, this]⟩
  | .cons i r t rest, .inr p, hn => by
    simp only [Fields.indices, List.nodup_cons] at hn
    obtain ⟨j, t', h⟩ := Fields.sel_optional rest p hn.2
    exact ⟨j, t', by rw [Fields.lookup_cons_of_mem hn.1 (Fields.lookup_mem h)]; exact h⟩

mutual
/-- The bound with `e = 1` holds for all types, the one with `e = 0` for types without optional fields in choices. -/
theorem CTy.calls_le (lim e : Nat) : (c : CTy) → c.WF → (e = 0 → c.NoOptionalChoice) → ∀ n s, c.calls lim n s ≤ c.height + e * s.length
  | .bytes, _, _, _, _ => by simp [CTy.calls]
  | .string, _, _, _, _ => by simp [CTy.calls]
  | .units, _, _, _, _ => by simp [CTy.calls]
  | .scalars _, _, _, _, _ => by simp [CTy.calls]
  | .array c, hw, he, n, s => by
    simp only [CTy.calls, CTy.height]
    simp only [CTy.WF] at hw
    exact arrayDepth_le _ _ _ e (CTy.calls_le lim e c hw (fun h => by simpa only [CTy.NoOptionalChoice] using he h))
      (fun n p a r h => CTy.deser_elem_suffix c h) _ s
  | .struct fs, hw, he, n, s => by
    simp only [CTy.calls, CTy.height]
    simp only [CTy.WF] at hw
    have := structDepth_le (Fields.step lim fs) (Fields.calls lim fs) fs.height e
      (Fields.calls_le lim e fs hw.2 (fun h => by simpa only [CTy.NoOptionalChoice] using he h))
      (fun i n p st st' r h => Fields.step_suffix fs i n p st st' r h) (s.length + 1) s fs.emptySlots
    omega
  | .choice fs, hw, he, n, s => by
    simp only [CTy.calls, CTy.height]
    simp only [CTy.WF] at hw
    have := choiceDepth_le (Fields.select lim fs) (Fields.calls lim fs) fs.height e
      (Fields.calls_le lim e fs hw.2 (fun h => by have := he h; simp only [CTy.NoOptionalChoice] at this; exact this.2))
      (fun i n p a r h => Fields.select_suffix fs i n p a r h) (by
        intro i n p a r h
        by_cases h0 : e = 0
        · have := he h0
          simp only [CTy.NoOptionalChoice] at this
          obtain ⟨j, t, hl⟩ := Fields.sel_optional fs a hw.1
          exact absurd hl (this.1 j t)
        · omega) (s.length + 1) s
    omega

theorem Ty.calls_le (lim e : Nat) : (t : Ty) → t.WF → (e = 0 → t.NoOptionalChoice) → ∀ n s, t.calls lim n s ≤ t.height + e * s.length
  | .unit, _, _, _, _ => by simp [Ty.calls]
  | .scalar _, _, _, _, _ => by simp [Ty.calls]
  | .comp c, hw, he, n, s => by
    simp only [Ty.WF] at hw
    exact CTy.calls_le lim e c hw (fun h => by simpa only [Ty.NoOptionalChoice] using he h) n s

theorem Fields.calls_le (lim e : Nat) : (fs : Fields) → fs.WF → (e = 0 → fs.NoOptionalChoice) →
    ∀ i n s, fs.calls lim i n s ≤ fs.height + e * s.length
  | .nil, _, _, _, _, _ => by simp [Fields.calls]
  | .cons j r t rest, hw, he, i, n, s => by
    simp only [Fields.WF] at hw
    simp only [Fields.calls, Fields.height]
    have h1 := Ty.calls_le lim e t hw.2.1 (fun h => by have := he h; simp only [Fields.NoOptionalChoice] at this; exact this.1) n s
    have h2 := Fields.calls_le lim e rest hw.2.2
      (fun h => by have := he h; simp only [Fields.NoOptionalChoice] at this; exact this.2) i n s
    split <;> omega
end

/-! ### Lower bounds -/

/-- Depth of the values in the slots of a struct. -/
def Fields.slotsDepth : (fs : Fields) → fs.Slots → Nat
  | .nil, _ => 0
  | .cons _ _ t rest, (o, os) => max (match o with | none => 0 | some v => Ty.valueDepth t v) (rest.slotsDepth os)

theorem Fields.slotsDepth_empty : (fs : Fields) → fs.slotsDepth fs.emptySlots = 0
  | .nil => rfl
  | .cons _ _ t rest => by simp [Fields.emptySlots, Fields.slotsDepth, Fields.slotsDepth_empty rest]

theorem Fields.finish_depth : (fs : Fields) → (os : fs.Slots) → (m : fs.Struct .inn) → fs.finish os = some m →
    fs.structValueDepth m ≤ fs.slotsDepth os
  | .nil, _, _, _ => by simp [Fields.structValueDepth]
  | .cons i r t rest, (o, os), m, h => by
    simp only [Fields.finish] at h
    cases h1 : finishSlot (r.mayOmit .inn) o with
    | none => rw [h1] at h; cases h
    | some a =>
      cases h2 : rest.finish os with
      | none => rw [h1, h2] at h; cases h
      | some b =>
        rw [h1, h2] at h
        cases h
        have ih := Fields.finish_depth rest os b h2
        simp only [Fields.structValueDepth, Fields.slotsDepth]
        have : Slot.get? a = o := by
          revert a
          cases r.mayOmit .inn <;> intro a h1
          · simp only [finishSlot] at h1
            subst h1
            rfl
          · simp only [finishSlot] at h1
            cases h1
            rfl
        rw [this]
        cases o <;> dsimp only <;> omega

theorem structLoop_depth {σ : Type} (step : Nat → Nat → Bytes → σ → Except Err (Option (σ × Bytes)))
    (depth : Nat → Nat → Bytes → Nat) (D : σ → Nat)
    (hs : ∀ i n p st st' r, step i n p st = .ok (some (st', r)) → D st' ≤ max (D st) (depth i n p)) :
    ∀ fuel s st st', structLoop step fuel s st = .ok st' → D st' ≤ max (D st) (structDepth step depth fuel s st) := by
  intro fuel
  induction fuel with
  | zero => intro s st st' h; cases h
  | succ fuel ih =>
    intro s st st' h
    simp only [structLoop] at h
    simp only [structDepth]
    cases hh : deserializeFieldHeader s with
    | none => rw [hh] at h; cases h; simp
    | some p =>
      obtain ⟨i, n, r⟩ := p
      rw [hh] at h
      dsimp only at h ⊢
      cases hq : step i n (r.take n) st with
      | error x => rw [hq] at h; cases h
      | ok q =>
        rw [hq] at h
        cases q with
        | some q =>
          obtain ⟨st1, rest⟩ := q
          dsimp only at h ⊢
          have h1 := ih _ _ _ h
          have h2 := hs _ _ _ _ _ _ hq
          omega
        | none =>
          dsimp only at h ⊢
          cases hk : skip n r with
          | error x => rw [hk] at h; cases h
          | ok s' =>
            rw [hk] at h
            dsimp only at h ⊢
            have h1 := ih _ _ _ h
            omega

theorem choiceLoop_depth {α β : Type} (step : Nat → Nat → Bytes → Except Err (Option ((α ⊕ β) × Bytes)))
    (depth : Nat → Nat → Bytes → Nat) (f : α → Nat) (g : β → Nat)
    (hs : ∀ i n p a r, step i n p = .ok (some (a, r)) → Sum.elim f g a ≤ depth i n p) :
    ∀ fuel s m, choiceLoop step fuel s = .ok m → CTy.valueDepth.chainDepth f g m ≤ 1 + choiceDepth step depth fuel s := by
  intro fuel
  induction fuel with
  | zero => intro s m h; cases h
  | succ fuel ih =>
    intro s m h
    simp only [choiceLoop] at h
    simp only [choiceDepth]
    cases hh : deserializeFieldHeader s with
    | none => rw [hh] at h; cases h
    | some p =>
      obtain ⟨i, n, r⟩ := p
      rw [hh] at h
      dsimp only at h ⊢
      cases hq : step i n (r.take n) with
      | error x => rw [hq] at h; cases h
      | ok q =>
        rw [hq] at h
        cases q with
        | some q =>
          obtain ⟨a, rest⟩ := q
          have h2 := hs _ _ _ _ _ hq
          cases a with
          | inr b =>
            cases h
            simp only [CTy.valueDepth.chainDepth, Sum.elim] at h2 ⊢
            omega
          | inl a =>
            dsimp only at h ⊢
            cases hl : choiceLoop step fuel (rest ++ r.drop n) with
            | error x => rw [hl] at h; cases h
            | ok m' =>
              rw [hl] at h
              cases h
              have h1 := ih _ _ hl
              simp only [CTy.valueDepth.chainDepth, Sum.elim] at h2 ⊢
              omega
        | none =>
          dsimp only at h ⊢
          cases hk : skip n r with
          | error x => rw [hk] at h; cases h
          | ok s' =>
            rw [hk] at h
            dsimp only at h ⊢
            have h1 := ih _ _ h
            omega

theorem arrayLoop_depth {α : Type} (elem : Nat → Bytes → Res α) (depth : Nat → Bytes → Nat) (D : α → Nat)
    (hs : ∀ n p a r, elem n p = .ok (a, r) → D a ≤ depth n p) :
    ∀ fuel s l, arrayLoop elem fuel s = .ok l → (l.map D).foldr max 0 ≤ arrayDepth elem depth fuel s := by
  intro fuel
  induction fuel with
  | zero => intro s l h; cases h
  | succ fuel ih =>
    intro s l h
    simp only [arrayLoop] at h
    simp only [arrayDepth]
    cases hh : deserializeVarint s with
    | none => rw [hh] at h; cases h; simp
    | some p =>
      obtain ⟨n, r⟩ := p
      rw [hh] at h
      dsimp only at h ⊢
      cases hq : elem n.toNat (r.take n.toNat) with
      | error x => rw [hq] at h; cases h
      | ok q =>
        rw [hq] at h
        dsimp only at h ⊢
        cases hl : arrayLoop elem fuel (q.2 ++ r.drop n.toNat) with
        | error x => rw [hl] at h; cases h
        | ok l' =>
          rw [hl] at h
          cases h
          have h1 := ih _ _ hl
          have h2 := hs _ _ _ _ hq
          simp only [List.map_cons, List.foldr_cons]
          omega

mutual
theorem CTy.calls_ge (lim : Nat) (isField : Bool) : (c : CTy) → ∀ n s v r, c.deser lim isField n s = .ok (v, r) →
    c.valueDepth v ≤ c.calls lim n s
  | .bytes, _, _, _, _, _ => by simp [CTy.valueDepth]
  | .string, _, _, _, _, _ => by simp [CTy.valueDepth]
  | .units, _, _, _, _, _ => by simp [CTy.valueDepth]
  | .scalars _, _, _, _, _, _ => by simp [CTy.valueDepth]
  | .array c, n, s, v, r, h => by
    simp only [CTy.deser] at h
    simp only [CTy.valueDepth, CTy.calls]
    cases hl : arrayLoop (CTy.deser lim false c) (s.length + 1) s with
    | error e => rw [hl] at h; cases h
    | ok as =>
      rw [hl] at h
      cases h
      exact arrayLoop_depth _ _ _ (CTy.calls_ge lim false c) _ _ _ hl
  | .struct fs, n, s, v, r, h => by
    simp only [CTy.deser] at h
    simp only [CTy.valueDepth, CTy.calls]
    cases hl : structLoop (Fields.step lim fs) (s.length + 1) s fs.emptySlots with
    | error e => rw [hl] at h; cases h
    | ok slots =>
      rw [hl] at h
      dsimp only at h
      cases hf : fs.finish slots with
      | none => rw [hf] at h; cases h
      | some m =>
        rw [hf] at h
        cases h
        have h1 := Fields.finish_depth fs slots _ hf
        have h2 := structLoop_depth _ (Fields.calls lim fs) fs.slotsDepth (Fields.calls_ge_step lim fs) _ _ _ _ hl
        rw [fs.slotsDepth_empty] at h2
        omega
  | .choice fs, n, s, v, r, h => by
    simp only [CTy.deser] at h
    simp only [CTy.valueDepth, CTy.calls]
    cases hl : choiceLoop (Fields.select lim fs) (s.length + 1) s with
    | error e => rw [hl] at h; cases h
    | ok m =>
      rw [hl] at h
      cases h
      exact choiceLoop_depth _ (Fields.calls lim fs) _ _ (Fields.calls_ge_select lim fs) _ _ _ hl

theorem Ty.calls_ge (lim : Nat) : (t : Ty) → ∀ n s v r, t.deser lim n s = .ok (v, r) → t.valueDepth v ≤ t.calls lim n s
  | .unit, _, _, _, _, _ => by simp [Ty.valueDepth]
  | .scalar _, _, _, _, _, _ => by simp [Ty.valueDepth]
  | .comp c, n, s, v, r, h => CTy.calls_ge lim true c n s v r h

theorem Fields.calls_ge_step (lim : Nat) : (fs : Fields) → ∀ i n p st st' r, fs.step lim i n p st = .ok (some (st', r)) →
    fs.slotsDepth st' ≤ max (fs.slotsDepth st) (fs.calls lim i n p)
  | .nil, _, _, _, _, _, _, h => by cases h
  | .cons j r t rest, i, n, p, (o, os), st', r', h => by
    simp only [Fields.step] at h
    simp only [Fields.calls]
    by_cases e : i = j
    · rw [if_pos e] at h ⊢
      cases hd : t.deser lim n p with
      | error x => rw [hd] at h; cases h
      | ok q =>
        rw [hd] at h
        cases h
        have := Ty.calls_ge lim t n p q.1 q.2 hd
        simp only [Fields.slotsDepth]
        cases o with
        | none => simp only [getOrInsert]; omega
        | some v => simp only [getOrInsert]; omega
    · rw [if_neg e] at h ⊢
      cases hs : rest.step lim i n p os with
      | error x => rw [hs] at h; cases h
      | ok q =>
        cases q with
        | none => rw [hs] at h; cases h
        | some q =>
          rw [hs] at h
          cases h
          have := Fields.calls_ge_step lim rest i n p os q.1 q.2 hs
          simp only [Fields.slotsDepth]
          omega

theorem Fields.calls_ge_select (lim : Nat) : (fs : Fields) → ∀ i n p a r, fs.select lim i n p = .ok (some (a, r)) →
    Sum.elim (Fields.selDepth fs) (Fields.selDepth fs) a ≤ fs.calls lim i n p
  | .nil, _, _, _, _, _, h => by cases h
  | .cons j r t rest, i, n, p, a, r', h => by
    simp only [Fields.select] at h
    simp only [Fields.calls]
    by_cases e : i = j
    · rw [if_pos e] at h ⊢
      cases hd : t.deser lim n p with
      | error x => rw [hd] at h; cases h
      | ok q =>
        rw [hd] at h
        dsimp only at h
        have := Ty.calls_ge lim t n p q.1 q.2 hd
        split at h
        · cases h; simpa only [Sum.elim, Fields.selDepth] using this
        · cases h; simpa only [Sum.elim, Fields.selDepth] using this
    · rw [if_neg e] at h ⊢
      cases hs : rest.select lim i n p with
      | error x => rw [hs] at h; cases h
      | ok q =>
        cases q with
        | none => rw [hs] at h; cases h
        | some q =>
          rw [hs] at h
          obtain ⟨a', r1⟩ := q
          have := Fields.calls_ge_select lim rest i n p a' r1 hs
          cases a' with
          | inl x => cases h; simpa only [Sum.elim, Fields.selDepth] using this
          | inr x => cases h; simpa only [Sum.elim, Fields.selDepth] using this
end

/-! ### Deep messages -/

theorem Slot.toIn_full {α β : Type} (f : α → β) (r : Rule) (a : α) :
    Slot.get? (Slot.toIn f r (Slot.full a (r.mayOmit .out))) = some (f a) := by
  cases r <;> rfl

/-- Depth of a chain after conversion, at least that of its first payload. -/
theorem Fields.chain_depth_more (fs : Fields) (p : fs.Sel .out true) (m : Chain (fs.Sel .out true) (fs.Sel .out false)) :
    Sum.elim fs.selDepth fs.selDepth (fs.linkToIn p) ≤
      CTy.valueDepth.chainDepth fs.selDepth fs.selDepth (Chain.toIn fs.linkToIn fs.lastToIn (.more p m)) := by
  rw [Chain.toIn]
  cases fs.linkToIn p with
  | inl a => simp only [CTy.valueDepth.chainDepth, Sum.elim]; omega
  | inr b => simp only [CTy.valueDepth.chainDepth, Sum.elim]; omega

/-- A variant with a given payload: depth after conversion. -/
theorem Fields.sel_depth_link : (fs : Fields) → ∀ i r t, fs.lookup i = some (r, t) → ∀ v : t.Msg .out, r.hasFallback .out = true →
    ∃ p : fs.Sel .out true, t.valueDepth (t.toIn v) ≤ Sum.elim fs.selDepth fs.selDepth (fs.linkToIn p) ∧
      (r = .optional → ∃ a, fs.linkToIn p = .inl a)
  | .nil, _, _, _, h, _, _ => by simp [Fields.lookup] at h
  | .cons j r' t' rest, i, r, t, h, v, hfb => by
    rw [Fields.lookup] at h
    split at h
    · cases h
      refine ⟨(.inl ⟨v, hfb⟩ : Guard (r'.hasFallback .out = true) (t'.Msg .out) ⊕ rest.Sel .out true), ?_, ?_⟩
      · simp only [Fields.linkToIn]
        split <;> simp [Sum.elim, Fields.selDepth]
      · rintro rfl
        exact ⟨_, by simp only [Fields.linkToIn]; exact dif_pos rfl⟩
    · obtain ⟨p, h1, h2⟩ := Fields.sel_depth_link rest i r t h v hfb
      refine ⟨(.inr p : Guard (r'.hasFallback .out = true) (t'.Msg .out) ⊕ rest.Sel .out true), ?_, ?_⟩
      · simp only [Fields.linkToIn]
        cases hl : rest.linkToIn p with
        | inl a => rw [hl] at h1; simpa only [Sum.elim, Fields.selDepth] using h1
        | inr a => rw [hl] at h1; simpa only [Sum.elim, Fields.selDepth] using h1
      · intro e
        obtain ⟨a, ha⟩ := h2 e
        exact ⟨.inr a, by simp only [Fields.linkToIn, ha]⟩

theorem Fields.sel_depth_last : (fs : Fields) → ∀ i r t, fs.lookup i = some (r, t) → ∀ v : t.Msg .out, r.hasFallback .out = false →
    ∃ p : fs.Sel .out false, t.valueDepth (t.toIn v) ≤ fs.selDepth (fs.lastToIn p)
  | .nil, _, _, _, h, _, _ => by simp [Fields.lookup] at h
  | .cons j r' t' rest, i, r, t, h, v, hfb => by
    rw [Fields.lookup] at h
    split at h
    · cases h
      exact ⟨(.inl ⟨v, hfb⟩ : Guard (r'.hasFallback .out = false) (t'.Msg .out) ⊕ rest.Sel .out false), by
        simp [Fields.lastToIn, Fields.selDepth]⟩
    · obtain ⟨p, h1⟩ := Fields.sel_depth_last rest i r t h v hfb
      exact ⟨(.inr p : Guard (r'.hasFallback .out = false) (t'.Msg .out) ⊕ rest.Sel .out false), by
        simpa only [Fields.lastToIn, Fields.selDepth] using h1⟩

/-- A chain whose first payload is given. -/
theorem Fields.chain_depth_with (fs : Fields) (hp : (CTy.choice fs).Productive) (i : Nat) (r : Rule) (t : Ty)
    (h : fs.lookup i = some (r, t)) (v : t.Msg .out) :
    ∃ m : Chain (fs.Sel .out true) (fs.Sel .out false),
      t.valueDepth (t.toIn v) ≤ CTy.valueDepth.chainDepth fs.selDepth fs.selDepth (Chain.toIn fs.linkToIn fs.lastToIn m) := by
  cases hf : r.hasFallback .out with
  | true =>
    obtain ⟨p, h1, -⟩ := fs.sel_depth_link i r t h v hf
    obtain ⟨m⟩ := CTy.Productive.nonempty _ hp
    exact ⟨.more p m, Nat.le_trans h1 (fs.chain_depth_more p m)⟩
  | false =>
    obtain ⟨p, h1⟩ := fs.sel_depth_last i r t h v hf
    refine ⟨.last p, Nat.le_trans h1 ?_⟩
    simp only [Chain.toIn, CTy.valueDepth.chainDepth]
    omega

/-- Long chains. -/
theorem Fields.long_chain (fs : Fields) (hp : (CTy.choice fs).Productive) (i : Nat) (t : Ty)
    (h : fs.lookup i = some (.optional, t)) (n : Nat) :
    ∃ m : Chain (fs.Sel .out true) (fs.Sel .out false),
      n ≤ CTy.valueDepth.chainDepth fs.selDepth fs.selDepth (Chain.toIn fs.linkToIn fs.lastToIn m) := by
  have hp' := hp
  simp only [CTy.Productive] at hp'
  obtain ⟨v⟩ := Fields.Productive.lookup_nonempty fs hp'.2 i _ t h
  obtain ⟨p, -, h2⟩ := fs.sel_depth_link i _ t h v rfl
  obtain ⟨a, ha⟩ := h2 rfl
  obtain ⟨m0⟩ := CTy.Productive.nonempty _ hp
  induction n with
  | zero => exact ⟨m0, Nat.zero_le _⟩
  | succ n ih =>
    obtain ⟨m, hm⟩ := ih
    refine ⟨.more p m, ?_⟩
    rw [Chain.toIn, ha]
    simp only [CTy.valueDepth.chainDepth]
    omega

mutual
theorem CTy.deep : (c : CTy) → c.WF → c.Productive → ¬ c.NoOptionalChoice → ∀ n, ∃ m : c.Msg .out, n ≤ c.valueDepth (c.toIn m)
  | .bytes, _, _, h, _ => absurd trivial h
  | .string, _, _, h, _ => absurd trivial h
  | .units, _, _, h, _ => absurd trivial h
  | .scalars _, _, _, h, _ => absurd trivial h
  | .array c, hw, hp, h, n => by
    simp only [CTy.WF] at hw
    simp only [CTy.Productive] at hp
    simp only [CTy.NoOptionalChoice] at h
    obtain ⟨m, hm⟩ := CTy.deep c hw hp h n
    refine ⟨([m] : List (c.Msg .out)), ?_⟩
    simp only [CTy.toIn, CTy.valueDepth, List.map_cons, List.map_nil, List.foldr_cons, List.foldr_nil]
    omega
  | .struct fs, hw, hp, h, n => by
    simp only [CTy.WF] at hw
    simp only [CTy.Productive] at hp
    simp only [CTy.NoOptionalChoice] at h
    obtain ⟨i, r, t, hl, hd⟩ := Fields.deep fs hw.2 hp h
    have hl := hl.resolve_right (fun g => g hw.1)
    obtain ⟨v, hv⟩ := hd n
    have : ∀ gs : Fields, gs.Productive → gs.lookup i = some (r, t) →
        ∃ m : gs.Struct .out, t.valueDepth (t.toIn v) ≤ gs.structValueDepth (gs.structToIn m) := by
      intro gs
      induction gs using Fields.rec (motive_1 := fun _ => True) (motive_2 := fun _ => True) with
      | nil => intro _ h; simp [Fields.lookup] at h
      | cons j r' t' rest _ ih =>
        intro hp h
        simp only [Fields.Productive] at hp
        rw [Fields.lookup] at h
        split at h
        · cases h
          obtain ⟨m, -⟩ := Fields.Productive.default rest hp.2
          refine ⟨(Slot.full v _, m), ?_⟩
          simp only [Fields.structToIn, Fields.structValueDepth, Slot.toIn_full]
          omega
        · obtain ⟨m, hm⟩ := ih hp.2 h
          obtain ⟨w⟩ := Ty.Productive.nonempty t' hp.1
          refine ⟨(Slot.full w _, m), ?_⟩
          simp only [Fields.structToIn, Fields.structValueDepth]
          omega
      | _ => trivial
    obtain ⟨m, hm⟩ := this fs hp hl
    exact ⟨m, by simp only [CTy.toIn, CTy.valueDepth]; omega⟩
  | .choice fs, hw, hp, h, n => by
    simp only [CTy.WF] at hw
    have hp' := hp
    simp only [CTy.Productive] at hp'
    simp only [CTy.NoOptionalChoice] at h
    by_cases ho : ∃ i t, fs.lookup i = some (.optional, t)
    · obtain ⟨i, t, hl⟩ := ho
      exact fs.long_chain hp i t hl n
    · have h' : ¬ fs.NoOptionalChoice := fun g => h ⟨fun i t hl => ho ⟨i, t, hl⟩, g⟩
      obtain ⟨i, r, t, hl, hd⟩ := Fields.deep fs hw.2 hp'.2 h'
      have hl := hl.resolve_right (fun g => g hw.1)
      obtain ⟨v, hv⟩ := hd n
      obtain ⟨m, hm⟩ := fs.chain_depth_with hp i r t hl v
      exact ⟨m, by simp only [CTy.toIn, CTy.valueDepth]; omega⟩

theorem Ty.deep : (t : Ty) → t.WF → t.Productive → ¬ t.NoOptionalChoice → ∀ n, ∃ m : t.Msg .out, n ≤ t.valueDepth (t.toIn m)
  | .unit, _, _, h, _ => absurd trivial h
  | .scalar _, _, _, h, _ => absurd trivial h
  | .comp c, hw, hp, h, n => by
    simp only [Ty.WF] at hw
    simp only [Ty.Productive] at hp
    simp only [Ty.NoOptionalChoice] at h
    exact CTy.deep c hw hp h n

/-- Some field has deep values. -/
theorem Fields.deep : (fs : Fields) → fs.WF → fs.Productive → ¬ fs.NoOptionalChoice →
    ∃ i r t, (fs.lookup i = some (r, t) ∨ ¬ fs.indices.Nodup) ∧ ∀ n, ∃ m : t.Msg .out, n ≤ t.valueDepth (t.toIn m)
  | .nil, _, _, h => absurd trivial h
  | .cons i r t rest, hw, hp, h => by
    simp only [Fields.WF] at hw
    simp only [Fields.Productive] at hp
    simp only [Fields.NoOptionalChoice] at h
    by_cases ht : t.NoOptionalChoice
    · obtain ⟨j, r', t', hl, hd⟩ := Fields.deep rest hw.2.2 hp.2 (fun g => h ⟨ht, g⟩)
      refine ⟨j, r', t', ?_, hd⟩
      by_cases hn : (Fields.cons i r t rest).indices.Nodup
      · left
        simp only [Fields.indices, List.nodup_cons] at hn
        have hl := hl.resolve_right (fun g => g hn.2)
        rw [Fields.lookup_cons_of_mem hn.1 (Fields.lookup_mem hl)]
        exact hl
      · exact .inr hn
    · exact ⟨i, r, t, .inl (Fields.lookup_cons_self _ _ _ _), Ty.deep t hw.2.1 hp.1 ht⟩
end

end Typical

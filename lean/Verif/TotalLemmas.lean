import Verif.ReadLemmas
import Verif.Spec.Decls

/-!
# Helper lemmas: the decoder on arbitrary bytes
-/

namespace Typical

theorem deserializeVarint_suffix {s r : Bytes} {v : UInt64} (h : deserializeVarint s = some (v, r)) :
    r <:+ s ∧ r.length < s.length := by
  cases s with
  | nil => cases h
  | cons b s =>
    simp only [deserializeVarint] at h
    cases hr : readExact (trailingZeros b) s with
    | none => rw [hr] at h; cases h
    | some p =>
      obtain ⟨x, y⟩ := p
      rw [hr] at h
      have hy : y = r := by
        simp only at h
        split at h <;> exact congrArg Prod.snd (Option.some.inj h)
      subst hy
      unfold readExact at hr
      split at hr
      · cases hr
        constructor
        · exact (List.drop_suffix _ _).trans (List.suffix_cons _ _)
        · simp only [List.length_drop, List.length_cons]; omega
      · cases hr

theorem readExact_suffix {n : Nat} {s b r : Bytes} (h : readExact n s = some (b, r)) :
    r <:+ s ∧ b = s.take n ∧ n ≤ s.length := by
  unfold readExact at h
  split at h
  · cases h; exact ⟨List.drop_suffix _ _, rfl, by assumption⟩
  · cases h

theorem deserializeFieldHeader_suffix {s r : Bytes} {i n : Nat}
    (h : deserializeFieldHeader s = some (i, n, r)) : r <:+ s ∧ r.length < s.length := by
  unfold deserializeFieldHeader at h
  cases hv : deserializeVarint s with
  | none => rw [hv] at h; cases h
  | some p =>
    obtain ⟨v, r1⟩ := p
    have h1 := deserializeVarint_suffix hv
    rw [hv] at h
    simp only at h
    split at h
    · cases h; exact h1
    · split at h
      · cases h; exact h1
      · split at h
        · cases r1 with
          | nil => cases h
          | cons b r1 => cases h; exact h1
        · cases hv2 : deserializeVarint r1 with
          | none => rw [hv2] at h; cases h
          | some p =>
            obtain ⟨v2, r2⟩ := p
            have h2 := deserializeVarint_suffix hv2
            rw [hv2] at h
            cases h
            exact ⟨h2.1.trans h1.1, by omega⟩

/-- The payload size of a header is at most 9 or an explicit integer in the input. -/
theorem deserializeFieldHeader_size {s r : Bytes} {i n : Nat}
    (h : deserializeFieldHeader s = some (i, n, r)) :
    n ≤ 9 ∨ ∃ s' v r', s' <:+ s ∧ deserializeVarint s' = some (v, r') ∧ v.toNat = n := by
  unfold deserializeFieldHeader at h
  cases hv : deserializeVarint s with
  | none => rw [hv] at h; cases h
  | some p =>
    obtain ⟨v, r1⟩ := p
    have h1 := deserializeVarint_suffix hv
    rw [hv] at h
    simp only at h
    split at h
    · cases h; omega
    · split at h
      · cases h; omega
      · split at h
        · cases r1 with
          | nil => cases h
          | cons b r1 =>
            cases h
            left
            have := trailingZeros_le b
            unfold varintSizeFromFirstByte
            omega
        · cases hv2 : deserializeVarint r1 with
          | none => rw [hv2] at h; cases h
          | some p =>
            obtain ⟨v2, r2⟩ := p
            rw [hv2] at h
            cases h
            exact .inr ⟨r1, v2, _, h1.1, hv2, rfl⟩

theorem rest_suffix {rest s : Bytes} {n : Nat} (h : rest <:+ s.take n) : rest ++ s.drop n <:+ s := by
  obtain ⟨t, ht⟩ := h
  refine ⟨t, ?_⟩
  rw [← List.append_assoc, ht, List.take_append_drop]

/-! ### Loops: number of rounds -/

/-- What a decoder of part of the input may do: succeed, leaving a suffix, or fail in a way allowed by
`Q`. -/
def ResOK {α : Type} (Q : Err → Bytes → Prop) (s : Bytes) (r : Res α) : Prop :=
  match r with
  | .ok (_, rest) => rest <:+ s
  | .error e => Q e s

def ExOK {α : Type} (Q : Err → Bytes → Prop) (s : Bytes) (r : Except Err α) : Prop :=
  match r with
  | .ok _ => True
  | .error e => Q e s

def StepOK {α : Type} (Q : Err → Bytes → Prop) (s : Bytes) (r : Except Err (Option (α × Bytes))) : Prop :=
  match r with
  | .ok (some (_, rest)) => rest <:+ s
  | .ok none => True
  | .error e => Q e s

/-- `Q` is preserved when the decoder is run on a part of the input. -/
def Mono (Q : Err → Bytes → Prop) : Prop := ∀ e s s', s <:+: s' → Q e s → Q e s'

theorem scalarLoop_ok {α : Type} (elem : Bytes → Option (α × Bytes))
    (he : ∀ s a r, elem s = some (a, r) → r.length < s.length) :
    ∀ fuel s, s.length < fuel → ∃ l, scalarLoop elem fuel s = .ok l := by
  intro fuel
  induction fuel with
  | zero => intro s h; omega
  | succ fuel ih =>
    intro s h
    simp only [scalarLoop]
    cases hs : elem s with
    | none => exact ⟨_, rfl⟩
    | some p =>
      obtain ⟨a, r⟩ := p
      have := he s a r hs
      obtain ⟨l, hl⟩ := ih r (by omega)
      simp only [hl]
      exact ⟨_, rfl⟩

theorem arrayLoop_ok {α : Type} (Q : Err → Bytes → Prop) (hm : Mono Q) (elem : Nat → Bytes → Res α)
    (he : ∀ s v r, deserializeVarint s = some (v, r) → ResOK (fun e _ => Q e s) (r.take v.toNat)
      (elem v.toNat (r.take v.toNat))) :
    ∀ fuel s, s.length < fuel → ExOK Q s (arrayLoop elem fuel s) := by
  intro fuel
  induction fuel with
  | zero => intro s h; omega
  | succ fuel ih =>
    intro s h
    simp only [arrayLoop]
    cases hs : deserializeVarint s with
    | none => trivial
    | some p =>
      obtain ⟨v, r⟩ := p
      have h1 := deserializeVarint_suffix hs
      have h2 := he s v r hs
      simp only
      cases hr : elem v.toNat (r.take v.toNat) with
      | error e => rw [hr] at h2; exact h2
      | ok q =>
        obtain ⟨a, rest⟩ := q
        rw [hr] at h2
        have h3 := rest_suffix h2
        have h4 := ih (rest ++ r.drop v.toNat) (by have := h3.length_le; omega)
        simp only
        cases hl : arrayLoop elem fuel (rest ++ r.drop v.toNat) with
        | ok l => trivial
        | error e =>
          rw [hl] at h4
          exact hm e _ _ (h3.trans h1.1).isInfix h4

/-- The decoder met an unrecognised field whose payload is longer than what remains. -/
def TruncatedAt (known : Nat → Prop) (s : Bytes) : Prop :=
  ∃ i n r, deserializeFieldHeader s = some (i, n, r) ∧ r.length < n ∧ ¬ known i

theorem structLoop_ok {σ : Type} (Q : Err → Bytes → Prop) (hm : Mono Q) (known : Nat → Prop)
    (step : Nat → Nat → Bytes → σ → Except Err (Option (σ × Bytes)))
    (hq : ∀ s, TruncatedAt known s → Q .hang s)
    (hk : ∀ i n s st, step i n s st = .ok none → ¬ known i)
    (he : ∀ s i n r st, deserializeFieldHeader s = some (i, n, r) →
      StepOK (fun e _ => Q e s) (r.take n) (step i n (r.take n) st)) :
    ∀ fuel s st, s.length < fuel → ExOK Q s (structLoop step fuel s st) := by
  intro fuel
  induction fuel with
  | zero => intro s st h; omega
  | succ fuel ih =>
    intro s st h
    simp only [structLoop]
    cases hs : deserializeFieldHeader s with
    | none => trivial
    | some p =>
      obtain ⟨i, n, r⟩ := p
      have h1 := deserializeFieldHeader_suffix hs
      have h2 := he s i n r st hs
      simp only
      cases hr : step i n (r.take n) st with
      | error e => rw [hr] at h2; exact h2
      | ok q =>
        cases q with
        | some q =>
          obtain ⟨a, rest⟩ := q
          rw [hr] at h2
          have h3 := rest_suffix h2
          have h4 := ih (rest ++ r.drop n) a (by have := h3.length_le; omega)
          simp only
          cases hl : structLoop step fuel (rest ++ r.drop n) a with
          | ok l => trivial
          | error e =>
            rw [hl] at h4
            exact hm e _ _ (h3.trans h1.1).isInfix h4
        | none =>
          simp only [skip]
          by_cases hn : n ≤ r.length
          · simp only [if_pos hn]
            have h4 := ih (r.drop n) st (by simp only [List.length_drop]; omega)
            cases hl : structLoop step fuel (r.drop n) st with
            | ok l => trivial
            | error e =>
              rw [hl] at h4
              exact hm e _ _ ((List.drop_suffix n r).trans h1.1).isInfix h4
          · simp only [if_neg hn]
            exact hq s ⟨i, n, r, hs, by omega, hk _ _ _ _ hr⟩

theorem choiceLoop_ok {α β : Type} (Q : Err → Bytes → Prop) (hm : Mono Q) (known : Nat → Prop)
    (step : Nat → Nat → Bytes → Except Err (Option ((α ⊕ β) × Bytes)))
    (hq0 : ∀ s, Q .eof s)
    (hq : ∀ s, TruncatedAt known s → Q .hang s)
    (hk : ∀ i n s, step i n s = .ok none → ¬ known i)
    (he : ∀ s i n r, deserializeFieldHeader s = some (i, n, r) →
      StepOK (fun e _ => Q e s) (r.take n) (step i n (r.take n))) :
    ∀ fuel s, s.length < fuel → ExOK Q s (choiceLoop step fuel s) := by
  intro fuel
  induction fuel with
  | zero => intro s h; omega
  | succ fuel ih =>
    intro s h
    simp only [choiceLoop]
    cases hs : deserializeFieldHeader s with
    | none => exact hq0 s
    | some p =>
      obtain ⟨i, n, r⟩ := p
      have h1 := deserializeFieldHeader_suffix hs
      have h2 := he s i n r hs
      simp only
      cases hr : step i n (r.take n) with
      | error e => rw [hr] at h2; exact h2
      | ok q =>
        cases q with
        | some q =>
          obtain ⟨a, rest⟩ := q
          cases a with
          | inr b => trivial
          | inl a =>
            rw [hr] at h2
            have h3 := rest_suffix h2
            have h4 := ih (rest ++ r.drop n) (by have := h3.length_le; omega)
            simp only
            cases hl : choiceLoop step fuel (rest ++ r.drop n) with
            | ok l => trivial
            | error e =>
              rw [hl] at h4
              exact hm e _ _ (h3.trans h1.1).isInfix h4
        | none =>
          simp only [skip]
          by_cases hn : n ≤ r.length
          · simp only [if_pos hn]
            have h4 := ih (r.drop n) (by simp only [List.length_drop]; omega)
            cases hl : choiceLoop step fuel (r.drop n) with
            | ok l => trivial
            | error e =>
              rw [hl] at h4
              exact hm e _ _ ((List.drop_suffix n r).trans h1.1).isInfix h4
          · simp only [if_neg hn]
            exact hq s ⟨i, n, r, hs, by omega, hk _ _ _ hr⟩

/-! ### Whole decoder -/

/-- How the decoder may fail on `s`. -/
def Fail (D : Fields → Prop) (S : Prop) (lim : Nat) (e : Err) (s : Bytes) : Prop :=
  match e with
  | .eof => True
  | .invalid => True
  | .fuel => False
  | .hang => ∃ body fs, body <:+: s ∧ D fs ∧ TruncatedAt (· ∈ fs.indices) body
  | .panic => S ∧ (lim < 72 ∨
      ∃ body v r, body <:+: s ∧ deserializeVarint body = some (v, r) ∧ lim < 8 * v.toNat)

theorem Fail.mono {D : Fields → Prop} {S : Prop} {lim : Nat} : Mono (Fail D S lim) := by
  intro e s s' hs h
  cases e with
  | eof => trivial
  | invalid => trivial
  | fuel => exact h
  | hang =>
    obtain ⟨body, fs, h1, h2⟩ := h
    exact ⟨body, fs, h1.trans hs, h2⟩
  | panic =>
    obtain ⟨hS, h | ⟨body, v, r, h1, h2⟩⟩ := h
    · exact ⟨hS, .inl h⟩
    · exact ⟨hS, .inr ⟨body, v, r, h1.trans hs, h2⟩⟩

/-- As `Fail`, but the claimed size of the value itself may also be too large. -/
def FailN (D : Fields → Prop) (S : Prop) (lim n : Nat) (e : Err) (s : Bytes) : Prop :=
  Fail D S lim e s ∨ (e = .panic ∧ S ∧ lim < 8 * n)

theorem FailN.header {D : Fields → Prop} {S : Prop} {lim n i : Nat} {e : Err} {s r : Bytes}
    (h : FailN D S lim n e (r.take n)) (hs : deserializeFieldHeader s = some (i, n, r)) :
    Fail D S lim e s := by
  rcases h with h | ⟨rfl, hS, h⟩
  · exact Fail.mono _ _ _ ((List.take_prefix n r).isInfix.trans (deserializeFieldHeader_suffix hs).1.isInfix) h
  · rcases deserializeFieldHeader_size hs with h' | ⟨s', v, r', h1, h2, h3⟩
    · exact ⟨hS, .inl (by omega)⟩
    · exact ⟨hS, .inr ⟨s', v, r', h1.isInfix, h2, by omega⟩⟩

theorem FailN.elem {D : Fields → Prop} {S : Prop} {lim : Nat} {v : UInt64} {e : Err} {s r : Bytes}
    (h : FailN D S lim v.toNat e (r.take v.toNat)) (hs : deserializeVarint s = some (v, r)) :
    Fail D S lim e s := by
  rcases h with h | ⟨rfl, hS, h⟩
  · exact Fail.mono _ _ _ ((List.take_prefix _ r).isInfix.trans (deserializeVarint_suffix hs).1.isInfix) h
  · exact ⟨hS, .inr ⟨s, v, r, List.infix_rfl, hs, h⟩⟩

theorem readU64Field_resOK {D : Fields → Prop} {S : Prop} {lim n : Nat} (s : Bytes) :
    ResOK (FailN D S lim n) s (readU64Field n s) := by
  unfold readU64Field
  split
  · exact List.suffix_rfl
  · cases h : readExact 8 s with
    | none => exact .inl trivial
    | some p => exact (readExact_suffix h).1
  · cases h : deserializeVarint s with
    | none => exact .inl trivial
    | some p => exact (deserializeVarint_suffix h).1

theorem readScalarField_resOK {D : Fields → Prop} {S : Prop} {lim n : Nat} : (sc : Scalar) → (s : Bytes) →
    ResOK (FailN D S lim n) s (readScalarField sc n s)
  | .bool, s => by
    have h := readU64Field_resOK (D := D) (S := S) (lim := lim) (n := n) s
    simp only [readScalarField]
    cases hr : readU64Field n s with
    | error e => rw [hr] at h; exact h
    | ok p => rw [hr] at h; exact h
  | .s64, s => by
    have h := readU64Field_resOK (D := D) (S := S) (lim := lim) (n := n) s
    simp only [readScalarField]
    cases hr : readU64Field n s with
    | error e => rw [hr] at h; exact h
    | ok p => rw [hr] at h; exact h
  | .u64, s => readU64Field_resOK s
  | .f64, s => by
    simp only [readScalarField]
    split
    · exact List.suffix_rfl
    · cases h : readExact 8 s with
      | none => exact .inl trivial
      | some p => exact (readExact_suffix h).1

theorem readScalarElem_length : (sc : Scalar) → (s : Bytes) → (a : sc.Val) → (r : Bytes) →
    readScalarElem sc s = some (a, r) → r <:+ s ∧ r.length < s.length
  | .bool, s, a, r, h => by
    simp only [readScalarElem] at h
    cases hv : deserializeVarint s with
    | none => rw [hv] at h; cases h
    | some p => rw [hv] at h; cases h; exact deserializeVarint_suffix hv
  | .s64, s, a, r, h => by
    simp only [readScalarElem] at h
    cases hv : deserializeVarint s with
    | none => rw [hv] at h; cases h
    | some p => rw [hv] at h; cases h; exact deserializeVarint_suffix hv
  | .u64, s, a, r, h => deserializeVarint_suffix h
  | .f64, s, a, r, h => by
    simp only [readScalarElem] at h
    cases hv : readExact 8 s with
    | none => rw [hv] at h; cases h
    | some p =>
      rw [hv] at h
      cases h
      have h1 := readExact_suffix hv
      unfold readExact at hv
      split at hv
      · cases hv; exact ⟨h1.1, by simp only [List.length_drop]; omega⟩
      · cases hv

theorem Fields.step_known (lim : Nat) : (fs : Fields) → (i n : Nat) → (s : Bytes) → (st : fs.Slots) →
    fs.step lim i n s st = .ok none → i ∉ fs.indices
  | .nil, _, _, _, _, _ => by simp [Fields.indices]
  | .cons j r t rest, i, n, s, (o, os), h => by
    simp only [Fields.step] at h
    split at h
    · cases hd : t.deser lim n s with
      | error e => rw [hd] at h; cases h
      | ok p => rw [hd] at h; cases h
    · rename_i hne
      have ih := Fields.step_known lim rest i n s os
      cases hs : rest.step lim i n s os with
      | error e => rw [hs] at h; cases h
      | ok q =>
        cases q with
        | none =>
          simp only [Fields.indices, List.mem_cons, not_or]
          exact ⟨hne, ih hs⟩
        | some q => rw [hs] at h; cases h

theorem Fields.select_known (lim : Nat) : (fs : Fields) → (i n : Nat) → (s : Bytes) →
    fs.select lim i n s = .ok none → i ∉ fs.indices
  | .nil, _, _, _, _ => by simp [Fields.indices]
  | .cons j r t rest, i, n, s, h => by
    simp only [Fields.select] at h
    split at h
    · cases hd : t.deser lim n s with
      | error e => rw [hd] at h; cases h
      | ok p =>
        rw [hd] at h
        simp only at h
        split at h <;> cases h
    · rename_i hne
      have ih := Fields.select_known lim rest i n s
      cases hs : rest.select lim i n s with
      | error e => rw [hs] at h; cases h
      | ok q =>
        cases q with
        | none =>
          simp only [Fields.indices, List.mem_cons, not_or]
          exact ⟨hne, ih hs⟩
        | some q =>
          rw [hs] at h
          obtain ⟨q, r'⟩ := q
          cases q <;> cases h

theorem StepOK.imp {α : Type} {Q Q' : Err → Bytes → Prop} {s : Bytes} {r : Except Err (Option (α × Bytes))}
    (h : StepOK Q s r) (hq : ∀ e, Q e s → Q' e s) : StepOK Q' s r := by
  cases r with
  | error e => exact hq e h
  | ok q =>
    cases q with
    | none => trivial
    | some q => exact h

theorem ResOK.imp {α : Type} {Q Q' : Err → Bytes → Prop} {s : Bytes} {r : Res α}
    (h : ResOK Q s r) (hq : ∀ e, Q e s → Q' e s) : ResOK Q' s r := by
  cases r with
  | error e => exact hq e h
  | ok q => exact h

mutual
theorem CTy.deser_ok (D : Fields → Prop) (S : Prop) (lim : Nat) (isField : Bool) :
    (c : CTy) → c.AllDecls D → (c.hasBuffer = true → S) → (n : Nat) → (s : Bytes) →
    ResOK (FailN D S lim n) s (c.deser lim isField n s)
  | .bytes, _, hS, n, s => by
    simp only [CTy.deser]
    by_cases h : n ≤ lim
    · simp only [if_pos h]; exact List.nil_suffix
    · simp only [if_neg h]; exact .inr ⟨rfl, hS rfl, by omega⟩
  | .string, _, hS, n, s => by
    simp only [CTy.deser]
    by_cases h : n ≤ lim
    · simp only [if_pos h]
      split
      · exact List.nil_suffix
      · exact .inl trivial
    · simp only [if_neg h]; exact .inr ⟨rfl, hS rfl, by omega⟩
  | .units, _, _, n, s => by
    simp only [CTy.deser]
    cases isField with
    | true => exact readU64Field_resOK s
    | false =>
      change ResOK _ s (readU64Elem s)
      unfold readU64Elem
      cases h : deserializeVarint s with
      | none => exact .inl trivial
      | some p => exact (deserializeVarint_suffix h).1
  | .scalars sc, _, hS, n, s => by
    simp only [CTy.deser]
    split
    · rename_i h
      exact .inr ⟨rfl, hS (by simp [CTy.hasBuffer, h.1]), by omega⟩
    · obtain ⟨l, hl⟩ := scalarLoop_ok (readScalarElem sc)
        (fun s a r h => (readScalarElem_length sc s a r h).2) (s.length + 1) s (by omega)
      rw [hl]
      exact List.nil_suffix
  | .array c, hD, hS, n, s => by
    simp only [CTy.AllDecls] at hD
    simp only [CTy.hasBuffer] at hS
    simp only [CTy.deser]
    have h := arrayLoop_ok (Fail D S lim) Fail.mono (CTy.deser lim false c)
      (fun s v r hs => (CTy.deser_ok D S lim false c hD hS v.toNat (r.take v.toNat)).imp
        (fun e h => FailN.elem h hs)) (s.length + 1) s (by omega)
    cases hr : arrayLoop (CTy.deser lim false c) (s.length + 1) s with
    | error e => rw [hr] at h; exact .inl h
    | ok m => exact List.nil_suffix
  | .struct fs, hD, hS, n, s => by
    simp only [CTy.AllDecls] at hD
    simp only [CTy.hasBuffer] at hS
    simp only [CTy.deser]
    have h := structLoop_ok (Fail D S lim) Fail.mono (· ∈ fs.indices) (fs.step lim)
      (fun s h => ⟨s, fs, List.infix_rfl, hD.1, h⟩)
      (fun i n s st h => Fields.step_known lim fs i n s st h)
      (fun s i n r st hs => (Fields.step_ok D S lim fs hD.2 hS i n (r.take n) st).imp
        (fun e h => FailN.header h hs))
      (s.length + 1) s fs.emptySlots (by omega)
    cases hr : structLoop (fs.step lim) (s.length + 1) s fs.emptySlots with
    | error e => rw [hr] at h; exact .inl h
    | ok sl =>
      simp only
      cases fs.finish sl with
      | none => exact .inl trivial
      | some m => exact List.nil_suffix
  | .choice fs, hD, hS, n, s => by
    simp only [CTy.AllDecls] at hD
    simp only [CTy.hasBuffer] at hS
    simp only [CTy.deser]
    have h := choiceLoop_ok (Fail D S lim) Fail.mono (· ∈ fs.indices) (fs.select lim)
      (fun s => trivial)
      (fun s h => ⟨s, fs, List.infix_rfl, hD.1, h⟩)
      (fun i n s h => Fields.select_known lim fs i n s h)
      (fun s i n r hs => (Fields.select_ok D S lim fs hD.2 hS i n (r.take n)).imp
        (fun e h => FailN.header h hs))
      (s.length + 1) s (by omega)
    cases hr : choiceLoop (fs.select lim) (s.length + 1) s with
    | error e => rw [hr] at h; exact .inl h
    | ok m => exact List.nil_suffix

theorem Ty.deser_ok (D : Fields → Prop) (S : Prop) (lim : Nat) :
    (t : Ty) → t.AllDecls D → (t.hasBuffer = true → S) → (n : Nat) → (s : Bytes) →
    ResOK (FailN D S lim n) s (t.deser lim n s)
  | .unit, _, _, _, s => List.suffix_rfl
  | .scalar sc, _, _, n, s => readScalarField_resOK sc s
  | .comp c, hD, hS, n, s => by
    simp only [Ty.AllDecls] at hD
    simp only [Ty.hasBuffer] at hS
    exact CTy.deser_ok D S lim true c hD hS n s

theorem Fields.step_ok (D : Fields → Prop) (S : Prop) (lim : Nat) :
    (fs : Fields) → fs.AllDecls D → (fs.hasBuffer = true → S) → (i n : Nat) → (s : Bytes) →
    (st : fs.Slots) → StepOK (FailN D S lim n) s (fs.step lim i n s st)
  | .nil, _, _, _, _, _, _ => trivial
  | .cons j r t rest, hD, hS, i, n, s, (o, os) => by
    simp only [Fields.AllDecls] at hD
    simp only [Fields.hasBuffer, Bool.or_eq_true] at hS
    simp only [Fields.step]
    split
    · have h := Ty.deser_ok D S lim t hD.1 (fun h => hS (.inl h)) n s
      cases hd : t.deser lim n s with
      | error e => rw [hd] at h; exact h
      | ok p => rw [hd] at h; exact h
    · have h := Fields.step_ok D S lim rest hD.2 (fun h => hS (.inr h)) i n s os
      cases hd : rest.step lim i n s os with
      | error e => rw [hd] at h; exact h
      | ok q =>
        cases q with
        | none => trivial
        | some q => rw [hd] at h; exact h

theorem Fields.select_ok (D : Fields → Prop) (S : Prop) (lim : Nat) :
    (fs : Fields) → fs.AllDecls D → (fs.hasBuffer = true → S) → (i n : Nat) → (s : Bytes) →
    StepOK (FailN D S lim n) s (fs.select lim i n s)
  | .nil, _, _, _, _, _ => trivial
  | .cons j r t rest, hD, hS, i, n, s => by
    simp only [Fields.AllDecls] at hD
    simp only [Fields.hasBuffer, Bool.or_eq_true] at hS
    simp only [Fields.select]
    split
    · have h := Ty.deser_ok D S lim t hD.1 (fun h => hS (.inl h)) n s
      cases hd : t.deser lim n s with
      | error e => rw [hd] at h; exact h
      | ok p =>
        rw [hd] at h
        simp only
        split <;> exact h
    · have h := Fields.select_ok D S lim rest hD.2 (fun h => hS (.inr h)) i n s
      cases hd : rest.select lim i n s with
      | error e => rw [hd] at h; exact h
      | ok q =>
        cases q with
        | none => trivial
        | some q =>
          rw [hd] at h
          obtain ⟨q, r'⟩ := q
          cases q <;> exact h
end

end Typical
